import Verif.Props.AucRound
import Verif.Props.TableDouble

/-! # Property C116: areas under curves in double precision, up to `curve_boot` -/

set_option linter.unusedSectionVars false

namespace Mlp.Props
open Mlp.PerfR Mlp.Perf Mlp.BootR Mlp.Boot Mlp.Util Mlp.Spec Mlp.Lemmas Mlp.CurveR Mlp.Classif Mlp.Frame Mlp.Round

section
variable {K : Type} [Field K] [LinearOrder K] [IsStrictOrderedRing K] [FloorRing K] {sumR : List K → K}

theorem double_nu {n : Nat} (hn : n ≤ 2 ^ 40) : (n : K) * (1 / 2 ^ 53) ≤ 1 / 100 := by
  have : (n : K) ≤ 2 ^ 40 := by exact_mod_cast hn
  have h2 : (n : K) * (1 / 2 ^ 53) ≤ 2 ^ 40 * (1 / 2 ^ 53) := mul_le_mul_of_nonneg_right this (by positivity)
  refine h2.trans (by norm_num)

/-- **C116, double precision.**  For up to `2^40` samples of both classes, without weights, the computed area under the ROC curve
is within `6 n / 2^53` of the Mann-Whitney statistic, and that under the recall-precision curve within `8 n / 2^53` of the
exact one. -/
theorem C116_double (hs : AddsAlongTrees binary64 sumR) {y : List Bool} {s : List K} (h : CurveInput y s none)
    (hn : y.length ≤ 2 ^ 40) (hpos : true ∈ y) (hneg : false ∈ y) :
    (∃ c thr a, rocCurveR binary64 sumR y (finVec s) none = .ok (c, thr) ∧
      areaR binary64 sumR c.x c.y c.kind = .ok [.fin a] ∧
      |a - mannWhitney (samples y s (List.replicate y.length 1))| ≤ 6 * (y.length * (1 / 2 ^ 53))) ∧
    ∃ c thr a c' thr' b, recallPrecisionCurveR binary64 sumR y (finVec s) none = .ok (c, thr) ∧
      areaR binary64 sumR c.x c.y c.kind = .ok [.fin a] ∧ recallPrecisionCurve y (finVec s) none = .ok (c', thr') ∧
      area c'.x c'.y c'.kind = .ok [.fin b] ∧ |a - b| ≤ 8 * (y.length * (1 / 2 ^ 53)) :=
  C116_unweighted binary64_floatRounding hs h (by positivity) binary64_relError (double_nu hn) (binary64_nat (by omega)) hpos hneg

/-- A sample of negative label weighs no more than all of them. -/
theorem weight_le_neg {y : List Bool} {s w : List K} (h1 : s.length = y.length) (h2 : w.length = y.length) (h0 : ∀ v ∈ w, 0 < v)
    {i : Nat} (hi : y[i]? = some false) {v : K} (hv : w[i]? = some v) : v ≤ negTotal (samples y s w) := by
  obtain ⟨hi1, hi2⟩ := List.getElem?_eq_some_iff.1 hi
  obtain ⟨hv1, hv2⟩ := List.getElem?_eq_some_iff.1 hv
  have hm : (⟨s[i]'(by omega), false, v⟩ : Sample K) ∈ samples y s w := by
    rw [List.mem_iff_getElem]
    refine ⟨i, by simp [samples]; omega, ?_⟩
    simp [samples, hi2, hv2]
  have hwp : ∀ a ∈ samples y s w, 0 < a.weight := fun a ha => h0 _ (mem_samples h1 h2 ha).2.1
  have e : v = (fun c : Sample K => if !c.label then c.weight else 0) ⟨s[i]'(by omega), false, v⟩ := by simp
  rw [e]
  refine List.single_le_sum ?_ _ (List.mem_map_of_mem hm)
  intro x hx
  obtain ⟨c, hc, rfl⟩ := List.mem_map.1 hx
  simp only
  split_ifs
  · exact (hwp c hc).le
  · exact le_rfl

/-- **C116, bootstrap.**  For up to 3000 samples of both classes, in every replicate of the bootstrap that draws a negative sample
the computed area under the ROC curve is within `37 n^2 / 2^53` of the Mann-Whitney statistic of the weighted samples. -/
theorem C116_bootstrap (hs : AddsAlongTrees binary64 sumR) {y : List Bool} {s : List K} (hl : s.length = y.length)
    (hn : y.length ≤ 3000) (hpos : true ∈ y) (hneg : false ∈ y) {counts : List (List Nat)} (hc : counts ≠ [])
    (hcr : ∀ row ∈ counts, row.length = y.length ∧ row.sum = y.length) :
    ∃ c thr A, rocCurveR binary64 sumR y (finVec s)
        (some (finMat y.length (countRows (binary64 (1 / 10000000000)) counts))) = .ok (c, thr) ∧
      areaR binary64 sumR c.x c.y c.kind = .ok (finVec A) ∧
      List.Forall₂ (fun row a => (∃ i k : Nat, y[i]? = some false ∧ row[i]? = some k ∧ 1 ≤ k) →
        |a - mannWhitney (samples y s (row.map fun k : Nat => max (binary64 (1 / 10000000000)) (k : K)))| ≤
          37 * (y.length ^ 2 * (1 / 2 ^ 53))) counts A := by
  have hy : y ≠ [] := List.ne_nil_of_mem hpos
  have hb : ∀ w ∈ countRows (binary64 (1 / 10000000000 : K)) counts, BootRow y.length (binary64 (1 / 10000000000 : K)) w := by
    intro w hw
    obtain ⟨row, hrow, rfl⟩ := List.mem_map.1 hw
    exact ⟨row, (hcr row hrow).1, (hcr row hrow).2, rfl⟩
  have hW : countRows (binary64 (1 / 10000000000 : K)) counts ≠ [] := by simpa [countRows] using hc
  have hin := boot_input hl hy hW hb
  obtain ⟨⟨⟨⟨c, thr⟩, e⟩, -⟩, -⟩ := boot_rows_ok hl hy hW hb hs hn
  have hu : (0 : K) ≤ 1 / 2 ^ 53 := by positivity
  obtain ⟨A, eA, hA⟩ := C116_roc binary64_floatRounding hs hin hu binary64_relError (double_nu (by omega)) (by simp) hpos hneg e
  refine ⟨c, thr, A, e, eA, ?_⟩
  simp only [weightRows, Option.getD_some, countRows] at hA
  rw [List.forall₂_map_left_iff] at hA
  rw [List.forall₂_iff_get] at hA ⊢
  refine ⟨hA.1, fun j hj hj' => ?_⟩
  have h1 := hA.2 j hj hj'
  have hrow : counts[j] ∈ counts := List.getElem_mem hj
  simp only [List.get_eq_getElem] at h1 ⊢
  generalize counts[j] = row at *
  generalize A[j] = a at *
  rintro ⟨i, k, hi, hk, hk1⟩
  have hwm : (row.map fun k : Nat => max (binary64 (1 / 10000000000)) (k : K)) ∈
      countRows (binary64 (1 / 10000000000 : K)) counts := List.mem_map_of_mem hrow
  have hNeg : 1 ≤ negTotal (samples y s (row.map fun k : Nat => max (binary64 (1 / 10000000000)) (k : K))) := by
    have := weight_le_neg (s := s) hl (hin.weights _ hwm).1 (hin.weights _ hwm).2 hi
      (v := max (binary64 (1 / 10000000000)) (k : K)) (by simp [hk])
    have hk' : (1 : K) ≤ k := by exact_mod_cast hk1
    exact hk'.trans ((le_max_right _ _).trans this)
  have hT := boot_total hl hy hW hb hwm
  generalize samples y s (row.map fun k : Nat => max (binary64 (1 / 10000000000)) (k : K)) = S at *
  have hn' : (y.length : K) ≤ 3000 := by exact_mod_cast hn
  have hn0 : (0 : K) ≤ y.length := Nat.cast_nonneg _
  have hnn : (y.length : K) * y.length ≤ 3000 * 3000 := mul_le_mul hn' hn' hn0 (by norm_num)
  have hstep : 12 * (y.length * (1 / 2 ^ 53)) * (posTotal S + negTotal S) ≤
      12 * (1000001 / 1000000 * (y.length * y.length) * (1 / 2 ^ 53)) := by
    have : (y.length * (1 / 2 ^ 53)) * (posTotal S + negTotal S) ≤ (y.length * (1 / 2 ^ 53)) * (1000001 / 1000000 * y.length) :=
      mul_le_mul_of_nonneg_left hT (by positivity)
    linarith
  have h2 := h1 (by
    refine hstep.trans (le_trans ?_ hNeg)
    norm_num
    linarith)
  refine h2.trans ?_
  have hR : (posTotal S + negTotal S) / negTotal S ≤ 1000001 / 1000000 * y.length := by
    rw [div_le_iff₀ (by linarith)]
    refine hT.trans ?_
    have : 0 ≤ 1000001 / 1000000 * (y.length : K) := by positivity
    nlinarith
  calc 36 * (y.length * (1 / 2 ^ 53)) * ((posTotal S + negTotal S) / negTotal S)
      ≤ 36 * (y.length * (1 / 2 ^ 53)) * (1000001 / 1000000 * y.length) := mul_le_mul_of_nonneg_left hR (by positivity)
    _ ≤ 37 * (y.length ^ 2 * (1 / 2 ^ 53)) := by
      have : 0 ≤ (y.length : K) ^ 2 * (1 / 2 ^ 53) := by positivity
      nlinarith

/-- **C116, `curve_boot`.**  Whenever `curve_boot` returns for the ROC curve, with labels of both classes and up to `2^40` samples,
the reported area is a number within `6 n / 2^53` of the share of correctly ordered pairs of a positive and a negative sample. -/
theorem C116_curve_boot (hs : AddsAlongTrees binary64 sumR) {other : Interp K} {y : LabelVec} {p : Mat K} {ref : RefArg K}
    {xGrid : Option (List (Flt K))} {nBoot : Int} {pairwise : Bool} {conf : Flt K} {counts : List (List Nat)}
    {auc EB pval : Flt K} {rows : List (CurveRow K)}
    (h : curveBootR binary64 sumR other y p ref (rocCurveR binary64 sumR) xGrid nBoot pairwise conf counts =
      .ok ((auc, EB, pval), rows))
    {s : List K} (hsc : IsPosScore p (finVec s)) (hlen : y.vals.length = p.rows.length) (hn : p.rows.length ≤ 2 ^ 40)
    (hpos : ∃ v ∈ y.vals, v ≠ 0) (hneg : 0 ∈ y.vals) :
    ∃ a, auc = .fin a ∧
      |a - mannWhitney (samples (boolLabels y) s (List.replicate p.rows.length 1))| ≤ 6 * (p.rows.length * (1 / 2 ^ 53)) := by
  obtain ⟨-, -, -, -, -, -, -, -, -, -, -, -, hA, -⟩ := C115_result binary64_floatRounding h hsc rfl
  have hbl : (boolLabels y).length = p.rows.length := by rw [boolLabels, List.length_map, hlen]
  have hsl : s.length = (boolLabels y).length := by
    have := hsc.1
    simp only [finVec, List.length_map] at this
    omega
  have hp : true ∈ boolLabels y := by
    obtain ⟨v, hv, h0⟩ := hpos
    exact List.mem_map.2 ⟨v, hv, by simp [h0]⟩
  have hng : false ∈ boolLabels y := List.mem_map.2 ⟨0, hneg, by simp⟩
  have hin : CurveInput (boolLabels y) s none := curveInput_none (List.ne_nil_of_mem hp) hsl
  obtain ⟨⟨c, thr, a, e1, e2, e3⟩, -⟩ := C116_double hs hin (by omega) hp hng
  obtain ⟨c', thr', e1', e2'⟩ := hA
  rw [e1, Except.ok.injEq, Prod.mk.injEq] at e1'
  obtain ⟨rfl, rfl⟩ := e1'
  rw [e2, Except.ok.injEq, List.cons.injEq] at e2'
  rw [hbl] at e3
  exact ⟨a, e2'.1.symm, e3⟩

/-- C116, concrete: four samples, two of each class. -/
example : ∃ c thr a, rocCurveR binary64 doubleSum [true, false, true, false] (finVec [3, 2, 2, (1 : ℚ)]) none = .ok (c, thr) ∧
    areaR binary64 doubleSum c.x c.y c.kind = .ok [.fin a] ∧ |a - 7 / 8| ≤ 24 / 2 ^ 53 := by
  obtain ⟨⟨c, thr, a, e1, e2, e3⟩, -⟩ := C116_double (K := ℚ) doubleSum_trees
    (curveInput_none (y := [true, false, true, false]) (s := [3, 2, 2, 1]) (by simp) rfl) (by norm_num) (by simp) (by simp)
  refine ⟨c, thr, a, e1, e2, ?_⟩
  have : mannWhitney (samples [true, false, true, false] [3, 2, 2, (1 : ℚ)] (List.replicate 4 1)) = 7 / 8 := by
    decide +kernel
  simp only [List.length_cons, List.length_nil] at e3
  rw [this] at e3
  norm_num at e3 ⊢
  exact e3

/-- C116, concrete: a bootstrap replicate that draws a negative sample twice. -/
example : ∃ c thr A, rocCurveR binary64 doubleSum [true, false, true] (finVec [3, 2, (2 : ℚ)])
      (some (finMat 3 (countRows (binary64 (1 / 10000000000)) [[1, 2, 0]]))) = .ok (c, thr) ∧
    areaR binary64 doubleSum c.x c.y c.kind = .ok (finVec A) ∧ A.length = 1 := by
  obtain ⟨c, thr, A, h1, h2, h3⟩ := C116_bootstrap (K := ℚ) doubleSum_trees (y := [true, false, true]) (s := [3, 2, 2])
    (counts := [[1, 2, 0]]) rfl (by norm_num) (by simp) (by simp) (by simp) (by simp)
  exact ⟨c, thr, A, h1, h2, h3.length_eq.symm⟩

end
end Mlp.Props
