import Verif.Props.CurvesAccuracy
import Verif.Model.BootUtil
import Mathlib.Data.Rat.Floor

/-!
# Properties C104 to C106 in double precision

Consequences for `binary64`, and concrete inputs.
-/

set_option linter.unusedSectionVars false

namespace Mlp.Props
open Mlp.Util Mlp.Perf Mlp.PerfR Mlp.Spec Mlp.Lemmas Mlp.Round

section
variable {K : Type} [Field K] [LinearOrder K] [IsStrictOrderedRing K] [FloorRing K] {sumR : List K → K}

theorem binary64_nat {n : Nat} (hn : n ≤ 2 ^ 53) : ∀ k : Nat, k ≤ n → binary64 (k : K) = k := by
  intro k hk
  have := binary64_exact (K := K) (k : Int) 0 (by
    rw [abs_of_nonneg (by positivity)]
    exact_mod_cast hk.trans hn)
  simpa using this

/-- **C105, without weights in double precision.**  For up to `2^53` samples without weights none of the curves
fails. -/
theorem C105_unweighted_double {y : List Bool} {s : List K} (h : CurveInput y s none) (hn : y.length ≤ 2 ^ 53) :
    (∃ v, rocCurveR binary64 sumR y (finVec s) none = .ok v) ∧
      (∃ v, recallPrecisionCurveR binary64 sumR y (finVec s) none = .ok v) ∧
      ∃ v, prgCurveR binary64 sumR y (finVec s) none = .ok v :=
  C105_unweighted binary64_floatRounding h rfl (binary64_nat hn)

/-- A row of weights of the bootstrap of `n` samples: how often each sample was drawn, but at least `ε`. -/
def BootRow (n : Nat) (ε : K) (w : List K) : Prop :=
  ∃ counts : List Nat, counts.length = n ∧ counts.sum = n ∧ w = counts.map fun (k : Nat) => max ε (k : K)

theorem bootRow_sum {ε : K} (h0 : 0 ≤ ε) (counts : List Nat) :
    (counts.map fun (k : Nat) => max ε (k : K)).sum ≤ counts.sum + counts.length * ε := by
  induction counts with
  | nil => simp
  | cons k l ih =>
    rw [List.map_cons, List.sum_cons, List.sum_cons, List.length_cons]
    have : max ε (k : K) ≤ k + ε := max_le (by linarith [(Nat.cast_nonneg k : (0 : K) ≤ k)]) (by linarith)
    rw [Nat.cast_add, Nat.cast_succ]
    linarith

theorem total_eq_sum {y : List Bool} {s w : List K} (h1 : s.length = y.length) (h2 : w.length = y.length) :
    posTotal (samples y s w) + negTotal (samples y s w) = w.sum := by
  have e := wsum_split (samples y s w) (fun _ => true) fun a => a.label
  simp only [Bool.true_and] at e
  have e2 : wsum (samples y s w) (fun _ => true) = w.sum := by
    unfold wsum
    simp only [if_true]
    rw [samples_weights h1 h2]
  rw [← e2, e]
  rfl

section
variable {y : List Bool} {s : List K} {W : List (List K)} (hl : s.length = y.length) (hne : y ≠ []) (hW : W ≠ [])
  (hb : ∀ w ∈ W, BootRow y.length (binary64 (1 / 10000000000 : K)) w)
include hl hne hW hb

omit hl hne hW hb in
theorem eps_bounds : (99 / 1000000000000 : K) ≤ binary64 (1 / 10000000000) ∧
    binary64 (1 / 10000000000 : K) ≤ 101 / 1000000000000 := by
  have := binary64_relError (1 / 10000000000 : K)
  rw [abs_of_nonneg (by norm_num : (0 : K) ≤ 1 / 10000000000), abs_le] at this
  constructor <;> norm_num at this ⊢ <;> linarith [this.1, this.2]

theorem boot_input : CurveInput y s (some W) := by
  refine ⟨hl, hne, hW, ?_⟩
  intro w hw
  obtain ⟨counts, h1, -, rfl⟩ := hb w hw
  refine ⟨by simp [h1], ?_⟩
  intro v hv
  obtain ⟨k, -, rfl⟩ := List.mem_map.1 hv
  exact lt_of_lt_of_le (by linarith [(eps_bounds (K := K)).1, (by norm_num : (0 : K) < 99 / 1000000000000)])
    (le_max_left _ _)

theorem boot_total {w : List K} (hw : w ∈ W) :
    posTotal (samples y s w) + negTotal (samples y s w) ≤ 1000001 / 1000000 * y.length := by
  have hin := boot_input hl hne hW hb
  rw [total_eq_sum hl (hin.weights w hw).1]
  obtain ⟨counts, h1, h2, rfl⟩ := hb w hw
  obtain ⟨e1, e2⟩ := eps_bounds (K := K)
  have := bootRow_sum (ε := binary64 (1 / 10000000000 : K)) (by linarith [(by norm_num : (0 : K) < 99 / 1000000000000)]) counts
  rw [h1, h2] at this
  refine this.trans ?_
  have hn : (0 : K) ≤ y.length := Nat.cast_nonneg _
  have : (y.length : K) * binary64 (1 / 10000000000) ≤ y.length * (101 / 1000000000000) :=
    mul_le_mul_of_nonneg_left e2 hn
  linarith

theorem boot_rows_ok (hs : AddsAlongTrees binary64 sumR) (hn : y.length ≤ 3000) :
    ((∃ v, rocCurveR binary64 sumR y (finVec s) (some (finMat y.length W)) = .ok v) ∧
      ∃ v, prgCurveR binary64 sumR y (finVec s) (some (finMat y.length W)) = .ok v) ∧
    (y.length ≤ 300 → ∃ v, recallPrecisionCurveR binary64 sumR y (finVec s) (some (finMat y.length W)) = .ok v) := by
  have hin := boot_input hl hne hW hb
  have hu : (0 : K) ≤ 1 / 2 ^ 53 := by positivity
  have hse : SumError (1 / 2 ^ 53 : K) sumR := sumError_of_trees hu binary64_relError hs
  have hn0 : (0 : K) ≤ y.length := Nat.cast_nonneg _
  have hn' : (y.length : K) ≤ 3000 := by exact_mod_cast hn
  have hnu : (y.length : K) * (1 / 2 ^ 53) ≤ 1 / 1000000 := by
    norm_num
    linarith
  have hmain : ∀ w ∈ W, 9 * ((y.length : K) * (1 / 2 ^ 53)) * (posTotal (samples y s w) + negTotal (samples y s w)) ≤
      1 / 100000000 + 1 / 100000 * negTotal (samples y s w) := by
    intro w hw
    have ht := boot_total hl hne hW hb hw
    obtain ⟨p0, n0⟩ := totals_nonneg hin hw
    have h1 : 9 * ((y.length : K) * (1 / 2 ^ 53)) * (posTotal (samples y s w) + negTotal (samples y s w)) ≤
        9 * (3000 * (1 / 2 ^ 53)) * (1000001 / 1000000 * 3000) :=
      mul_le_mul (by gcongr) (ht.trans (by gcongr)) (by linarith) (by positivity)
    have h2 : (9 * (3000 * (1 / 2 ^ 53)) * (1000001 / 1000000 * 3000) : K) ≤ 1 / 100000000 := by norm_num
    have h3 : (0 : K) ≤ 1 / 100000 * negTotal (samples y s w) := by positivity
    linarith
  refine ⟨C105_weighted binary64_floatRounding hin hu binary64_relError hse hnu (by simp) fun _ => hmain, ?_⟩
  intro hn3
  have hn3' : (y.length : K) ≤ 300 := by exact_mod_cast hn3
  refine C105_recall_precision binary64_floatRounding hin hu binary64_relError hse hnu (by simp) fun hy w hw =>
    ⟨hmain w hw, ?_⟩
  have ht := boot_total hl hne hW hb hw
  obtain ⟨p0, n0⟩ := totals_nonneg hin hw
  have h1 : 6 * ((y.length : K) * (1 / 2 ^ 53)) * (posTotal (samples y s w) + negTotal (samples y s w)) ≤
      6 * (300 * (1 / 2 ^ 53)) * (1000001 / 1000000 * 300) :=
    mul_le_mul (by gcongr) (ht.trans (by gcongr)) (by linarith) (by positivity)
  have h2 : (6 * (300 * (1 / 2 ^ 53)) * (1000001 / 1000000 * 300) : K) < 99 / 1000000000000 := by norm_num
  refine lt_of_le_of_lt h1 (lt_of_lt_of_le h2 ?_)
  -- a negative sample weighs at least `ε`
  obtain ⟨b, hbm, rfl⟩ := hy
  obtain ⟨a, ha, hal⟩ := hin.exists_label hw hbm
  have hge : a.weight ≤ negTotal (samples y s w) := by
    have hwp := hin.weight_pos hw
    have e : a.weight = (fun c : Sample K => if !c.label then c.weight else 0) a := by simp [hal]
    rw [e]
    refine List.single_le_sum ?_ _ (List.mem_map_of_mem ha)
    intro v hv
    obtain ⟨c, hc, rfl⟩ := List.mem_map.1 hv
    simp only
    split_ifs
    · exact (hwp c hc).le
    · exact le_rfl
  refine le_trans ?_ hge
  have hwm := (mem_samples hl (hin.weights w hw).1 ha).2.1
  obtain ⟨counts, -, -, rfl⟩ := hb w hw
  obtain ⟨k, -, hk⟩ := List.mem_map.1 hwm
  rw [← hk]
  exact (eps_bounds (K := K)).1.trans (le_max_left _ _)

end

/-- **C105, bootstrap.**  With the weights that `curve_boot` draws (how often each sample was drawn, but at
least `1e-10`), in double precision and with `np.sum` adding in any order, the ROC and the
precision-recall-gain curve succeed for up to 3000 samples and every outcome of the draws, and the
recall-precision curve for up to 300 samples. -/
theorem C105_bootstrap {y : List Bool} {s : List K} (hl : s.length = y.length) {nBoot : Int}
    {counts : List (List Nat)} (hc : ∀ row ∈ counts, row.sum = y.length) {W : List (List K)}
    (hW : Boot.bootWeights y.length nBoot (binary64 (1 / 10000000000 : K)) counts = .ok W)
    (hs : AddsAlongTrees binary64 sumR) (hn : y.length ≤ 3000) :
    ((∃ v, rocCurveR binary64 sumR y (finVec s) (some (finMat y.length W)) = .ok v) ∧
      ∃ v, prgCurveR binary64 sumR y (finVec s) (some (finMat y.length W)) = .ok v) ∧
    (y.length ≤ 300 → ∃ v, recallPrecisionCurveR binary64 sumR y (finVec s) (some (finMat y.length W)) = .ok v) := by
  unfold Boot.bootWeights at hW
  by_cases h1 : (1 : Int) ≤ y.length
  · by_cases h2 : 1 ≤ nBoot
    · simp only [pyAssert_bind, h1, h2, decide_true, if_true] at hW
      split_ifs at hW with h3
      rw [pure_eq_ok, Except.ok.injEq] at hW
      subst hW
      rw [Bool.and_eq_true, decide_eq_true_eq, List.all_eq_true] at h3
      refine boot_rows_ok hl ?_ ?_ ?_ hs hn
      · rintro rfl
        simp at h1
      · intro h0
        rw [h0] at h3
        simp at h3
        omega
      · intro w hw
        have h4 := of_decide_eq_true (h3.2 w hw)
        obtain ⟨row, hrow, rfl⟩ := List.mem_map.1 hw
        rw [List.length_map] at h4
        exact ⟨row, by exact_mod_cast h4, hc row hrow, rfl⟩
    · simp [pyAssert_bind, h1, h2] at hW
  · simp [pyAssert_bind, h1] at hW

end

/-! ## Examples -/

/-- Adding from left to right. -/
def seqSum (l : List ℚ) : ℚ := foldR binary64 0 l

theorem seqSum_trees : AddsAlongTrees (binary64 : ℚ → ℚ) (fun l => match l with
    | [] => 0
    | a :: l => foldR binary64 a l) := by
  refine ⟨rfl, fun l hl => ?_⟩
  obtain ⟨a, l, rfl⟩ := List.exists_cons_of_ne_nil hl
  suffices h : ∀ (l : List ℚ) (t : SumTree ℚ), ∃ t' : SumTree ℚ, t'.leaves.Perm (t.leaves ++ l) ∧
      foldR binary64 (t.eval binary64) l = t'.eval binary64 by
    obtain ⟨t', h1, h2⟩ := h l (.leaf a)
    exact ⟨t', h1, h2⟩
  intro l
  induction l with
  | nil => intro t; exact ⟨t, by simp, rfl⟩
  | cons b l ih =>
    intro t
    obtain ⟨t', h1, h2⟩ := ih (.node t (.leaf b))
    refine ⟨t', ?_, h2⟩
    simpa [SumTree.leaves] using h1

theorem argsort_two : argsortStable [2, (1 : ℚ)] = [1, 0] := by
  simp [argsortStable, List.mergeSort, List.MergeSort.Internal.splitInTwo, List.zipIdx]

-- the hypotheses can be met
example : FloatRounding (binary64 : ℚ → ℚ) := binary64_floatRounding
example : CurveInput [true, false] [2, (1 : ℚ)] none := ⟨rfl, by simp, by simp [weightRows], by decide +kernel⟩
example : Boot.bootWeights 3 1 (binary64 (1 / 10000000000 : ℚ)) [[2, 0, 1]] =
    .ok [[2, binary64 (1 / 10000000000), 1]] := by decide +kernel
example : BootRow 3 (binary64 (1 / 10000000000 : ℚ)) [2, binary64 (1 / 10000000000), 1] :=
  ⟨[2, 0, 1], rfl, rfl, by decide +kernel⟩
example : (∃ v, rocCurveR binary64 seqSum [true, false] (finVec [2, (1 : ℚ)]) none = .ok v) :=
  (C105_unweighted_double (K := ℚ) (y := [true, false]) (s := [2, 1]) ⟨rfl, by simp, by simp [weightRows], by decide +kernel⟩ (by decide)).1
example : 12 * (((2 : Nat) : ℚ) * (1 / 2 ^ 53)) * (posTotal (samples [true, false] [2, 1] [3, 1 / 2]) +
    negTotal (samples [true, false] [2, 1] [3, 1 / 2])) ≤ negTotal (samples [true, false] [2, (1 : ℚ)] [3, 1 / 2]) := by
  decide +kernel

/-- With weights `1e16` and 1 the running sum loses the second weight: the check of line 118 fails although with
exact arithmetic it never does (C64). -/
theorem C105_fails : rocCurveR binary64 seqSum [true, false] (finVec [2, (1 : ℚ)])
      (some (finMat 2 [[10 ^ 16, 1]])) = .error .assertion ∧
    ∃ v, rocCurve [true, false] (finVec [2, (1 : ℚ)]) (some (finMat 2 [[10 ^ 16, 1]])) = .ok v := by
  have hin : CurveInput [true, false] [2, (1 : ℚ)] (some [[10 ^ 16, 1]]) :=
    ⟨rfl, by simp, by simp [weightRows], by decide +kernel⟩
  constructor
  · refine (rocR_eq (sumR := seqSum) binary64_floatRounding hin (by simp)).trans (if_neg ?_)
    simp only [closeAll, descIdx, argsort_two]
    decide +kernel
  · obtain ⟨thr, -, e⟩ := C64_roc hin
    exact ⟨_, e⟩

/-- A light negative sample (`2^-30`) with the highest score before a heavy positive one (`1e8`): the ROC curve
is computed, but the first precision becomes 0/0 and `recall_precision_curve` fails. -/
theorem C105_precision_fails :
    (∃ v, rocCurveR binary64 seqSum [false, true] (finVec [2, (1 : ℚ)])
      (some (finMat 2 [[1 / 2 ^ 30, 10 ^ 8]])) = .ok v) ∧
    recallPrecisionCurveR binary64 seqSum [false, true] (finVec [2, (1 : ℚ)])
      (some (finMat 2 [[1 / 2 ^ 30, 10 ^ 8]])) = .error .assertion := by
  have hin : CurveInput [false, true] [2, (1 : ℚ)] (some [[1 / 2 ^ 30, 10 ^ 8]]) :=
    ⟨rfl, by simp, by simp [weightRows], by decide +kernel⟩
  have hc : closeAll binary64 seqSum [false, true] [2, (1 : ℚ)] (some [[1 / 2 ^ 30, 10 ^ 8]]) = true := by
    simp only [closeAll, descIdx, argsort_two]
    decide +kernel
  constructor
  · have e := rocR_eq (sumR := seqSum) binary64_floatRounding hin (by simp)
    rw [if_pos hc] at e
    exact ⟨_, e⟩
  · refine (rpR_eq (sumR := seqSum) binary64_floatRounding hin (by simp)).trans (if_neg ?_)
    rw [hc, Bool.true_and]
    simp only [countRow, rawRow, descIdx, argsort_two]
    decide +kernel

end Mlp.Props
