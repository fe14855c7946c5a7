import Verif.Lemmas.PerfRoundRows
import Verif.Spec.FloatSum

/-!
# Properties C104 to C106: the curves of binary classification in floating point arithmetic

The theorems hold for every rounding function with the properties `FloatRounding`, in particular for
double precision (`binary64`).
-/

set_option linter.unusedSectionVars false

namespace Mlp.Props
open Mlp.Util Mlp.Perf Mlp.PerfR Mlp.Spec Mlp.Lemmas Mlp.Round

section
variable {K : Type} [Field K] [LinearOrder K] [IsStrictOrderedRing K] {rnd : K → K} {sumR : List K → K}

/-! ## Sums -/

/-- Adding along a tree has a small relative error. -/
theorem tree_error {u : K} (hu : 0 ≤ u) (he : RelError u rnd) (t : SumTree K) (h : ∀ v ∈ t.leaves, 0 ≤ v) :
    |t.eval rnd - t.leaves.sum| ≤ ((1 + u) ^ (t.leaves.length - 1) - 1) * t.leaves.sum ∧ 1 ≤ t.leaves.length := by
  induction t with
  | leaf v => simp [SumTree.eval, SumTree.leaves]
  | node a b iha ihb =>
    have ha : ∀ v ∈ a.leaves, 0 ≤ v := fun v hv => h v (List.mem_append_left _ hv)
    have hb : ∀ v ∈ b.leaves, 0 ≤ v := fun v hv => h v (List.mem_append_right _ hv)
    obtain ⟨i1, l1⟩ := iha ha
    obtain ⟨i2, l2⟩ := ihb hb
    have hSa := List.sum_nonneg ha
    have hSb := List.sum_nonneg hb
    have hr := he (a.eval rnd + b.eval rnd)
    simp only [SumTree.eval, SumTree.leaves, List.sum_append, List.length_append]
    refine ⟨?_, by omega⟩
    obtain ⟨m, hm⟩ : ∃ m, a.leaves.length + b.leaves.length - 1 = m + 1 := ⟨a.leaves.length + b.leaves.length - 2, by omega⟩
    have p1 : (1 + u) ^ (a.leaves.length - 1) ≤ (1 + u) ^ m := pow_le_pow_right₀ (by linarith) (by omega)
    have p2 : (1 + u) ^ (b.leaves.length - 1) ≤ (1 + u) ^ m := pow_le_pow_right₀ (by linarith) (by omega)
    rw [hm, pow_succ]
    have hq : 1 ≤ (1 + u) ^ m := one_le_pow₀ (by linarith)
    generalize (1 + u) ^ m = q at *
    generalize a.leaves.sum = A at *
    generalize b.leaves.sum = B at *
    generalize a.eval rnd = x at *
    generalize b.eval rnd = y at *
    have j1 : |x - A| ≤ (q - 1) * A := i1.trans (mul_le_mul_of_nonneg_right (by linarith) hSa)
    have j2 : |y - B| ≤ (q - 1) * B := i2.trans (mul_le_mul_of_nonneg_right (by linarith) hSb)
    have j3 : |x + y - (A + B)| ≤ (q - 1) * (A + B) := by
      have : x + y - (A + B) = (x - A) + (y - B) := by ring
      rw [this]
      exact (abs_add_le _ _).trans (by linarith)
    have j4 : |x + y| ≤ q * (A + B) := by
      rw [abs_le] at j3 ⊢
      have : 0 ≤ (q - 1) * (A + B) := mul_nonneg (by linarith) (by linarith)
      constructor <;> nlinarith
    have j5 : |rnd (x + y) - (x + y)| ≤ u * (q * (A + B)) := hr.trans (mul_le_mul_of_nonneg_left j4 hu)
    have : rnd (x + y) - (A + B) = (rnd (x + y) - (x + y)) + (x + y - (A + B)) := by ring
    rw [this]
    refine (abs_add_le _ _).trans ((add_le_add j5 j3).trans (le_of_eq ?_))
    ring

/-- Every order of summation, numpy's pairwise summation included, has the relative error of `SumError`. -/
theorem sumError_of_trees {u : K} (hu : 0 ≤ u) (he : RelError u rnd) (h : AddsAlongTrees rnd sumR) :
    SumError u sumR := by
  intro l hl
  by_cases hne : l = []
  · subst hne
    simp [h.1]
  · obtain ⟨t, hp, e⟩ := h.2 l hne
    have := (tree_error hu he t fun v hv => hl v (hp.mem_iff.1 hv)).1
    rw [e, ← hp.sum_eq, ← hp.length_eq]
    refine this.trans (mul_le_mul_of_nonneg_right ?_ (List.sum_nonneg fun v hv => hl v (hp.mem_iff.1 hv)))
    have : (1 + u) ^ (t.leaves.length - 1) ≤ (1 + u) ^ t.leaves.length :=
      pow_le_pow_right₀ (by linarith) (by omega)
    linarith

/-! ## The three curves -/

/-- The value of a computation that succeeds. -/
def okD {β : Type} (d : β) : Py β → β
  | .ok v => v
  | .error _ => d

theorem copySecond_precision {f t : List K} (hlen : f.length = t.length) (h2 : 2 ≤ t.length) :
    ∃ r, copySecond (precisionRowR rnd f t) = .ok r ∧ r.length = t.length := by
  match t, f, h2, hlen with
  | c :: d :: t, a :: b :: f, _, hl =>
    simp only [List.length_cons, add_left_inj] at hl
    exact ⟨_, rfl, by simp [hl]⟩

section
variable (hr : FloatRounding rnd) {y : List Bool} {s : List K} {W : Option (List (List K))} (h : CurveInput y s W)
  (hN : W = none → ∀ k : Nat, k ≤ y.length → rnd (k : K) = k)
include hr h hN

theorem rocR_eq : rocCurveR rnd sumR y (finVec s) (W.map (finMat y.length)) =
    if closeAll rnd sumR y s W then
      .ok (⟨matOf (thresholdsOf s) ((weightRows y.length W).map fun w => overLastR rnd (cummax (countRow rnd y s w).1)),
        matOf (thresholdsOf s) ((weightRows y.length W).map fun w => overLastR rnd (countRow rnd y s w).2), .linear⟩,
        thresholdsOf s)
    else .error .assertion := by
  unfold rocCurveR
  rw [clfR_eq hr h hN]
  split_ifs
  · rw [ok_bind]
    simp only [pure_eq_ok, List.map_map]
    rfl
  · rfl

theorem prgR_eq : prgCurveR rnd sumR y (finVec s) (W.map (finMat y.length)) =
    if closeAll rnd sumR y s W then
      .ok (⟨matOf (thresholdsOf s) ((weightRows y.length W).map fun w => finVec ((countRow rnd y s w).2.map
            (recGainVal rnd ((cummax (countRow rnd y s w).1).getLastD 0) ((countRow rnd y s w).2.getLastD 0)))),
        matOf (thresholdsOf s) ((weightRows y.length W).map fun w =>
          okD [] (copySecond (precGainRowR rnd (cummax (countRow rnd y s w).1) (countRow rnd y s w).2))), .previous⟩,
        thresholdsOf s)
    else .error .assertion := by
  unfold prgCurveR
  rw [clfR_eq hr h hN]
  by_cases hc : closeAll rnd sumR y s W = true
  · have hfin : ∀ w ∈ weightRows y.length W, RowFin rnd (cummax (countRow rnd y s w).1) (countRow rnd y s w).2 :=
      fun w hw => (countRow_fin hr h hw).done.toRowFin
    rw [if_pos hc, if_pos hc, ok_bind]
    have e1 : (List.zipWith (precGainRowR rnd) ((weightRows y.length W).map fun w => cummax (countRow rnd y s w).1)
        ((weightRows y.length W).map fun w => (countRow rnd y s w).2)).mapM copySecond =
        .ok ((weightRows y.length W).map fun w =>
          okD [] (copySecond (precGainRowR rnd (cummax (countRow rnd y s w).1) (countRow rnd y s w).2))) := by
      rw [zipWith_map_self, List.mapM_map]
      refine mapM_eq_ok_map _ _ _ fun w hw => ?_
      obtain ⟨r, e, -, -⟩ := precGainRowR_ok hr (hfin w hw)
      simp only [Function.comp, e, okD]
    simp only [e1, ok_bind, pyAssert_bind]
    simp only [zipWith_map_self, List.map_map]
    have e2 : (weightRows y.length W).map ((fun r => r.map fun v => Flt.maximum (.fin 0) v) ∘
        fun w => recGainRowR rnd (cummax (countRow rnd y s w).1) (countRow rnd y s w).2) =
        (weightRows y.length W).map fun w => finVec ((countRow rnd y s w).2.map
            (recGainVal rnd ((cummax (countRow rnd y s w).1).getLastD 0) ((countRow rnd y s w).2.getLastD 0))) :=
      List.map_congr_left fun w hw => recGainRowR_max hr (hfin w hw)
    rw [if_pos, e2, if_pos, if_pos]
    · rfl
    · rw [List.zip_map', List.all_eq_true]
      intro p hp
      obtain ⟨w, hw, rfl⟩ := List.mem_map.1 hp
      rw [List.all_eq_true]
      intro q hq
      obtain ⟨r, e, -, hall⟩ := precGainRowR_ok hr (hfin w hw)
      simp only [e, okD] at hq
      rw [Bool.or_eq_true, Flt.le_iff]
      rcases hall q hq with h0 | ⟨x, hx, hx1⟩
      · left; rw [h0]; simp
      · right; rw [hx]; exact ⟨by simp, Flt.fin_le_fin.2 hx1⟩
    · rw [List.all_eq_true]
      intro r hrm
      obtain ⟨w, hw, rfl⟩ := List.mem_map.1 hrm
      rw [List.all_eq_true]
      intro v hv
      obtain ⟨x, hx, rfl⟩ := List.mem_map.1 hv
      obtain ⟨t, ht, rfl⟩ := List.mem_map.1 hx
      have hf := hfin w hw
      rw [Flt.le_iff]
      refine ⟨by simp, Flt.fin_le_fin.2 (recGainVal_le_one hr hf.flast hf.tlast ?_ (hf.tnum t ht).1 (le_last hf.tmono ht))⟩
      exact (hf.tnum _ (getLastD_mem' (List.ne_nil_of_mem ht))).2
    · rw [Bool.not_eq_true', List.any_eq_false]
      intro r hrm
      obtain ⟨w, hw, rfl⟩ := List.mem_map.1 hrm
      rw [recGainRowR_diff hr (hfin w hw)]
      simp
  · rw [if_neg hc, if_neg hc]
    rfl

theorem rpR_eq : recallPrecisionCurveR rnd sumR y (finVec s) (W.map (finMat y.length)) =
    if closeAll rnd sumR y s W && (weightRows y.length W).all fun w =>
        (okD [] (copySecond (precisionRowR rnd (cummax (countRow rnd y s w).1) (countRow rnd y s w).2))).all fun v =>
          (Flt.fin 0).le v && v.le (.fin 1) then
      .ok (⟨matOf (thresholdsOf s) ((weightRows y.length W).map fun w => overLastR rnd (countRow rnd y s w).2),
        matOf (thresholdsOf s) ((weightRows y.length W).map fun w =>
          okD [] (copySecond (precisionRowR rnd (cummax (countRow rnd y s w).1) (countRow rnd y s w).2))), .previous⟩,
        thresholdsOf s)
    else .error .assertion := by
  unfold recallPrecisionCurveR
  rw [clfR_eq hr h hN]
  by_cases hc : closeAll rnd sumR y s W = true
  · have hfin : ∀ w ∈ weightRows y.length W, RowFin rnd (cummax (countRow rnd y s w).1) (countRow rnd y s w).2 :=
      fun w hw => (countRow_fin hr h hw).done.toRowFin
    rw [if_pos hc, ok_bind, hc, Bool.true_and]
    have e1 : (List.zipWith (precisionRowR rnd) ((weightRows y.length W).map fun w => cummax (countRow rnd y s w).1)
        ((weightRows y.length W).map fun w => (countRow rnd y s w).2)).mapM copySecond =
        .ok ((weightRows y.length W).map fun w =>
          okD [] (copySecond (precisionRowR rnd (cummax (countRow rnd y s w).1) (countRow rnd y s w).2))) := by
      rw [zipWith_map_self, List.mapM_map]
      refine mapM_eq_ok_map _ _ _ fun w hw => ?_
      obtain ⟨r, e, -⟩ := copySecond_precision (rnd := rnd) (hfin w hw).len (hfin w hw).two
      simp only [Function.comp, e, okD]
    simp only [e1, ok_bind, pyAssert_bind]
    simp only [List.all_map, List.map_map]
    congr 1
    rw [eq_iff_iff]
    simp only [Bool.and_eq_true, List.all_eq_true, Function.comp]
    constructor
    · rintro ⟨h1, h2⟩ w hw v hv
      exact ⟨h1 w hw v hv, h2 w hw v hv⟩
    · intro h1
      exact ⟨fun w hw v hv => (h1 w hw v hv).1, fun w hw v hv => (h1 w hw v hv).2⟩
  · rw [if_neg hc, Bool.eq_false_iff.2 hc, Bool.false_and]
    rfl

omit hr hN in
theorem rawRow_length (w : List K) : (rawRow rnd y s w).1.length + 1 = (thresholdsOf s).length ∧
    (rawRow rnd y s w).2.length + 1 = (thresholdsOf s).length := by
  unfold rawRow thresholdsOf groupScores
  rw [reorder_eq_map 0 (groupEnds_lt (CurveInput.ss_ne h))]
  simp [finVec]

omit hr hN in
theorem countRow_length (w : List K) : (countRow rnd y s w).2.length = (thresholdsOf s).length := by
  unfold countRow pseudoRowR
  simp only
  split_ifs <;> simp [rawRow_length h w]

/-- **C104, ROC curve.**  Whatever `roc_curve` returns in floating point arithmetic, there is one row per row
of weights and one point per threshold, and every row goes from exactly (0, 0) to exactly (1, 1) and never
down. -/
theorem C104_roc {c : Curve K} {thr : List (Flt K)}
    (hc : rocCurveR rnd sumR y (finVec s) (W.map (finMat y.length)) = .ok (c, thr)) :
    IsThresholds s thr ∧ c.kind = .linear ∧ c.x.rows.length = (weightRows y.length W).length ∧
      c.y.rows.length = (weightRows y.length W).length ∧
      (∀ r ∈ c.x.rows, Rises r ∧ r.length = thr.length) ∧ ∀ r ∈ c.y.rows, Rises r ∧ r.length = thr.length := by
  rw [rocR_eq hr h hN] at hc
  split_ifs at hc
  rw [Except.ok.injEq, Prod.mk.injEq] at hc
  obtain ⟨rfl, rfl⟩ := hc
  refine ⟨thresholdsOf_spec h.scores_ne, rfl, by simp [matOf], by simp [matOf], ?_, ?_⟩
  · intro r hrm
    obtain ⟨w, hw, rfl⟩ := List.mem_map.1 hrm
    have hf := (countRow_fin hr h hw).done
    refine ⟨overLastR_rises hr hf.fhead hf.fmono hf.flast, ?_⟩
    rw [overLastR, List.length_map, hf.len, countRow_length h w]
  · intro r hrm
    obtain ⟨w, hw, rfl⟩ := List.mem_map.1 hrm
    have hf := (countRow_fin hr h hw).done
    refine ⟨overLastR_rises hr hf.thead hf.tmono hf.tlast, ?_⟩
    rw [overLastR, List.length_map, countRow_length h w]

/-- **C104, recall-precision curve.**  Whatever `recall_precision_curve` returns in floating point
arithmetic, recall goes up from exactly 0 to exactly 1 and never down, and every precision is a number
between 0 and 1. -/
theorem C104_recall_precision {c : Curve K} {thr : List (Flt K)}
    (hc : recallPrecisionCurveR rnd sumR y (finVec s) (W.map (finMat y.length)) = .ok (c, thr)) :
    IsThresholds s thr ∧ c.kind = .previous ∧ c.x.rows.length = (weightRows y.length W).length ∧
      c.y.rows.length = (weightRows y.length W).length ∧ (∀ r ∈ c.x.rows, Rises r ∧ r.length = thr.length) ∧
      ∀ r ∈ c.y.rows, ∃ xs : List K, r = finVec xs ∧ xs.length = thr.length ∧ ∀ x ∈ xs, 0 ≤ x ∧ x ≤ 1 := by
  rw [rpR_eq hr h hN] at hc
  split_ifs at hc with hif
  rw [Except.ok.injEq, Prod.mk.injEq] at hc
  obtain ⟨rfl, rfl⟩ := hc
  refine ⟨thresholdsOf_spec h.scores_ne, rfl, by simp [matOf], by simp [matOf], ?_, ?_⟩
  · intro r hrm
    obtain ⟨w, hw, rfl⟩ := List.mem_map.1 hrm
    have hf := (countRow_fin hr h hw).done
    refine ⟨overLastR_rises hr hf.thead hf.tmono hf.tlast, ?_⟩
    rw [overLastR, List.length_map, countRow_length h w]
  · intro r hrm
    obtain ⟨w, hw, rfl⟩ := List.mem_map.1 hrm
    rw [Bool.and_eq_true, List.all_eq_true] at hif
    have hall := List.all_eq_true.1 (hif.2 w hw)
    have hlen : (okD [] (copySecond (precisionRowR rnd (cummax (countRow rnd y s w).1) (countRow rnd y s w).2))).length =
        (thresholdsOf s).length := by
      have hf := (countRow_fin hr h hw).done.toRowFin
      obtain ⟨r, e, hl⟩ := copySecond_precision (rnd := rnd) hf.len hf.two
      rw [← countRow_length (rnd := rnd) h w, e, ← hl, okD]
    generalize okD [] (copySecond (precisionRowR rnd (cummax (countRow rnd y s w).1) (countRow rnd y s w).2)) = r at *
    rw [← hlen]
    clear hlen hrm
    induction r with
    | nil => exact ⟨[], rfl, rfl, by simp⟩
    | cons v r ih =>
      obtain ⟨xs, rfl, hl, hx⟩ := ih fun v hv => hall v (List.mem_cons_of_mem _ hv)
      have hv := hall v List.mem_cons_self
      rw [Bool.and_eq_true, Flt.le_iff, Flt.le_iff] at hv
      obtain ⟨⟨-, h1⟩, -, h2⟩ := hv
      cases v with
      | fin x =>
        refine ⟨x :: xs, rfl, by simp [hl], ?_⟩
        intro z hz
        rcases List.mem_cons.1 hz with rfl | hz
        · exact ⟨Flt.fin_le_fin.1 h1, Flt.fin_le_fin.1 h2⟩
        · exact hx z hz
      | pinf => simp at h2
      | ninf => simp at h1
      | nan => simp at h2

/-- **C104, precision-recall-gain curve.**  Whatever `prg_curve` returns in floating point arithmetic, the
recall gain goes up from exactly 0 to exactly 1 and never down, and wherever it is not 0 the precision gain
is a number at most 1. -/
theorem C104_prg {c : Curve K} {thr : List (Flt K)}
    (hc : prgCurveR rnd sumR y (finVec s) (W.map (finMat y.length)) = .ok (c, thr)) :
    IsThresholds s thr ∧ c.kind = .previous ∧ c.x.rows.length = (weightRows y.length W).length ∧
      c.y.rows.length = (weightRows y.length W).length ∧ (∀ r ∈ c.x.rows, Rises r ∧ r.length = thr.length) ∧
      ∀ p ∈ c.x.rows.zip c.y.rows, p.2.length = thr.length ∧
        ∀ q ∈ p.1.zip p.2, q.1 = .fin 0 ∨ ∃ x, q.2 = .fin x ∧ x ≤ 1 := by
  rw [prgR_eq hr h hN] at hc
  split_ifs at hc with hif
  rw [Except.ok.injEq, Prod.mk.injEq] at hc
  obtain ⟨rfl, rfl⟩ := hc
  refine ⟨thresholdsOf_spec h.scores_ne, rfl, by simp [matOf], by simp [matOf], ?_, ?_⟩
  · intro r hrm
    obtain ⟨w, hw, rfl⟩ := List.mem_map.1 hrm
    refine ⟨recGainRowR_rises hr (countRow_fin hr h hw).done.toRowFin, ?_⟩
    simp [finVec, countRow_length h w]
  · intro p hp
    simp only [matOf, List.zip_map'] at hp
    obtain ⟨w, hw, rfl⟩ := List.mem_map.1 hp
    obtain ⟨r, e, hl, hall⟩ := precGainRowR_ok hr (countRow_fin hr h hw).done.toRowFin
    simp only [e, okD]
    exact ⟨by rw [hl, countRow_length h w], hall⟩

/-- **C104, failures.**  On valid input the ROC and the precision-recall-gain curve fail together, and a failure
is an `AssertionError`; without weights they never fail. -/
theorem C104_failure : ((∃ v, rocCurveR rnd sumR y (finVec s) (W.map (finMat y.length)) = .ok v) ∧
      (∃ v, prgCurveR rnd sumR y (finVec s) (W.map (finMat y.length)) = .ok v) ∨
    rocCurveR rnd sumR y (finVec s) (W.map (finMat y.length)) = .error .assertion ∧
      prgCurveR rnd sumR y (finVec s) (W.map (finMat y.length)) = .error .assertion ∧
      recallPrecisionCurveR rnd sumR y (finVec s) (W.map (finMat y.length)) = .error .assertion ∧ W ≠ none) := by
  rw [rocR_eq hr h hN, prgR_eq hr h hN, rpR_eq hr h hN]
  by_cases hc : closeAll rnd sumR y s W = true
  · left
    rw [if_pos hc, if_pos hc]
    exact ⟨⟨_, rfl⟩, ⟨_, rfl⟩⟩
  · right
    rw [if_neg hc, if_neg hc, Bool.eq_false_iff.2 hc, Bool.false_and]
    refine ⟨rfl, rfl, rfl, ?_⟩
    rintro rfl
    exact hc rfl

end

end
end Mlp.Props
