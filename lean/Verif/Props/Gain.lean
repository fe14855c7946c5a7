import Verif.Props.Auc

/-! # Properties C71 to C73: the recall-precision curve and the precision-recall-gain curve -/

set_option linter.unusedSectionVars false

namespace Mlp.Props
open Mlp.Util Mlp.Perf Mlp.Spec Mlp.Lemmas

section
variable {K : Type} [Field K] [LinearOrder K] [IsStrictOrderedRing K]

/-! ## C71 -/

theorem atThresholds_length {β : Type} {g : Flt K → β} {s : List K} {thr : List (Flt K)} (hne : s ≠ [])
    (ht : IsThresholds s thr) : (atThresholds g thr).length = thr.length := by
  obtain ⟨v, ds, rfl, -⟩ := isThresholds_shape hne ht
  simp [atThresholds]

theorem atThresholds_last {β : Type} {g : Flt K → β} {s : List K} {thr : List (Flt K)} (hne : s ≠ [])
    (ht : IsThresholds s thr) : ∃ θ, (∀ v ∈ s, θ ≤ v) ∧ (atThresholds g thr).getLast? = some (g (.fin θ)) := by
  obtain ⟨pre, θ, rfl, hp, hθ⟩ := isThresholds_last hne ht
  refine ⟨θ, hθ, ?_⟩
  match pre, hp with
  | [a], _ => rfl
  | a :: b :: pre, _ =>
    simp only [List.cons_append, atThresholds, List.map_append, List.map_singleton]
    rw [← List.cons_append, ← List.cons_append, List.getLast?_append]
    rfl

/-- The share of positives in the sample, for samples of both classes. -/
theorem prevalence_eq {S : List (Sample K)} (hw : ∀ a ∈ S, 0 < a.weight) (hp : ∃ a ∈ S, a.label = true)
    (hn : ∃ a ∈ S, a.label = false) : prevalence S = posTotal S / (posTotal S + negTotal S) := by
  rw [prevalence, tpTotal, fpTotal, if_neg (posTotal_pos hw hp).ne', if_neg (negTotal_pos hw hn).ne']

/-- **C71, precision.**  Every row of precisions lies in [0, 1], starts with the same value twice and ends
with the share of positives. -/
theorem C71_precision {y : List Bool} {s : List K} {W : Option (List (List K))} (h : CurveInput y s W)
    (hp : true ∈ y) (hn : false ∈ y) {c : Curve K} {thr : List (Flt K)}
    (hc : recallPrecisionCurve y (finVec s) (W.map (finMat y.length)) = .ok (c, thr)) :
    List.Forall₂ (fun w r => ∃ xs : List K, r = finVec xs ∧ (∀ x ∈ xs, 0 ≤ x ∧ x ≤ 1) ∧ xs[0]? = xs[1]? ∧
        xs.getLast? = some (posTotal (samples y s w) / (posTotal (samples y s w) + negTotal (samples y s w))))
      (weightRows y.length W) c.y.rows := by
  have ht := thresholdsOf_spec h.scores_ne
  rw [recall_precision_of h ht, Except.ok.injEq, Prod.mk.injEq] at hc
  obtain ⟨rfl, -⟩ := hc
  simp only [finMat, List.map_map]
  rw [List.forall₂_map_right_iff, List.forall₂_same]
  intro w hw
  refine ⟨_, rfl, ?_, ?_, ?_⟩
  · intro x hx
    obtain ⟨u, -, rfl⟩ := atThresholds_mem h.scores_ne ht hx
    exact precisionAt_bounds (h.weight_pos hw) _
  · obtain ⟨v, ds, e, -⟩ := isThresholds_shape h.scores_ne ht
    rw [e]; rfl
  · obtain ⟨θ, hθ, e⟩ := atThresholds_last (g := precisionAt (samples y s w)) h.scores_ne ht
    rw [e]
    obtain ⟨h1, h2⟩ := counts_total (S := samples y s w) (θ := .fin θ) fun a ha =>
      Flt.fin_le_fin.2 (hθ _ (h.score_mem hw a ha))
    rw [precisionAt, h1, h2]
    exact congrArg some (prevalence_eq (h.weight_pos hw) (h.exists_label hw hp) (h.exists_label hw hn))

/-- The area under the recall-precision curve, for every row of weights. -/
def aupr (y : List Bool) (sc : List (Flt K)) (M : Option (Mat K)) : Py (List (Flt K)) := do
  let (c, _) ← recallPrecisionCurve y sc M
  area c.x c.y c.kind

theorem pieceSum_rect_bounds {a : K} {xs ys : List K} (hs : (a :: xs).Pairwise (· ≤ ·))
    (hl : xs.length + 1 = ys.length) (hy : ∀ v ∈ ys, 0 ≤ v ∧ v ≤ 1) :
    0 ≤ pieceSum rect (a :: xs) ys ∧ pieceSum rect (a :: xs) ys ≤ (a :: xs).getLast (by simp) - a := by
  induction xs generalizing a ys with
  | nil =>
    match ys, hl with
    | [y0], _ => simp [pieceSum]
  | cons b xs ih =>
    match ys, hl with
    | y0 :: y1 :: ys, hl =>
      obtain ⟨h1, h2⟩ := List.pairwise_cons.1 hs
      obtain ⟨i1, i2⟩ := ih h2 (ys := y1 :: ys) (by simpa using hl) fun v hv => hy v (List.mem_cons_of_mem _ hv)
      have hab := sub_nonneg.2 (h1 b (by simp))
      obtain ⟨g1, g2⟩ := hy y0 (by simp)
      rw [pieceSum_cons₂, List.getLast_cons_cons]
      have e : rect a b y0 y1 = y0 * (b - a) := rfl
      rw [e]
      have p1 : 0 ≤ y0 * (b - a) := by positivity
      have p2 : y0 * (b - a) ≤ b - a := mul_le_of_le_one_left hab g2
      exact ⟨by linarith, by linarith⟩

/-- **C71, area.**  The area under the recall-precision curve is the sum, over the steps of recall, of the
precision at the threshold before times the increase in recall; it is between 0 and 1. -/
theorem C71_area {y : List Bool} {s : List K} {W : Option (List (List K))} (h : CurveInput y s W) :
    ∃ thr, IsThresholds s thr ∧ aupr y (finVec s) (W.map (finMat y.length)) =
      .ok (finVec ((weightRows y.length W).map fun w =>
        pieceSum rect (thr.map (recallAt (samples y s w))) (atThresholds (precisionAt (samples y s w)) thr))) ∧
      ∀ w ∈ weightRows y.length W,
        0 ≤ pieceSum rect (thr.map (recallAt (samples y s w))) (atThresholds (precisionAt (samples y s w)) thr) ∧
        pieceSum rect (thr.map (recallAt (samples y s w))) (atThresholds (precisionAt (samples y s w)) thr) ≤ 1 := by
  have ht := thresholdsOf_spec h.scores_ne
  refine ⟨thresholdsOf s, ht, ?_, ?_⟩
  · unfold aupr
    rw [recall_precision_of h ht, ok_bind]
    simp only
    rw [C61_area (by
      obtain ⟨v, ds, e, -⟩ := isThresholds_shape h.scores_ne ht
      rw [e]; simp) ?_ ?_ (by simp) (Or.inl rfl), zipWith_map_self]
    · rfl
    · intro r hr
      obtain ⟨w, -, rfl⟩ := List.mem_map.1 hr
      simp
    · intro r hr
      obtain ⟨w, -, rfl⟩ := List.mem_map.1 hr
      exact atThresholds_length h.scores_ne ht
  · intro w hw
    obtain ⟨xs, e, hm, h0, h1⟩ := rises_recall h ht hw
    have inj : ∀ {a b : List K}, finVec a = finVec b → a = b := fun hab =>
      List.map_injective_iff.2 (fun _ _ h => by simpa using h) hab
    have e := inj e
    have hlen := atThresholds_length (g := precisionAt (samples y s w)) h.scores_ne ht
    have hxl : xs.length = (thresholdsOf s).length := by rw [← e, List.length_map]
    rw [e]
    cases xs with
    | nil => simp at h0
    | cons a xs =>
      simp only [List.head?_cons, Option.some.injEq] at h0
      subst h0
      rw [List.getLast?_eq_some_getLast (by simp), Option.some.injEq] at h1
      have := pieceSum_rect_bounds hm (by rw [hlen, ← hxl]; simp) fun v hv => by
        obtain ⟨u, -, rfl⟩ := atThresholds_mem h.scores_ne ht hv
        exact precisionAt_bounds (h.weight_pos hw) (.fin u)
      rw [h1, sub_zero] at this
      exact this

/-! ## C72 -/

theorem gain_pos {π v : K} (hπ : π < 1) (hv : 0 < v) : (0 ≤ gain π v ↔ π ≤ v) ∧ (0 < gain π v ↔ π < v) := by
  have hd : 0 < (1 - π) * v := mul_pos (by linarith) hv
  unfold gain
  refine ⟨?_, ?_⟩
  · rw [le_div_iff₀ hd, zero_mul, sub_nonneg]
  · rw [lt_div_iff₀ hd, zero_mul, sub_pos]

theorem prevalence_bounds {S : List (Sample K)} (hw : ∀ a ∈ S, 0 < a.weight) (hS : S ≠ []) :
    0 < prevalence S ∧ prevalence S < 1 := by
  have hP := tpTotal_pos hw hS
  have hN := fpTotal_pos hw hS
  unfold prevalence
  refine ⟨by positivity, ?_⟩
  rw [div_lt_one (by positivity)]
  linarith

/-- **C72, recall gain.**  Where the recall is at least the share of positives, the recall gain is the gain
of the recall; elsewhere it is 0. -/
theorem C72_recall_gain {y : List Bool} {s : List K} {W : Option (List (List K))} (h : CurveInput y s W)
    {c : Curve K} {thr : List (Flt K)} (hc : prgCurve y (finVec s) (W.map (finMat y.length)) = .ok (c, thr)) :
    IsThresholds s thr ∧ c.kind = .previous ∧
    c.x = finMat thr.length ((weightRows y.length W).map fun w => thr.map fun θ =>
      if prevalence (samples y s w) ≤ recallAt (samples y s w) θ then
        gain (prevalence (samples y s w)) (recallAt (samples y s w) θ) else 0) := by
  have ht := thresholdsOf_spec h.scores_ne
  rw [prg_of h ht, Except.ok.injEq, Prod.mk.injEq] at hc
  obtain ⟨rfl, rfl⟩ := hc
  refine ⟨ht, rfl, ?_⟩
  simp only
  congr 1
  refine List.map_congr_left fun w hw => List.map_congr_left fun θ _ => ?_
  obtain ⟨h1, h2⟩ := prevalence_bounds (h.weight_pos hw) (h.samples_ne hw)
  have hr := (rate_bounds (h.weight_pos hw) (h.samples_ne hw) θ).2.1
  unfold recGainAt
  by_cases h0 : recallAt (samples y s w) θ = 0
  · rw [if_pos h0, if_neg (by rw [h0]; exact not_le.2 h1)]
  · have hr' := lt_of_le_of_ne hr (Ne.symm h0)
    rw [if_neg h0]
    split
    · rename_i hle
      exact max_eq_right ((gain_pos h2 hr').1.2 hle)
    · rename_i hle
      exact max_eq_left (le_of_not_ge fun hg => hle ((gain_pos h2 hr').1.1 hg))

/-- **C72, precision gain.**  The precision gain is the gain of the precision (minus infinity for
precision 0), the value at the threshold `+inf` being that at the highest score; it is at most 1, is never
NaN and ends at 0. -/
theorem C72_precision_gain {y : List Bool} {s : List K} {W : Option (List (List K))} (h : CurveInput y s W)
    {c : Curve K} {thr : List (Flt K)} (hc : prgCurve y (finVec s) (W.map (finMat y.length)) = .ok (c, thr)) :
    c.y = ⟨thr.length, (weightRows y.length W).map fun w => atThresholds (fun θ =>
      if precisionAt (samples y s w) θ = 0 then .ninf else
        .fin (gain (prevalence (samples y s w)) (precisionAt (samples y s w) θ))) thr⟩ ∧
    ∀ r ∈ c.y.rows, (∀ v ∈ r, v ≠ .nan ∧ v ≤ .fin 1) ∧ r.getLast? = some (.fin 0) := by
  have ht := thresholdsOf_spec h.scores_ne
  rw [prg_of h ht, Except.ok.injEq, Prod.mk.injEq] at hc
  obtain ⟨rfl, rfl⟩ := hc
  refine ⟨rfl, ?_⟩
  intro r hr
  obtain ⟨w, hw, rfl⟩ := List.mem_map.1 hr
  constructor
  · intro v hv
    obtain ⟨u, -, rfl⟩ := atThresholds_mem h.scores_ne ht hv
    obtain ⟨h1, h2⟩ := precGainAt_le (h.weight_pos hw) (h.samples_ne hw) (.fin u)
    exact ⟨h2, h1⟩
  · obtain ⟨θ, hθ, e⟩ := atThresholds_last (g := precGainAt (samples y s w)) h.scores_ne ht
    rw [e]
    obtain ⟨h1, h2⟩ := counts_total (S := samples y s w) (θ := .fin θ) fun a ha =>
      Flt.fin_le_fin.2 (hθ _ (h.score_mem hw a ha))
    have hpi : precisionAt (samples y s w) (.fin θ) = prevalence (samples y s w) := by
      rw [precisionAt, h1, h2]; rfl
    have := (prevalence_bounds (h.weight_pos hw) (h.samples_ne hw)).1
    rw [precGainAt, hpi, if_neg this.ne', gain, sub_self, zero_div]

/-- **C72, monotone.**  The recall gain goes up from 0 to 1. -/
theorem C72_rises {y : List Bool} {s : List K} {W : Option (List (List K))} (h : CurveInput y s W)
    {c : Curve K} {thr : List (Flt K)} (hc : prgCurve y (finVec s) (W.map (finMat y.length)) = .ok (c, thr)) :
    ∀ r ∈ c.x.rows, Rises r := by
  have ht := thresholdsOf_spec h.scores_ne
  rw [prg_of h ht, Except.ok.injEq, Prod.mk.injEq] at hc
  obtain ⟨rfl, rfl⟩ := hc
  simp only [finMat, List.map_map, List.mem_map, Function.comp]
  rintro r ⟨w, hw, rfl⟩
  exact rises_recGain h ht hw

/-! ## C73 -/

theorem flt_foldl_add (a b : Flt K) (l : List (Flt K)) : l.foldl Flt.add (a.add b) = a.add (l.foldl Flt.add b) := by
  induction l generalizing b with
  | nil => rfl
  | cons c l ih => rw [List.foldl_cons, List.foldl_cons, add_assoc', ih]

theorem flt_sum_cons (a : Flt K) (l : List (Flt K)) : Flt.sum (a :: l) = a.add (Flt.sum l) := by
  unfold Flt.sum
  rw [List.foldl_cons, Lemmas.add_comm', flt_foldl_add]

theorem areaPrev_step (a b : K) (y0 y1 : Flt K) (xs : List K) (ys : List (Flt K)) :
    areaPrev (finVec (a :: b :: xs)) (y0 :: y1 :: ys) =
      (if (y0.mul (.fin (b - a))).isNaN then .fin 0 else y0.mul (.fin (b - a))).add
        (areaPrev (finVec (b :: xs)) (y1 :: ys)) := by
  unfold areaPrev nansum
  have : List.zipWith Flt.mul (y0 :: y1 :: ys).dropLast (diff (finVec (a :: b :: xs))) =
      y0.mul (.fin (b - a)) :: List.zipWith Flt.mul (y1 :: ys).dropLast (diff (finVec (b :: xs))) := by
    show List.zipWith Flt.mul (y0 :: y1 :: ys).dropLast (diff (.fin a :: .fin b :: finVec xs)) = _
    rw [areaPrev_cons]
    congr 2
    show Flt.fin (b + -a) = _
    rw [sub_eq_add_neg]
  rw [this, List.map_cons, flt_sum_cons]

/-- The area under a step curve with heights at most 1, some of which may be minus infinity: it is not NaN,
at most the width, and minus infinity exactly if a step of positive width has height minus infinity. -/
theorem areaPrev_ninf {a : K} {xs : List K} {ys : List (Flt K)} (hs : (a :: xs).Pairwise (· ≤ ·))
    (hl : xs.length + 1 = ys.length) (hy : ∀ v ∈ ys, v ≠ .nan ∧ v ≤ .fin 1) :
    areaPrev (finVec (a :: xs)) ys ≠ .nan ∧
    areaPrev (finVec (a :: xs)) ys ≤ .fin ((a :: xs).getLast (by simp) - a) ∧
    (areaPrev (finVec (a :: xs)) ys = .ninf ↔ ∃ (i : Nat) (u v : K), ys[i]? = some .ninf ∧ (a :: xs)[i]? = some u ∧
      (a :: xs)[i + 1]? = some v ∧ u < v) := by
  induction xs generalizing a ys with
  | nil =>
    match ys, hl with
    | [y0], _ =>
      have : areaPrev (finVec [a]) [y0] = .fin 0 := rfl
      rw [this]
      simp
  | cons b xs ih =>
    match ys, hl with
    | y0 :: y1 :: ys, hl =>
      obtain ⟨h1, h2⟩ := List.pairwise_cons.1 hs
      obtain ⟨i1, i2, i3⟩ := ih h2 (ys := y1 :: ys) (by simpa using hl) fun v hv => hy v (by simp [hv])
      have hab := h1 b (by simp)
      obtain ⟨n0, l0⟩ := hy y0 (by simp)
      rw [areaPrev_step, List.getLast_cons_cons]
      have hsplit : (∃ (i : Nat) (u v : K), (y0 :: y1 :: ys)[i]? = some .ninf ∧ (a :: b :: xs)[i]? = some u ∧
          (a :: b :: xs)[i + 1]? = some v ∧ u < v) ↔ (y0 = .ninf ∧ a < b) ∨
          ∃ (i : Nat) (u v : K), (y1 :: ys)[i]? = some .ninf ∧ (b :: xs)[i]? = some u ∧
          (b :: xs)[i + 1]? = some v ∧ u < v := by
        constructor
        · rintro ⟨i, u, v, g1, g2, g3, g4⟩
          cases i with
          | zero =>
            simp at g1 g2 g3
            subst g2 g3
            exact Or.inl ⟨g1, g4⟩
          | succ i => exact Or.inr ⟨i, u, v, by simpa using g1, by simpa using g2, by simpa using g3, g4⟩
        · rintro (⟨rfl, g⟩ | ⟨i, u, v, g1, g2, g3, g4⟩)
          · exact ⟨0, a, b, rfl, rfl, rfl, g⟩
          · exact ⟨i + 1, u, v, by simpa using g1, by simpa using g2, by simpa using g3, g4⟩
      rw [hsplit, ← i3]
      have hA : areaPrev (finVec (b :: xs)) (y1 :: ys) = .ninf ∨
          ∃ t : K, areaPrev (finVec (b :: xs)) (y1 :: ys) = .fin t ∧ t ≤ (b :: xs).getLast (by simp) - b := by
        generalize areaPrev (finVec (b :: xs)) (y1 :: ys) = A at i1 i2
        cases A with
        | fin t => exact Or.inr ⟨t, rfl, Flt.fin_le_fin.1 i2⟩
        | pinf => exact absurd i2 (Flt.not_pinf_le_fin _)
        | ninf => exact Or.inl rfl
        | nan => exact absurd rfl i1
      have hP : (y0 = .ninf ∧ a < b ∧
            (if (y0.mul (.fin (b - a))).isNaN then Flt.fin 0 else y0.mul (.fin (b - a))) = .ninf) ∨
          (¬ (y0 = .ninf ∧ a < b) ∧ ∃ t : K,
            (if (y0.mul (.fin (b - a))).isNaN then Flt.fin 0 else y0.mul (.fin (b - a))) = .fin t ∧ t ≤ b - a) := by
        cases y0 with
        | fin t =>
          refine Or.inr ⟨by simp, t * (b - a), rfl, ?_⟩
          exact mul_le_of_le_one_left (sub_nonneg.2 hab) (Flt.fin_le_fin.1 l0)
        | pinf => exact absurd l0 (Flt.not_pinf_le_fin _)
        | nan => exact absurd rfl n0
        | ninf =>
          rcases hab.eq_or_lt with rfl | hlt
          · refine Or.inr ⟨by simp, 0, ?_, by simp⟩
            simp [Flt.mul, Flt.signInf, Flt.isNaN]
          · refine Or.inl ⟨rfl, hlt, ?_⟩
            have : ¬ (b - a < 0) := not_lt.2 (sub_nonneg.2 hab)
            simp [Flt.mul, Flt.signInf, Flt.isNaN, hlt, not_lt.2 hab]
      rcases hP with ⟨p1, p2, p3⟩ | ⟨p1, t, p2, p3⟩ <;> rcases hA with q | ⟨r, q1, q2⟩
      · rw [p3, q]; simp [Flt.add, p1, p2, Flt.ninf_le]
      · rw [p3, q1]; simp [Flt.add, p1, p2, Flt.ninf_le]
      · rw [p2, q]; simp [Flt.add, Flt.ninf_le]
      · rw [p2, q1]
        simp only [Flt.add, Flt.fin_le_fin]
        refine ⟨by simp, by linarith, ?_⟩
        simp [p1]

/-- The area under the precision-recall-gain curve, for every row of weights. -/
def auprg (y : List Bool) (sc : List (Flt K)) (M : Option (Mat K)) : Py (List (Flt K)) := do
  let (c, _) ← prgCurve y sc M
  area c.x c.y c.kind

/-- When the area is minus infinity: some sample has a higher score than every positive sample, and at the
highest score of a positive sample the recall exceeds the share of positives. -/
def DropsOut (S : List (Sample K)) : Prop :=
  ∃ a ∈ S, a.label = true ∧ (∀ b ∈ S, b.label = true → b.score ≤ a.score) ∧ (∃ b ∈ S, a.score < b.score) ∧
    prevalence S < recallAt S (.fin a.score)

theorem recGainAt_pos {S : List (Sample K)} (hw : ∀ a ∈ S, 0 < a.weight) (hS : S ≠ []) (θ : Flt K) :
    0 < recGainAt S θ ↔ prevalence S < recallAt S θ := by
  obtain ⟨h1, h2⟩ := prevalence_bounds hw hS
  have hr := (rate_bounds hw hS θ).2.1
  unfold recGainAt
  by_cases h0 : recallAt S θ = 0
  · rw [if_pos h0, h0]
    exact ⟨fun h => absurd h (lt_irrefl _), fun h => absurd h (not_lt.2 h1.le)⟩
  · rw [if_neg h0, lt_max_iff, (gain_pos h2 (lt_of_le_of_ne hr (Ne.symm h0))).2]
    exact ⟨fun h => h.resolve_left (lt_irrefl _), Or.inr⟩

theorem tpCount_zero {S : List (Sample K)} (hw : ∀ a ∈ S, 0 < a.weight) {v : K} (hv : ∃ a ∈ S, a.score = v) :
    tpCount S (.fin v) = 0 ↔ (∃ a ∈ S, a.label = true) ∧ ∀ a ∈ S, a.label = true → a.score < v := by
  unfold tpCount
  by_cases hp : ∃ a ∈ S, a.label = true
  · rw [if_neg (posTotal_pos hw hp).ne', posAbove, wsum_eq_zero_iff hw]
    constructor
    · intro h
      refine ⟨hp, fun a ha hl => ?_⟩
      have := h a ha
      rw [hl, Bool.true_and, decide_eq_false_iff_not, Flt.fin_le_fin, not_le] at this
      exact this
    · rintro ⟨-, h⟩ a ha
      cases hl : a.label
      · rfl
      · rw [Bool.true_and, decide_eq_false_iff_not, Flt.fin_le_fin, not_le]
        exact h a ha hl
  · have hP : posTotal S = 0 := wsum_zero fun a ha => by
      cases hl : a.label
      · rfl
      · exact absurd ⟨a, ha, hl⟩ hp
    rw [if_pos hP]
    constructor
    · intro h
      obtain ⟨a, ha, rfl⟩ := hv
      have : 0 < negAbove S (.fin a.score) := wsum_pos hw ha (by
        cases hl : a.label
        · simp
        · exact absurd ⟨a, ha, hl⟩ hp)
      have h2 : 1 / 10000000000 * negAbove S (.fin a.score) ≠ 0 := by positivity
      exact absurd h h2
    · exact fun h => absurd h.1 hp

theorem precGainAt_ninf {S : List (Sample K)} (hw : ∀ a ∈ S, 0 < a.weight) {v : K} (hv : ∃ a ∈ S, a.score = v) :
    precGainAt S (.fin v) = .ninf ↔ tpCount S (.fin v) = 0 := by
  have hpos := count_pos hw hv
  unfold precGainAt precisionAt
  constructor
  · intro h
    by_contra h0
    rw [if_neg (by rw [div_eq_zero_iff]; exact fun h => h.elim h0 hpos.ne')] at h
    exact absurd h (by simp)
  · intro h
    rw [h, zero_div, if_pos rfl]

/-- **C73.**  The area under the precision-recall-gain curve is never NaN and at most 1, and it is minus
infinity exactly if some sample has a higher score than every positive sample while the recall exceeds the
share of positives at the highest score of a positive sample. -/
theorem C73_area {y : List Bool} {s : List K} {W : Option (List (List K))} (h : CurveInput y s W) :
    ∃ A : List K → Flt K, auprg y (finVec s) (W.map (finMat y.length)) = .ok ((weightRows y.length W).map A) ∧
      ∀ w ∈ weightRows y.length W, A w ≠ .nan ∧ A w ≤ .fin 1 ∧ (A w = .ninf ↔ DropsOut (samples y s w)) := by
  have ht := thresholdsOf_spec h.scores_ne
  have key : ∀ w ∈ weightRows y.length W,
      areaPrev (finVec ((thresholdsOf s).map (recGainAt (samples y s w))))
        (atThresholds (precGainAt (samples y s w)) (thresholdsOf s)) ≠ .nan ∧
      areaPrev (finVec ((thresholdsOf s).map (recGainAt (samples y s w))))
        (atThresholds (precGainAt (samples y s w)) (thresholdsOf s)) ≤ .fin 1 ∧
      (areaPrev (finVec ((thresholdsOf s).map (recGainAt (samples y s w))))
        (atThresholds (precGainAt (samples y s w)) (thresholdsOf s)) = .ninf ↔ DropsOut (samples y s w)) := by
    intro w hw
    have hwp := h.weight_pos hw
    have hS := h.samples_ne hw
    obtain ⟨xs, e, hm, h0, h1⟩ := rises_recGain h ht hw
    have inj : ∀ {a b : List K}, finVec a = finVec b → a = b := fun hab =>
      List.map_injective_iff.2 (fun _ _ h => by simpa using h) hab
    have e := inj e
    have hlen := atThresholds_length (g := precGainAt (samples y s w)) h.scores_ne ht
    have hxl : xs.length = (thresholdsOf s).length := by rw [← e, List.length_map]
    have hx : ∀ (i : Nat) (u : K), xs[i]? = some u ↔
        ∃ θ, (thresholdsOf s)[i]? = some θ ∧ recGainAt (samples y s w) θ = u := by
      intro i u
      rw [← e, List.getElem?_map, Option.map_eq_some_iff]
    rw [e]
    cases xs with
    | nil => simp at h0
    | cons a xs =>
      simp only [List.head?_cons, Option.some.injEq] at h0
      subst h0
      rw [List.getLast?_eq_some_getLast (by simp), Option.some.injEq] at h1
      obtain ⟨a1, a2, a3⟩ := areaPrev_ninf hm (ys := atThresholds (precGainAt (samples y s w)) (thresholdsOf s))
        (by rw [hlen, ← hxl]; simp) fun v hv => by
          obtain ⟨u, -, rfl⟩ := atThresholds_mem h.scores_ne ht hv
          obtain ⟨g1, g2⟩ := precGainAt_le hwp hS (.fin u)
          exact ⟨g2, g1⟩
      rw [h1, sub_zero] at a2
      refine ⟨a1, a2, ?_⟩
      rw [a3]
      obtain ⟨v0, ds, ethr, hds, hmem⟩ := isThresholds_shape h.scores_ne ht
      have hsorted := isThresholds_sorted ht
      have hsamp : ∀ v ∈ v0 :: ds, ∃ a ∈ samples y s w, a.score = v := fun v hv =>
        h.exists_sample hw ((hmem v).1 hv)
      have hget : ∀ i : Nat, (thresholdsOf s)[i + 1]? = ((v0 :: ds)[i]?).map Flt.fin := by
        intro i
        rw [ethr, List.getElem?_cons_succ, show Flt.fin v0 :: finVec ds = (v0 :: ds).map Flt.fin from rfl,
          List.getElem?_map]
      have hy : ∀ i : Nat, (atThresholds (precGainAt (samples y s w)) (thresholdsOf s))[i + 1]? =
          ((v0 :: ds)[i]?).map fun v => precGainAt (samples y s w) (.fin v) := by
        intro i
        rw [ethr]
        simp only [atThresholds, List.getElem?_cons_succ]
        rw [show precGainAt (samples y s w) (Flt.fin v0) :: List.map (precGainAt (samples y s w)) (finVec ds) =
          (v0 :: ds).map fun v => precGainAt (samples y s w) (.fin v) by simp [finVec], List.getElem?_map]
      have hzero : ∀ v : K, tpCount (samples y s w) (.fin v) = 0 → recGainAt (samples y s w) (.fin v) = 0 := by
        intro v hv
        unfold recGainAt
        rw [if_pos ((recall_eq_zero hwp hS _).2 hv)]
      constructor
      · rintro ⟨i, u, v, g1, g2, g3, g4⟩
        cases i with
        | zero =>
          -- the first step has no width
          exfalso
          rw [hx] at g3
          obtain ⟨θ, hθ, rfl⟩ := g3
          rw [hget 0] at hθ
          simp at hθ
          subst hθ
          rw [ethr] at g1
          simp only [atThresholds, List.getElem?_cons_zero, Option.some.injEq] at g1
          rw [precGainAt_ninf hwp (hsamp v0 (by simp))] at g1
          simp at g2
          rw [hzero v0 g1, ← g2] at g4
          exact lt_irrefl _ g4
        | succ i =>
          rw [hy i, Option.map_eq_some_iff] at g1
          obtain ⟨p, hp, g1⟩ := g1
          have hpm : p ∈ v0 :: ds := List.mem_of_getElem? hp
          rw [precGainAt_ninf hwp (hsamp p hpm), tpCount_zero hwp (hsamp p hpm)] at g1
          rw [hx] at g2 g3
          obtain ⟨θ, hθ, rfl⟩ := g2
          obtain ⟨θ', hθ', rfl⟩ := g3
          rw [hget i, hp, Option.map_some, Option.some.injEq] at hθ
          rw [hget (i + 1), Option.map_eq_some_iff] at hθ'
          obtain ⟨q, hq, rfl⟩ := hθ'
          subst hθ
          have hqm : q ∈ v0 :: ds := List.mem_of_getElem? hq
          rw [hzero p ((tpCount_zero hwp (hsamp p hpm)).2 g1)] at g4
          -- every positive score is at most `q`, and one is at least `q`
          have hle : ∀ b ∈ samples y s w, b.label = true → b.score ≤ q := by
            intro b hb hl
            have hlt := g1.2 b hb hl
            have hbm := (hmem b.score).2 (h.score_mem hw b hb)
            obtain ⟨j, hj⟩ := List.getElem?_of_mem hbm
            obtain ⟨hi1, rfl⟩ := List.getElem?_eq_some_iff.1 hp
            obtain ⟨hi2, rfl⟩ := List.getElem?_eq_some_iff.1 hq
            obtain ⟨hj1, hj2⟩ := List.getElem?_eq_some_iff.1 hj
            rw [← hj2] at hlt ⊢
            have hij : i < j := by
              by_contra hc
              rcases (not_lt.1 hc).eq_or_lt with rfl | hc
              · exact lt_irrefl _ hlt
              · exact absurd (List.pairwise_iff_getElem.1 hds j i hj1 hi1 hc) (not_lt.2 hlt.le)
            rcases (Nat.succ_le_of_lt hij).eq_or_lt with rfl | hc
            · exact le_rfl
            · exact (List.pairwise_iff_getElem.1 hds (i + 1) j hi2 hj1 hc).le
          have hpos : tpCount (samples y s w) (.fin q) ≠ 0 := fun hc => by
            rw [hzero q hc] at g4; exact lt_irrefl _ g4
          rw [Ne, tpCount_zero hwp (hsamp q hqm), not_and] at hpos
          have := hpos g1.1
          push Not at this
          obtain ⟨a, ha, hal, haq⟩ := this
          have haq' : a.score = q := le_antisymm (hle a ha hal) haq
          obtain ⟨b, hb, hbs⟩ := hsamp p hpm
          refine ⟨a, ha, hal, fun b hb hl => haq' ▸ hle b hb hl, ⟨b, hb, hbs ▸ g1.2 a ha hal⟩, ?_⟩
          rw [haq', ← recGainAt_pos hwp hS]
          exact g4
      · rintro ⟨a, ha, hal, hmax, ⟨b, hb, hab⟩, hrec⟩
        have ham := (hmem a.score).2 (h.score_mem hw a ha)
        have hbm := (hmem b.score).2 (h.score_mem hw b hb)
        obtain ⟨k, hk⟩ := List.getElem?_of_mem ham
        obtain ⟨j, hj⟩ := List.getElem?_of_mem hbm
        obtain ⟨hk1, hk2⟩ := List.getElem?_eq_some_iff.1 hk
        obtain ⟨hj1, hj2⟩ := List.getElem?_eq_some_iff.1 hj
        have hjk : j < k := by
          by_contra hc
          rcases (not_lt.1 hc).eq_or_lt with rfl | hc
          · rw [hk2] at hj2; rw [hj2] at hab; exact lt_irrefl _ hab
          · have := List.pairwise_iff_getElem.1 hds k j hk1 hj1 hc
            rw [hk2, hj2] at this
            exact absurd this (not_lt.2 hab.le)
        obtain ⟨i, rfl⟩ : ∃ i, k = i + 1 := ⟨k - 1, by omega⟩
        have hi : i < (v0 :: ds).length := by omega
        have hlt := List.pairwise_iff_getElem.1 hds i (i + 1) hi hk1 (by omega)
        rw [hk2] at hlt
        have hz : tpCount (samples y s w) (.fin (v0 :: ds)[i]) = 0 := by
          rw [tpCount_zero hwp (hsamp _ (List.getElem_mem hi))]
          exact ⟨⟨a, ha, hal⟩, fun b hb hl => lt_of_le_of_lt (hmax b hb hl) hlt⟩
        refine ⟨i + 1, 0, recGainAt (samples y s w) (.fin a.score), ?_, ?_, ?_, ?_⟩
        · rw [hy i, List.getElem?_eq_getElem hi, Option.map_some, Option.some.injEq,
            precGainAt_ninf hwp (hsamp _ (List.getElem_mem hi))]
          exact hz
        · rw [hx]
          exact ⟨.fin (v0 :: ds)[i], by rw [hget i, List.getElem?_eq_getElem hi]; rfl, hzero _ hz⟩
        · rw [hx]
          exact ⟨.fin a.score, by rw [hget (i + 1), hk]; rfl, rfl⟩
        · exact (recGainAt_pos hwp hS _).2 hrec
  refine ⟨fun w => areaPrev (finVec ((thresholdsOf s).map (recGainAt (samples y s w))))
      (atThresholds (precGainAt (samples y s w)) (thresholdsOf s)), ?_, key⟩
  unfold auprg
  rw [prg_of h ht, ok_bind]
  unfold area
  have n1 : ∀ (rows : List (List (Flt K))), (∀ r ∈ rows, ∀ v ∈ r, v ≠ .nan) →
      (!(rows.any fun r => r.any fun v => v.isNaN)) = true := by
    intro rows hr
    rw [Bool.not_eq_true', List.any_eq_false]
    intro r hrm
    rw [Bool.not_eq_true, List.any_eq_false]
    intro v hv hn
    exact hr r hrm v hv (Flt.isNaN_iff.1 hn)
  simp only [pyAssert_bind]
  rw [if_pos (by
    obtain ⟨v, ds, e, -⟩ := isThresholds_shape h.scores_ne ht
    rw [e]; simp [finMat]), if_pos (n1 _ (by
      intro r hr v hv
      obtain ⟨xs, -, rfl⟩ := List.mem_map.1 hr
      obtain ⟨x, -, rfl⟩ := List.mem_map.1 hv
      simp)), if_pos (by simp [finMat, matOf]), if_pos (n1 _ (by
      intro r hr v hv
      obtain ⟨w, hw, rfl⟩ := List.mem_map.1 hr
      obtain ⟨u, -, rfl⟩ := atThresholds_mem h.scores_ne ht hv
      exact (precGainAt_le (h.weight_pos hw) (h.samples_ne hw) _).2))]
  have e2 : List.zipWith areaPrev
      (finMat (thresholdsOf s).length ((weightRows y.length W).map fun w =>
        (thresholdsOf s).map (recGainAt (samples y s w)))).rows
      (matOf (thresholdsOf s) ((weightRows y.length W).map fun w =>
        atThresholds (precGainAt (samples y s w)) (thresholdsOf s))).rows =
      (weightRows y.length W).map fun w => areaPrev (finVec ((thresholdsOf s).map (recGainAt (samples y s w))))
        (atThresholds (precGainAt (samples y s w)) (thresholdsOf s)) := by
    simp only [finMat, matOf, List.map_map]
    rw [zipWith_map_self]
    rfl
  simp only [pure_eq_ok, ok_bind, e2]
  rw [if_pos]
  rw [Bool.not_eq_true', List.any_eq_false]
  intro v hv hn
  obtain ⟨w, hw, rfl⟩ := List.mem_map.1 hv
  exact (key w hw).1 (Flt.isNaN_iff.1 hn)

end

/-! ### Examples -/

/-- Two samples, the negative one with the higher score: the area is minus infinity. -/
theorem exampleDrop : CurveInput [false, true] [2, (1 : ℚ)] none :=
  ⟨by decide, by decide, by decide +kernel, by decide +kernel⟩

example : DropsOut (samples [false, true] [2, (1 : ℚ)] [1, 1]) :=
  ⟨⟨1, true, 1⟩, by simp [samples], rfl, by simp [samples], ⟨⟨2, false, 1⟩, by simp [samples], by norm_num⟩,
    by decide +kernel⟩
example : ¬ DropsOut (samples [true, false] [2, (1 : ℚ)] [1, 1]) := by
  rintro ⟨a, ha, h1, -, ⟨b, hb, h2⟩, -⟩
  simp [samples] at ha hb
  rcases ha with rfl | rfl <;> rcases hb with rfl | rfl <;> revert h1 h2 <;> norm_num
example : prgCurve [false, true] (finVec [2, (1 : ℚ)]) none =
    .ok (⟨finMat 3 [[0, 0, 1]], ⟨3, [[.ninf, .ninf, .fin 0]]⟩, .previous⟩, [.pinf, .fin 2, .fin 1]) := by
  refine (prg_of exampleDrop (thr := [.pinf, .fin 2, .fin 1]) ⟨[2, 1], rfl, by decide +kernel, by simp⟩).trans ?_
  have e1 : ((weightRows 2 none).map fun w => [Flt.pinf, .fin 2, .fin 1].map
      (recGainAt (samples [false, true] [2, (1 : ℚ)] w))) = [[0, 0, 1]] := by decide +kernel
  have e2 : ((weightRows 2 none).map fun w => atThresholds
      (precGainAt (samples [false, true] [2, (1 : ℚ)] w)) [Flt.pinf, .fin 2, .fin 1]) =
      [[.ninf, .ninf, .fin 0]] := by decide +kernel
  simp only [List.length_cons, List.length_nil, Nat.zero_add, Nat.reduceAdd, matOf, e1, e2]

/-- The hypotheses of C71 to C73 hold for that input. -/
example := C71_area exampleDrop
example := C73_area exampleDrop
example : ∃ c thr, recallPrecisionCurve [false, true] (finVec [2, (1 : ℚ)]) none = .ok (c, thr) ∧
    c.y = finMat 3 [[0, 0, 1 / 2]] := by
  refine ⟨_, _, recall_precision_of exampleDrop (thr := [.pinf, .fin 2, .fin 1])
    ⟨[2, 1], rfl, by decide +kernel, by simp⟩, ?_⟩
  have e2 : ((weightRows 2 none).map fun w => atThresholds
      (precisionAt (samples [false, true] [2, (1 : ℚ)] w)) [Flt.pinf, .fin 2, .fin 1]) = [[0, 0, 1 / 2]] := by
    decide +kernel
  simp only [List.length_cons, List.length_nil, Nat.zero_add, Nat.reduceAdd, e2]

end Mlp.Props
