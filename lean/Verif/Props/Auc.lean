import Verif.Props.CurveLaws

/-! # Properties C68 to C70: the area under the ROC curve -/

set_option linter.unusedSectionVars false

namespace Mlp.Props
open Mlp.Util Mlp.Perf Mlp.Spec Mlp.Lemmas

section
variable {K : Type} [Field K] [LinearOrder K] [IsStrictOrderedRing K]

/-! ## Trapezoids of functions on a list of thresholds -/

theorem pieceSum_cons₂ (I : K → K → K → K → K) (a b y0 y1 : K) (xs ys : List K) :
    pieceSum I (a :: b :: xs) (y0 :: y1 :: ys) = I a b y0 y1 + pieceSum I (b :: xs) (y1 :: ys) := rfl

/-- The trapezoidal area of `g` against `f` along a list. -/
def trapSum {α : Type} (f g : α → K) (l : List α) : K := pieceSum trap (l.map f) (l.map g)

theorem trapSum_cons₂ {α : Type} (f g : α → K) (a b : α) (l : List α) :
    trapSum f g (a :: b :: l) = (f b - f a) * (g b + g a) / 2 + trapSum f g (b :: l) := rfl

theorem trapSum_zero_left {α : Type} (g : α → K) (l : List α) : trapSum (fun _ => 0) g l = 0 := by
  induction l with
  | nil => rfl
  | cons a l ih =>
    cases l with
    | nil => rfl
    | cons b l => rw [trapSum_cons₂, ih]; ring

theorem trapSum_zero_right {α : Type} (f : α → K) (l : List α) : trapSum f (fun _ => 0) l = 0 := by
  induction l with
  | nil => rfl
  | cons a l ih =>
    cases l with
    | nil => rfl
    | cons b l => rw [trapSum_cons₂, ih]; ring

theorem trapSum_add_left {α : Type} (f f' g : α → K) (l : List α) :
    trapSum (fun a => f a + f' a) g l = trapSum f g l + trapSum f' g l := by
  induction l with
  | nil => simp [trapSum, pieceSum]
  | cons a l ih =>
    cases l with
    | nil => simp [trapSum, pieceSum]
    | cons b l => rw [trapSum_cons₂, trapSum_cons₂, trapSum_cons₂, ih]; ring

theorem trapSum_add_right {α : Type} (f g g' : α → K) (l : List α) :
    trapSum f (fun a => g a + g' a) l = trapSum f g l + trapSum f g' l := by
  induction l with
  | nil => simp [trapSum, pieceSum]
  | cons a l ih =>
    cases l with
    | nil => simp [trapSum, pieceSum]
    | cons b l => rw [trapSum_cons₂, trapSum_cons₂, trapSum_cons₂, ih]; ring

theorem trapSum_smul {α : Type} (c d : K) (f g : α → K) (l : List α) :
    trapSum (fun a => c * f a) (fun a => d * g a) l = c * d * trapSum f g l := by
  induction l with
  | nil => simp [trapSum, pieceSum]
  | cons a l ih =>
    cases l with
    | nil => simp [trapSum, pieceSum]
    | cons b l => rw [trapSum_cons₂, trapSum_cons₂, ih]; ring

theorem trapSum_congr {α : Type} {f f' g g' : α → K} {l : List α} (hf : ∀ a ∈ l, f a = f' a)
    (hg : ∀ a ∈ l, g a = g' a) : trapSum f g l = trapSum f' g' l := by
  unfold trapSum
  rw [List.map_congr_left hf, List.map_congr_left hg]

/-- If `f` is constant there is no area. -/
theorem trapSum_flat {α : Type} {f g : α → K} {l : List α} {c : K} (hf : ∀ a ∈ l, f a = c) : trapSum f g l = 0 := by
  induction l with
  | nil => rfl
  | cons a l ih =>
    cases l with
    | nil => rfl
    | cons b l =>
      rw [trapSum_cons₂, ih fun x hx => hf x (by simp [hx]), hf a (by simp), hf b (by simp)]; ring

/-- If `g` is constant the area is that of a rectangle. -/
theorem trapSum_const {α : Type} {f g : α → K} {a : α} {l : List α} {c : K} (hg : ∀ x ∈ a :: l, g x = c) :
    trapSum f g (a :: l) = (f ((a :: l).getLast (by simp)) - f a) * c := by
  induction l generalizing a with
  | nil => simp [trapSum, pieceSum]
  | cons b l ih =>
    rw [trapSum_cons₂, ih fun x hx => hg x (by simp [hx]), hg a (by simp), hg b (by simp)]
    rw [List.getLast_cons_cons]
    ring

/-- The area of a function against itself. -/
theorem trapSum_self {α : Type} (f : α → K) (a : α) (l : List α) :
    trapSum f f (a :: l) = (f ((a :: l).getLast (by simp)) ^ 2 - f a ^ 2) / 2 := by
  induction l generalizing a with
  | nil => simp [trapSum, pieceSum]
  | cons b l ih =>
    rw [trapSum_cons₂, ih, List.getLast_cons_cons]
    ring

/-- Integration by parts: the two areas on both sides of the curve fill the rectangle. -/
theorem trapSum_swap {α : Type} (f g : α → K) (a : α) (l : List α) :
    trapSum f g (a :: l) + trapSum g f (a :: l) =
      f ((a :: l).getLast (by simp)) * g ((a :: l).getLast (by simp)) - f a * g a := by
  induction l generalizing a with
  | nil => simp [trapSum, pieceSum]
  | cons b l ih =>
    have := ih b
    rw [trapSum_cons₂, trapSum_cons₂, List.getLast_cons_cons]
    linarith

/-! ## Steps -/

/-- The step at `b` as a function of the threshold: 1 for thresholds at most `b`. -/
def step (b : K) (θ : Flt K) : K := if θ ≤ .fin b then 1 else 0

theorem step_area {a b : K} {l : List (Flt K)} (hs : l.Pairwise (· > ·)) {θ0 : Flt K} (h0 : ∀ θ ∈ l, θ < θ0)
    (ha : Flt.fin a ∈ l) (hb : Flt.fin b ∈ l) : trapSum (step b) (step a) (θ0 :: l) = ordered a b := by
  induction l generalizing θ0 with
  | nil => simp at ha
  | cons θ l ih =>
    have h1 : ∀ x ∈ l, x < θ := fun x hx => (List.pairwise_cons.1 hs).1 x hx
    have ha0 : step a θ0 = 0 := if_neg (not_le.2 (h0 _ ha))
    have hb0 : step b θ0 = 0 := if_neg (not_le.2 (h0 _ hb))
    have hle : ∀ c : K, Flt.fin c ∈ θ :: l → Flt.fin c ≤ θ := by
      intro c hc
      rcases List.mem_cons.1 hc with rfl | hc
      · exact le_rfl
      · exact (h1 _ hc).le
    rw [trapSum_cons₂, ha0, hb0]
    by_cases hb1 : Flt.fin b = θ
    · -- the negative sample is reached here
      have hflat : trapSum (step b) (step a) (θ :: l) = 0 := trapSum_flat (c := 1) fun x hx => by
        rcases List.mem_cons.1 hx with rfl | hx
        · exact if_pos hb1.symm.le
        · exact if_pos ((h1 x hx).le.trans hb1.symm.le)
      rw [hflat, show step b θ = 1 from if_pos hb1.symm.le]
      have := hle a ha
      rw [← hb1] at this ⊢
      rw [Flt.fin_le_fin] at this
      unfold step ordered
      rw [if_neg (not_lt.2 this)]
      by_cases hab : a = b
      · rw [if_pos (by rw [hab]), if_pos hab]; ring
      · rw [if_neg (by rw [Flt.fin_le_fin]; exact fun h => hab (le_antisymm this h)), if_neg hab]; ring
    · have hbl : Flt.fin b ∈ l := (List.mem_cons.1 hb).resolve_left hb1
      have hb2 : step b θ = 0 := if_neg (not_le.2 (h1 _ hbl))
      by_cases ha1 : Flt.fin a = θ
      · -- the positive sample is reached first
        have hlast : step b ((θ :: l).getLast (by simp)) = 1 := by
          refine if_pos ?_
          have hne : l ≠ [] := List.ne_nil_of_mem hbl
          rw [List.getLast_cons hne]
          have hs' := (List.pairwise_cons.1 hs).2
          rw [← List.dropLast_append_getLast hne, List.pairwise_append] at hs'
          rw [← List.dropLast_append_getLast hne, List.mem_append, List.mem_singleton] at hbl
          rcases hbl with h | h
          · exact (hs'.2.2 _ h _ (by simp)).le
          · exact h.symm.le
        rw [trapSum_const (c := 1) fun x hx => by
          rcases List.mem_cons.1 hx with rfl | hx
          · exact if_pos ha1.symm.le
          · exact if_pos ((h1 x hx).le.trans ha1.symm.le)]
        rw [hlast, hb2]
        have : b < a := by
          have := h1 _ hbl
          rw [← ha1, Flt.fin_lt_fin] at this; exact this
        unfold ordered
        rw [if_pos this]; ring
      · have hal : Flt.fin a ∈ l := (List.mem_cons.1 ha).resolve_left ha1
        rw [ih (List.pairwise_cons.1 hs).2 h1 hal hbl, hb2]; ring

/-- Counts are sums of steps. -/
theorem posAbove_sum (S : List (Sample K)) (θ : Flt K) :
    posAbove S θ = (S.map fun a => if a.label then a.weight * step a.score θ else 0).sum := by
  unfold posAbove wsum step
  congr 1
  refine List.map_congr_left fun a _ => ?_
  cases h : a.label <;> simp [h]

theorem negAbove_sum (S : List (Sample K)) (θ : Flt K) :
    negAbove S θ = (S.map fun a => if a.label then 0 else a.weight * step a.score θ).sum := by
  unfold negAbove wsum step
  congr 1
  refine List.map_congr_left fun a _ => ?_
  cases h : a.label <;> simp [h]

theorem trapSum_sum_left {α β : Type} (F : β → α → K) (g : α → K) (S : List β) (l : List α) :
    trapSum (fun a => (S.map fun b => F b a).sum) g l = (S.map fun b => trapSum (F b) g l).sum := by
  induction S with
  | nil => exact trapSum_zero_left g l
  | cons b S ih =>
    simp only [List.map_cons, List.sum_cons]
    rw [trapSum_add_left, ih]

theorem trapSum_sum_right {α β : Type} (f : α → K) (G : β → α → K) (S : List β) (l : List α) :
    trapSum f (fun a => (S.map fun b => G b a).sum) l = (S.map fun b => trapSum f (G b) l).sum := by
  induction S with
  | nil => exact trapSum_zero_right f l
  | cons b S ih =>
    simp only [List.map_cons, List.sum_cons]
    rw [trapSum_add_right, ih]

/-- The area between the counts is the number of well-ordered pairs. -/
theorem counts_area {s : List K} {thr : List (Flt K)} (ht : IsThresholds s thr) {S : List (Sample K)}
    (hs : ∀ a ∈ S, a.score ∈ s) : trapSum (negAbove S) (posAbove S) thr = orderedPairs S := by
  have hsorted := isThresholds_sorted ht
  obtain ⟨ds, rfl, h1, h2⟩ := ht
  rw [List.pairwise_cons] at hsorted
  have hmem : ∀ a ∈ S, Flt.fin a.score ∈ finVec ds := fun a ha => List.mem_map_of_mem ((h2 _).2 (hs a ha))
  have e1 : negAbove S = fun θ => (S.map fun b => (fun (b : Sample K) θ =>
      if b.label then 0 else b.weight * step b.score θ) b θ).sum := funext fun θ => negAbove_sum S θ
  have e2 : posAbove S = fun θ => (S.map fun b => (fun (a : Sample K) θ =>
      if a.label then a.weight * step a.score θ else 0) b θ).sum := funext fun θ => posAbove_sum S θ
  rw [e1, e2, trapSum_sum_right]
  unfold orderedPairs
  congr 1
  refine List.map_congr_left fun a ha => ?_
  rw [trapSum_sum_left]
  cases hla : a.label
  · simp only [Bool.false_eq_true, if_false]
    refine List.sum_eq_zero fun x hx => ?_
    obtain ⟨b, -, rfl⟩ := List.mem_map.1 hx
    exact trapSum_zero_right _ _
  · simp only [if_true]
    congr 1
    refine List.map_congr_left fun b hb => ?_
    cases hlb : b.label
    · simp only [Bool.false_eq_true, if_false]
      rw [trapSum_smul, step_area hsorted.2 (fun θ hθ => hsorted.1 θ hθ) (hmem a ha) (hmem b hb)]
      ring
    · simp only [if_true]
      exact trapSum_zero_left _ _

/-! ## C68 -/

/-- The areas under the rows of the ROC curve. -/
theorem roc_area {y : List Bool} {s : List K} {W : Option (List (List K))} (h : CurveInput y s W) {c : Curve K}
    {thr : List (Flt K)} (hc : rocCurve y (finVec s) (W.map (finMat y.length)) = .ok (c, thr)) :
    IsThresholds s thr ∧ area c.x c.y c.kind = .ok (finVec ((weightRows y.length W).map fun w =>
      trapSum (fprAt (samples y s w)) (recallAt (samples y s w)) thr)) := by
  have ht := thresholdsOf_spec h.scores_ne
  rw [roc_of h ht, Except.ok.injEq, Prod.mk.injEq] at hc
  obtain ⟨rfl, rfl⟩ := hc
  refine ⟨ht, ?_⟩
  rw [C61_area (by
    obtain ⟨v, ds, e, -⟩ := isThresholds_shape h.scores_ne ht
    rw [e]; simp) ?_ ?_ (by simp) (Or.inr rfl), zipWith_map_self]
  · rfl
  · intro r hr
    obtain ⟨w, -, rfl⟩ := List.mem_map.1 hr
    simp
  · intro r hr
    obtain ⟨w, -, rfl⟩ := List.mem_map.1 hr
    simp

theorem rates_area {s : List K} {thr : List (Flt K)} (ht : IsThresholds s thr) {S : List (Sample K)}
    (hs : ∀ a ∈ S, a.score ∈ s) (hw : ∀ a ∈ S, 0 < a.weight) (hp : ∃ a ∈ S, a.label = true)
    (hn : ∃ a ∈ S, a.label = false) : trapSum (fprAt S) (recallAt S) thr = mannWhitney S := by
  have hP := posTotal_pos hw hp
  have hN := negTotal_pos hw hn
  have e1 : fprAt S = fun θ => (negTotal S)⁻¹ * negAbove S θ := by
    funext θ
    rw [fprAt, fpCount, fpTotal, if_neg hN.ne', if_neg hN.ne', div_eq_inv_mul]
  have e2 : recallAt S = fun θ => (posTotal S)⁻¹ * posAbove S θ := by
    funext θ
    rw [recallAt, tpCount, tpTotal, if_neg hP.ne', if_neg hP.ne', div_eq_inv_mul]
  rw [e1, e2, trapSum_smul, counts_area ht hs, mannWhitney]
  field_simp

/-- **C68.**  With both classes present, the area under every row of the ROC curve is the weighted share of
pairs of a positive and a negative sample that the scores order correctly, ties counting one half. -/
theorem C68_mann_whitney {y : List Bool} {s : List K} {W : Option (List (List K))} (h : CurveInput y s W)
    (hp : true ∈ y) (hn : false ∈ y) {c : Curve K} {thr : List (Flt K)}
    (hc : rocCurve y (finVec s) (W.map (finMat y.length)) = .ok (c, thr)) :
    area c.x c.y c.kind = .ok (finVec ((weightRows y.length W).map fun w => mannWhitney (samples y s w))) := by
  obtain ⟨ht, ha⟩ := roc_area h hc
  rw [ha]
  congr 2
  exact List.map_congr_left fun w hw => rates_area ht (h.score_mem hw) (h.weight_pos hw) (h.exists_label hw hp)
    (h.exists_label hw hn)

/-! ## C70 -/

/-- With one class missing the two rates agree. -/
theorem single_class_rates {S : List (Sample K)} (hw : ∀ a ∈ S, 0 < a.weight) (hS : S ≠ [])
    (h1 : (∀ a ∈ S, a.label = true) ∨ ∀ a ∈ S, a.label = false) : fprAt S = recallAt S := by
  funext θ
  rcases h1 with h1 | h1
  · have hN : negTotal S = 0 := wsum_zero fun a ha => by simp [h1 a ha]
    have hP : posTotal S ≠ 0 := by
      rcases total_pos hw hS with h | h
      · exact h.ne'
      · exact absurd hN h.ne'
    rw [fprAt, recallAt, fpCount, tpCount, fpTotal, tpTotal, if_pos hN, if_pos hN, if_neg hP, if_neg hP]
    exact mul_div_mul_left _ _ (by norm_num)
  · have hP : posTotal S = 0 := wsum_zero fun a ha => by simp [h1 a ha]
    have hN : negTotal S ≠ 0 := by
      rcases total_pos hw hS with h | h
      · exact absurd hP h.ne'
      · exact h.ne'
    rw [fprAt, recallAt, fpCount, tpCount, fpTotal, tpTotal, if_pos hP, if_pos hP, if_neg hN, if_neg hN]
    exact (mul_div_mul_left _ _ (by norm_num)).symm

theorem single_class_samples {y : List Bool} {s : List K} {W : Option (List (List K))} (h : CurveInput y s W)
    {w : List K} (hw : w ∈ weightRows y.length W) {b : Bool} (h1 : ∀ b' ∈ y, b' = b) :
    ∀ a ∈ samples y s w, a.label = b := fun _ ha => h1 _ (mem_samples h.length (h.weights w hw).1 ha).2.2

theorem rates_last {y : List Bool} {s : List K} {W : Option (List (List K))} (h : CurveInput y s W)
    {thr : List (Flt K)} (ht : IsThresholds s thr) {w : List K} (hw : w ∈ weightRows y.length W) (hne : thr ≠ []) :
    fprAt (samples y s w) (thr.getLast hne) = 1 ∧ recallAt (samples y s w) (thr.getLast hne) = 1 := by
  obtain ⟨xs, e, -, -, hl⟩ := rises_fpr h ht hw
  obtain ⟨ys, e', -, -, hl'⟩ := rises_recall h ht hw
  have inj : ∀ {a b : List K}, finVec a = finVec b → a = b := fun hab =>
    List.map_injective_iff.2 (fun _ _ h => by simpa using h) hab
  rw [← inj e, List.getLast?_map, List.getLast?_eq_some_getLast hne] at hl
  rw [← inj e', List.getLast?_map, List.getLast?_eq_some_getLast hne] at hl'
  simp at hl hl'
  exact ⟨hl, hl'⟩

theorem rates_last' {y : List Bool} {s : List K} {W : Option (List (List K))} (h : CurveInput y s W) {w : List K}
    (hw : w ∈ weightRows y.length W) :
    fprAt (samples y s w) ((.pinf :: finVec (groupScores (reorder (descIdx s) s))).getLast (by simp)) = 1 ∧
    recallAt (samples y s w) ((.pinf :: finVec (groupScores (reorder (descIdx s) s))).getLast (by simp)) = 1 :=
  rates_last h (thresholdsOf_spec h.scores_ne) hw (by simp [thresholdsOf])

/-- **C70, ROC.**  If all labels are the same, the ROC curve lies on the diagonal and the area is one half. -/
theorem C70_roc {y : List Bool} {s : List K} {W : Option (List (List K))} (h : CurveInput y s W) {b : Bool}
    (h1 : ∀ b' ∈ y, b' = b) {c : Curve K} {thr : List (Flt K)}
    (hc : rocCurve y (finVec s) (W.map (finMat y.length)) = .ok (c, thr)) :
    c.x = c.y ∧ area c.x c.y c.kind = .ok (finVec ((weightRows y.length W).map fun _ => 1 / 2)) := by
  obtain ⟨ht, ha⟩ := roc_area h hc
  have hS : ∀ w ∈ weightRows y.length W, fprAt (samples y s w) = recallAt (samples y s w) := fun w hw =>
    single_class_rates (h.weight_pos hw) (h.samples_ne hw) (by
      have := single_class_samples h hw h1
      cases b
      · exact Or.inr this
      · exact Or.inl this)
  constructor
  · rw [roc_of h ht, Except.ok.injEq, Prod.mk.injEq] at hc
    obtain ⟨rfl, -⟩ := hc
    simp only
    congr 1
    exact List.map_congr_left fun w hw => by rw [hS w hw]
  · rw [ha]
    congr 2
    refine List.map_congr_left fun w hw => ?_
    rw [hS w hw]
    have hthr : thr ≠ [] := by
      obtain ⟨ds, rfl, -⟩ := ht
      simp
    have hl := rates_last h ht hw hthr
    clear ha hc
    obtain ⟨ds, rfl, -⟩ := ht
    rw [trapSum_self, hl.2, recallAt, tpCount_pinf]
    norm_num

/-- **C70, precision.**  If all labels are positive, the precision is `1 / (1 + 1e-10)` everywhere; if all are
negative, it is `1e-10 / (1 + 1e-10)`. -/
theorem C70_precision {y : List Bool} {s : List K} {W : Option (List (List K))} (h : CurveInput y s W) {b : Bool}
    (h1 : ∀ b' ∈ y, b' = b) {c : Curve K} {thr : List (Flt K)}
    (hc : recallPrecisionCurve y (finVec s) (W.map (finMat y.length)) = .ok (c, thr)) :
    c.y.rows.length = (weightRows y.length W).length ∧ ∀ r ∈ c.y.rows, r.length = thr.length ∧ ∀ v ∈ r,
      v = .fin (if b then 1 / (1 + 1 / 10000000000) else 1 / 10000000000 / (1 + 1 / 10000000000)) := by
  have ht := thresholdsOf_spec h.scores_ne
  rw [recall_precision_of h ht, Except.ok.injEq, Prod.mk.injEq] at hc
  obtain ⟨rfl, rfl⟩ := hc
  simp only [finMat, List.length_map, true_and]
  intro r hr
  obtain ⟨xs, hxs, rfl⟩ := List.mem_map.1 hr
  obtain ⟨w, hw, rfl⟩ := List.mem_map.1 hxs
  constructor
  · obtain ⟨v, ds, e, -⟩ := isThresholds_shape h.scores_ne ht
    rw [e]; simp [atThresholds, finVec]
  intro v hv
  obtain ⟨x, hx, rfl⟩ := List.mem_map.1 hv
  obtain ⟨u, hu, rfl⟩ := atThresholds_mem h.scores_ne ht hx
  congr 1
  have hlab := single_class_samples h hw h1
  have hpos := count_pos (h.weight_pos hw) (h.exists_sample hw hu)
  unfold precisionAt
  unfold tpCount fpCount at hpos ⊢
  cases b
  · have hP : posTotal (samples y s w) = 0 := wsum_zero fun a ha => by simp [hlab a ha]
    have hN : negTotal (samples y s w) ≠ 0 := by
      rcases total_pos (h.weight_pos hw) (h.samples_ne hw) with h | h
      · exact absurd hP h.ne'
      · exact h.ne'
    rw [if_pos hP, if_neg hN] at hpos ⊢
    have : negAbove (samples y s w) (.fin u) ≠ 0 := by
      intro e; rw [e] at hpos; simp at hpos
    simp only [Bool.false_eq_true, if_false]
    field_simp
    try ring
  · have hN : negTotal (samples y s w) = 0 := wsum_zero fun a ha => by simp [hlab a ha]
    have hP : posTotal (samples y s w) ≠ 0 := by
      rcases total_pos (h.weight_pos hw) (h.samples_ne hw) with h | h
      · exact h.ne'
      · exact absurd hN h.ne'
    rw [if_pos hN, if_neg hP] at hpos ⊢
    have : posAbove (samples y s w) (.fin u) ≠ 0 := by
      intro e; rw [e] at hpos; simp at hpos
    simp only [if_true]
    field_simp
    try ring

/-! ## C69 -/

/-- The area under the ROC curve, for every row of weights. -/
def auc (y : List Bool) (sc : List (Flt K)) (M : Option (Mat K)) : Py (List (Flt K)) := do
  let (c, _) ← rocCurve y sc M
  area c.x c.y c.kind

theorem auc_of {y : List Bool} {s : List K} {W : Option (List (List K))} (h : CurveInput y s W)
    {thr : List (Flt K)} (ht : IsThresholds s thr) :
    auc y (finVec s) (W.map (finMat y.length)) = .ok (finVec ((weightRows y.length W).map fun w =>
      trapSum (fprAt (samples y s w)) (recallAt (samples y s w)) thr)) := by
  unfold auc
  rw [roc_of h ht, ok_bind]
  exact (roc_area h (roc_of h ht)).2

theorem trapSum_bounds {α : Type} {f g : α → K} {a : α} {l : List α}
    (hf : (a :: l).Pairwise fun x y => f x ≤ f y) (hg : ∀ x ∈ a :: l, 0 ≤ g x ∧ g x ≤ 1) :
    0 ≤ trapSum f g (a :: l) ∧ trapSum f g (a :: l) ≤ f ((a :: l).getLast (by simp)) - f a := by
  induction l generalizing a with
  | nil => simp [trapSum, pieceSum]
  | cons b l ih =>
    obtain ⟨h1, h2⟩ := List.pairwise_cons.1 hf
    obtain ⟨i1, i2⟩ := ih h2 fun x hx => hg x (by simp [hx])
    have hab := sub_nonneg.2 (h1 b (by simp))
    obtain ⟨g1, g2⟩ := hg a (by simp)
    obtain ⟨g3, g4⟩ := hg b (by simp)
    rw [trapSum_cons₂, List.getLast_cons_cons]
    have p1 : 0 ≤ (f b - f a) * (g b + g a) / 2 := by positivity
    have p2 : (f b - f a) * (g b + g a) / 2 ≤ f b - f a := by nlinarith
    exact ⟨by linarith, by linarith⟩

theorem rate_bounds {S : List (Sample K)} (hw : ∀ a ∈ S, 0 < a.weight) (hS : S ≠ []) (θ : Flt K) :
    (0 ≤ fprAt S θ ∧ fprAt S θ ≤ 1) ∧ 0 ≤ recallAt S θ ∧ recallAt S θ ≤ 1 := by
  have hP := tpTotal_pos hw hS
  have hN := fpTotal_pos hw hS
  have h1 := fpCount_nonneg hw θ
  have h2 := tpCount_nonneg hw θ
  unfold fprAt recallAt
  exact ⟨⟨by positivity, div_le_one_of_le₀ (fpCount_le hw θ) hN.le⟩, by positivity,
    div_le_one_of_le₀ (tpCount_le hw θ) hP.le⟩

/-- **C69, range.**  The area under the ROC curve is between 0 and 1, for every row of weights and any
labels. -/
theorem C69_bounds {y : List Bool} {s : List K} {W : Option (List (List K))} (h : CurveInput y s W) :
    ∃ vs, auc y (finVec s) (W.map (finMat y.length)) = .ok (finVec vs) ∧
      vs.length = (weightRows y.length W).length ∧ ∀ v ∈ vs, 0 ≤ v ∧ v ≤ 1 := by
  have ht := thresholdsOf_spec h.scores_ne
  refine ⟨_, auc_of h ht, by simp, ?_⟩
  intro v hv
  obtain ⟨w, hw, rfl⟩ := List.mem_map.1 hv
  have hN := fpTotal_pos (h.weight_pos hw) (h.samples_ne hw)
  have hl := rates_last' h hw
  have hsorted : (thresholdsOf s).Pairwise fun θ θ' => fprAt (samples y s w) θ ≤ fprAt (samples y s w) θ' :=
    (isThresholds_sorted ht).imp fun hab =>
      div_le_div_of_nonneg_right (fpCount_mono (h.weight_pos hw) (le_of_lt hab)) hN.le
  have := trapSum_bounds (g := recallAt (samples y s w)) hsorted fun θ _ =>
    (rate_bounds (h.weight_pos hw) (h.samples_ne hw) θ).2
  refine ⟨this.1, this.2.trans ?_⟩
  have e : fprAt (samples y s w) .pinf = 0 := by rw [fprAt, fpCount_pinf, zero_div]
  rw [hl.1, e, sub_zero]

theorem samples_flip {y : List Bool} {s w : List K} :
    samples (y.map fun b => !b) s w = (samples y s w).map fun a => ⟨a.score, !a.label, a.weight⟩ := by
  unfold samples
  induction y generalizing s w with
  | nil => rfl
  | cons b y ih =>
    cases s with
    | nil => rfl
    | cons v s =>
      cases w with
      | nil => rfl
      | cons u w => simp only [List.map_cons, List.zip_cons_cons, List.zipWith_cons_cons, ih]

theorem rates_flip {y : List Bool} {s w : List K} :
    fprAt (samples (y.map fun b => !b) s w) = recallAt (samples y s w) ∧
    recallAt (samples (y.map fun b => !b) s w) = fprAt (samples y s w) := by
  have key := fun p => wsum_map (samples y s w) (fun a => ⟨a.score, !a.label, a.weight⟩) (fun _ _ => rfl) p
  rw [samples_flip]
  have e1 : posTotal ((samples y s w).map fun a => ⟨a.score, !a.label, a.weight⟩) = negTotal (samples y s w) :=
    key fun a => a.label
  have e2 : negTotal ((samples y s w).map fun a => ⟨a.score, !a.label, a.weight⟩) = posTotal (samples y s w) :=
    (key fun a => !a.label).trans (wsum_congr fun a _ => by simp)
  have e3 : ∀ θ, posAbove ((samples y s w).map fun a => ⟨a.score, !a.label, a.weight⟩) θ = negAbove (samples y s w) θ :=
    fun θ => key fun a => a.label && decide (θ ≤ .fin a.score)
  have e4 : ∀ θ, negAbove ((samples y s w).map fun a => ⟨a.score, !a.label, a.weight⟩) θ = posAbove (samples y s w) θ :=
    fun θ => (key fun a => !a.label && decide (θ ≤ .fin a.score)).trans (wsum_congr fun a _ => by simp)
  constructor
  · funext θ
    unfold fprAt recallAt fpCount tpCount fpTotal tpTotal
    rw [e1, e2, e3, e4]
  · funext θ
    unfold fprAt recallAt fpCount tpCount fpTotal tpTotal
    rw [e1, e2, e3, e4]

/-- **C69, swapped classes.**  Exchanging the labels turns the area into one minus the area. -/
theorem C69_flip {y : List Bool} {s : List K} {W : Option (List (List K))} (h : CurveInput y s W) :
    ∃ vs, auc y (finVec s) (W.map (finMat y.length)) = .ok (finVec vs) ∧
      auc (y.map fun b => !b) (finVec s) (W.map (finMat y.length)) = .ok (finVec (vs.map fun v => 1 - v)) := by
  have ht := thresholdsOf_spec h.scores_ne
  have hyl : (y.map fun b => !b).length = y.length := List.length_map ..
  have h' : CurveInput (y.map fun b => !b) s W := by
    refine ⟨by rw [hyl, h.length], ?_, ?_, ?_⟩
    · have := h.nonempty
      simpa using this
    · rw [hyl]; exact h.rows
    · rw [hyl]; exact h.weights
  refine ⟨_, auc_of h ht, ?_⟩
  have := auc_of h' ht
  rw [hyl] at this
  rw [this, List.map_map]
  congr 2
  refine List.map_congr_left fun w hw => ?_
  have hl := rates_last' h hw
  have e := trapSum_swap (fprAt (samples y s w)) (recallAt (samples y s w)) .pinf
    (finVec (groupScores (reorder (descIdx s) s)))
  have e0 : fprAt (samples y s w) .pinf = 0 := by rw [fprAt, fpCount_pinf, zero_div]
  rw [hl.1, hl.2, e0] at e
  simp only [Function.comp, rates_flip.1, rates_flip.2]
  unfold thresholdsOf
  linarith

theorem ordered_neg (a b : K) : ordered (-a) (-b) = 1 - ordered a b := by
  unfold ordered
  rcases lt_trichotomy a b with h | h | h
  · rw [if_pos (neg_lt_neg h), if_neg (not_lt.2 h.le), if_neg h.ne]; ring
  · subst h; simp; norm_num
  · rw [if_neg (not_lt.2 (neg_lt_neg h).le), if_neg (by simp [h.ne']), if_pos h]; ring

/-- The total weight of the pairs of a positive and a negative sample. -/
theorem pairs_total (S S' : List (Sample K)) (q : Sample K → Sample K → K) :
    (S.map fun a => if a.label then
      (S'.map fun b => if b.label then 0 else a.weight * b.weight * (1 - q a b)).sum else 0).sum =
    posTotal S * negTotal S' - (S.map fun a => if a.label then
      (S'.map fun b => if b.label then 0 else a.weight * b.weight * q a b).sum else 0).sum := by
  have inner : ∀ a : Sample K, (S'.map fun b => if b.label then 0 else a.weight * b.weight * (1 - q a b)).sum =
      a.weight * negTotal S' - (S'.map fun b => if b.label then 0 else a.weight * b.weight * q a b).sum := by
    intro a
    unfold negTotal
    induction S' with
    | nil => simp [wsum_nil]
    | cons b S' ih =>
      rw [wsum_cons, List.map_cons, List.map_cons, List.sum_cons, List.sum_cons, ih]
      cases b.label <;> simp
      ring
  unfold posTotal
  induction S with
  | nil => simp [wsum_nil]
  | cons a S ih =>
    rw [wsum_cons, List.map_cons, List.map_cons, List.sum_cons, List.sum_cons, ih, inner]
    cases a.label <;> simp
    ring

theorem orderedPairs_neg {y : List Bool} {s w : List K} :
    orderedPairs (samples y (s.map fun v => -v) w) =
      posTotal (samples y s w) * negTotal (samples y s w) - orderedPairs (samples y s w) := by
  have e := pairs_total (samples y s w) (samples y s w) fun a b => ordered a.score b.score
  unfold orderedPairs
  rw [← e, samples_map]
  simp only [List.map_map, Function.comp_def, ordered_neg]

/-- **C69, negated scores.**  Negating the scores turns the area into one minus the area. -/
theorem C69_negate {y : List Bool} {s : List K} {W : Option (List (List K))} (h : CurveInput y s W) :
    ∃ vs, auc y (finVec s) (W.map (finMat y.length)) = .ok (finVec vs) ∧
      auc y (finVec (s.map fun v => -v)) (W.map (finMat y.length)) = .ok (finVec (vs.map fun v => 1 - v)) := by
  have ht := thresholdsOf_spec h.scores_ne
  have h' : CurveInput y (s.map fun v => -v) W := ⟨by rw [List.length_map, h.length], h.nonempty, h.rows, h.weights⟩
  have ht' := thresholdsOf_spec h'.scores_ne
  refine ⟨_, auc_of h ht, ?_⟩
  rw [auc_of h' ht', List.map_map]
  congr 2
  refine List.map_congr_left fun w hw => ?_
  simp only [Function.comp]
  by_cases hb : true ∈ y ∧ false ∈ y
  · rw [rates_area ht (h.score_mem hw) (h.weight_pos hw) (h.exists_label hw hb.1) (h.exists_label hw hb.2),
      rates_area ht' (h'.score_mem hw) (h'.weight_pos hw) (h'.exists_label hw hb.1) (h'.exists_label hw hb.2)]
    have hP := posTotal_pos (h.weight_pos hw) (h.exists_label hw hb.1)
    have hN := negTotal_pos (h.weight_pos hw) (h.exists_label hw hb.2)
    have e1 : posTotal (samples y (s.map fun v => -v) w) = posTotal (samples y s w) := by
      rw [samples_map]
      exact wsum_map (samples y s w) (fun a => ⟨-a.score, a.label, a.weight⟩) (fun _ _ => rfl) fun a => a.label
    have e2 : negTotal (samples y (s.map fun v => -v) w) = negTotal (samples y s w) := by
      rw [samples_map]
      exact wsum_map (samples y s w) (fun a => ⟨-a.score, a.label, a.weight⟩) (fun _ _ => rfl) fun a => !a.label
    unfold mannWhitney
    rw [e1, e2, orderedPairs_neg]
    field_simp
  · have half : ∀ {s : List K} (h : CurveInput y s W),
        trapSum (fprAt (samples y s w)) (recallAt (samples y s w)) (thresholdsOf s) = 1 / 2 := by
      intro s h
      have hS : fprAt (samples y s w) = recallAt (samples y s w) := by
        refine single_class_rates (h.weight_pos hw) (h.samples_ne hw) ?_
        by_cases h1 : true ∈ y
        · refine Or.inl fun a ha => ?_
          have := (mem_samples h.length (h.weights w hw).1 ha).2.2
          cases hl : a.label
          · rw [hl] at this; exact absurd ⟨h1, this⟩ hb
          · rfl
        · refine Or.inr fun a ha => ?_
          have := (mem_samples h.length (h.weights w hw).1 ha).2.2
          cases hl : a.label
          · rfl
          · rw [hl] at this; exact absurd this h1
      have hl := rates_last' h hw
      have e := trapSum_self (recallAt (samples y s w)) .pinf (finVec (groupScores (reorder (descIdx s) s)))
      have e0 : recallAt (samples y s w) .pinf = 0 := by rw [recallAt, tpCount_pinf, zero_div]
      rw [hl.2, e0] at e
      rw [hS]
      refine Eq.trans e ?_
      norm_num
    rw [half h, half h']; norm_num

/-- **C69, constant scores.**  If all scores are equal the area is one half. -/
theorem C69_constant {y : List Bool} {s : List K} {W : Option (List (List K))} (h : CurveInput y s W) {v : K}
    (hc : ∀ u ∈ s, u = v) :
    auc y (finVec s) (W.map (finMat y.length)) = .ok (finVec ((weightRows y.length W).map fun _ => 1 / 2)) := by
  have ht : IsThresholds s [.pinf, .fin v] := by
    refine ⟨[v], rfl, by simp, fun u => ?_⟩
    rw [List.mem_singleton]
    constructor
    · rintro rfl
      obtain ⟨u', hu⟩ := List.exists_mem_of_ne_nil s h.scores_ne
      rw [← hc u' hu]; exact hu
    · exact hc u
  rw [auc_of h ht]
  congr 2
  refine List.map_congr_left fun w hw => ?_
  have hl := rates_last h ht hw (by simp)
  rw [List.getLast_cons_cons, List.getLast_singleton] at hl
  rw [trapSum_cons₂, hl.1, hl.2, fprAt, recallAt, fpCount_pinf, tpCount_pinf]
  simp [trapSum, pieceSum]

/-- **C69, perfect scores.**  If every positive sample has a higher score than every negative one, the area
is 1. -/
theorem C69_perfect {y : List Bool} {s : List K} {W : Option (List (List K))} (h : CurveInput y s W)
    (hp : true ∈ y) (hn : false ∈ y)
    (hsep : ∀ (i j : Nat) (u v : K), y[i]? = some true → y[j]? = some false → s[i]? = some u → s[j]? = some v → v < u) :
    auc y (finVec s) (W.map (finMat y.length)) = .ok (finVec ((weightRows y.length W).map fun _ => 1)) := by
  have ht := thresholdsOf_spec h.scores_ne
  rw [auc_of h ht]
  congr 2
  refine List.map_congr_left fun w hw => ?_
  rw [rates_area ht (h.score_mem hw) (h.weight_pos hw) (h.exists_label hw hp) (h.exists_label hw hn)]
  have hP := posTotal_pos (h.weight_pos hw) (h.exists_label hw hp)
  have hN := negTotal_pos (h.weight_pos hw) (h.exists_label hw hn)
  have hget : ∀ a ∈ samples y s w, ∃ i : Nat, y[i]? = some a.label ∧ s[i]? = some a.score := by
    intro a ha
    obtain ⟨i, hi, rfl⟩ := List.getElem_of_mem ha
    refine ⟨i, ?_, ?_⟩
    · have := congrArg (fun l => l[i]?) (samples_labels (s := s) h.length (h.weights w hw).1)
      simp only [List.getElem?_map, List.getElem?_eq_getElem hi, Option.map_some] at this
      exact this.symm
    · have := congrArg (fun l => l[i]?) (samples_scores h.length (h.weights w hw).1)
      simp only [List.getElem?_map, List.getElem?_eq_getElem hi, Option.map_some] at this
      exact this.symm
  have e := pairs_total (samples y s w) (samples y s w) fun a b => 1 - ordered a.score b.score
  have hzero : ((samples y s w).map fun a => if a.label then ((samples y s w).map fun b =>
      if b.label then 0 else a.weight * b.weight * (1 - ordered a.score b.score)).sum else 0).sum = 0 := by
    refine List.sum_eq_zero fun x hx => ?_
    obtain ⟨a, ha, rfl⟩ := List.mem_map.1 hx
    cases hla : a.label
    · rfl
    · refine List.sum_eq_zero fun x hx => ?_
      obtain ⟨b, hb, rfl⟩ := List.mem_map.1 hx
      cases hlb : b.label
      · obtain ⟨i, hi1, hi2⟩ := hget a ha
        obtain ⟨j, hj1, hj2⟩ := hget b hb
        have := hsep i j _ _ (hla ▸ hi1) (hlb ▸ hj1) hi2 hj2
        simp [ordered, this]
      · rfl
  rw [hzero] at e
  have : orderedPairs (samples y s w) = posTotal (samples y s w) * negTotal (samples y s w) := by
    unfold orderedPairs
    simpa using e
  rw [mannWhitney, this, div_self (mul_ne_zero hP.ne' hN.ne')]

end

/-! ### Examples -/

example : auc [true, false, true, false] (finVec [3, 2, 2, (1 : ℚ)]) (some (finMat 4 [[1, 2, 1, 1], [1, 1, 3, 1]])) =
    .ok (finVec [5 / 6, 13 / 16]) := by
  refine (auc_of exampleInput (thr := [.pinf, .fin 3, .fin 2, .fin 1])
    ⟨[3, 2, 1], rfl, by decide +kernel, by simp⟩).trans ?_
  simp [trapSum, pieceSum, trap, weightRows, finVec, fprAt, recallAt, samples, fpCount, tpCount, fpTotal, tpTotal,
    negTotal, posTotal, negAbove, posAbove, wsum]
  norm_num
example : mannWhitney (samples [true, false, true, false] [3, 2, 2, (1 : ℚ)] [1, 1, 1, 1]) = 7 / 8 := by
  decide +kernel
example : CurveInput [true, true] [3, (2 : ℚ)] none :=
  ⟨by decide, by decide, by decide +kernel, by decide +kernel⟩

end Mlp.Props
