import Verif.Lemmas.PerfCurves
import Verif.Props.Area

/-!
# Properties C63 to C67: the curves of binary classification

The specification (`Verif/Spec/Curves.lean`) counts, for every threshold, the weight of the positive and
negative samples whose score is at least the threshold.
-/

set_option linter.unusedSectionVars false

namespace Mlp.Props
open Mlp.Util Mlp.Perf Mlp.Spec Mlp.Lemmas

section
variable {K : Type} [Field K] [LinearOrder K] [IsStrictOrderedRing K]

/-! ## Facts about valid input -/

theorem _root_.Mlp.Spec.CurveInput.scores_ne {y : List Bool} {s : List K} {W : Option (List (List K))} (h : CurveInput y s W) :
    s ≠ [] := by
  intro e
  have := h.length
  rw [e] at this
  exact h.nonempty (List.eq_nil_of_length_eq_zero this.symm)

theorem _root_.Mlp.Spec.CurveInput.weight_pos {y : List Bool} {s : List K} {W : Option (List (List K))} (h : CurveInput y s W)
    {w : List K} (hw : w ∈ weightRows y.length W) : ∀ a ∈ samples y s w, 0 < a.weight := fun _ ha =>
  (h.weights w hw).2 _ (mem_samples h.length (h.weights w hw).1 ha).2.1

theorem _root_.Mlp.Spec.CurveInput.samples_ne {y : List Bool} {s : List K} {W : Option (List (List K))} (h : CurveInput y s W)
    {w : List K} (hw : w ∈ weightRows y.length W) : samples y s w ≠ [] := by
  intro e
  have := samples_length h.length (h.weights w hw).1
  rw [e] at this
  exact h.nonempty (List.eq_nil_of_length_eq_zero this.symm)

theorem _root_.Mlp.Spec.CurveInput.score_mem {y : List Bool} {s : List K} {W : Option (List (List K))} (h : CurveInput y s W)
    {w : List K} (hw : w ∈ weightRows y.length W) : ∀ a ∈ samples y s w, a.score ∈ s := fun _ ha =>
  (mem_samples h.length (h.weights w hw).1 ha).1

/-- Every score is the score of a sample. -/
theorem _root_.Mlp.Spec.CurveInput.exists_sample {y : List Bool} {s : List K} {W : Option (List (List K))} (h : CurveInput y s W)
    {w : List K} (hw : w ∈ weightRows y.length W) {v : K} (hv : v ∈ s) : ∃ a ∈ samples y s w, a.score = v := by
  rw [← samples_scores h.length (h.weights w hw).1, List.mem_map] at hv
  exact hv

/-- Every label is the label of a sample. -/
theorem _root_.Mlp.Spec.CurveInput.exists_label {y : List Bool} {s : List K} {W : Option (List (List K))} (h : CurveInput y s W)
    {w : List K} (hw : w ∈ weightRows y.length W) {b : Bool} (hb : b ∈ y) : ∃ a ∈ samples y s w, a.label = b := by
  rw [← samples_labels h.length (h.weights w hw).1, List.mem_map] at hb
  exact hb

theorem posTotal_pos {S : List (Sample K)} (hw : ∀ a ∈ S, 0 < a.weight) (h : ∃ a ∈ S, a.label = true) :
    0 < posTotal S := by
  obtain ⟨a, ha, hl⟩ := h
  exact wsum_pos hw ha hl

theorem negTotal_pos {S : List (Sample K)} (hw : ∀ a ∈ S, 0 < a.weight) (h : ∃ a ∈ S, a.label = false) :
    0 < negTotal S := by
  obtain ⟨a, ha, hl⟩ := h
  exact wsum_pos hw ha (by simp [hl])

/-- The counts, for given thresholds. -/
theorem clf_of {y : List Bool} {s : List K} {W : Option (List (List K))} (h : CurveInput y s W)
    {thr : List (Flt K)} (ht : IsThresholds s thr) :
    binaryClfCurve y (finVec s) (W.map (finMat y.length)) =
      .ok ((weightRows y.length W).map (fun w => thr.map (fpCount (samples y s w))),
        (weightRows y.length W).map (fun w => thr.map (tpCount (samples y s w))), thr) := by
  rw [isThresholds_unique ht (thresholdsOf_spec h.scores_ne) fun v => Iff.rfl]
  exact clf_ok h

/-! ## C63 -/

/-- **C63.**  With both classes present, the thresholds are `+inf` and the distinct scores in decreasing
order, and the counts are the total weights of the negative and positive samples with at least that
score. -/
theorem C63_counts {y : List Bool} {s : List K} {W : Option (List (List K))} (h : CurveInput y s W)
    (hp : true ∈ y) (hn : false ∈ y) :
    ∃ thr, IsThresholds s thr ∧ binaryClfCurve y (finVec s) (W.map (finMat y.length)) =
      .ok ((weightRows y.length W).map (fun w => thr.map (negAbove (samples y s w))),
        (weightRows y.length W).map (fun w => thr.map (posAbove (samples y s w))), thr) := by
  refine ⟨thresholdsOf s, thresholdsOf_spec h.scores_ne, ?_⟩
  rw [clf_ok h]
  congr 2
  · refine List.map_congr_left fun w hw => List.map_congr_left fun θ _ => ?_
    rw [fpCount, if_neg (negTotal_pos (h.weight_pos hw) (h.exists_label hw hn)).ne']
  · congr 1
    refine List.map_congr_left fun w hw => List.map_congr_left fun θ _ => ?_
    rw [tpCount, if_neg (posTotal_pos (h.weight_pos hw) (h.exists_label hw hp)).ne']

/-- **C63, any labels.**  If a class is missing its count is `1e-10` times the count of the other one. -/
theorem C63_counts_any {y : List Bool} {s : List K} {W : Option (List (List K))} (h : CurveInput y s W) :
    ∃ thr, IsThresholds s thr ∧ binaryClfCurve y (finVec s) (W.map (finMat y.length)) =
      .ok ((weightRows y.length W).map (fun w => thr.map (fpCount (samples y s w))),
        (weightRows y.length W).map (fun w => thr.map (tpCount (samples y s w))), thr) :=
  ⟨thresholdsOf s, thresholdsOf_spec h.scores_ne, clf_ok h⟩

theorem exists_finVec {l : List (Flt K)} (h : (l.all fun v => v.isFinite) = true) : ∃ xs, l = finVec xs := by
  refine ⟨l.filterMap finPart, ?_⟩
  induction l with
  | nil => rfl
  | cons a l ih =>
    rw [List.all_cons, Bool.and_eq_true] at h
    have h2 := ih h.2
    have h1 := h.1
    cases a with
    | fin x => rw [h2]; simp [finVec, finPart, List.filterMap_map, Function.comp_def]
    | _ => exact absurd h1 (by simp [Flt.isFinite])

/-- **C63, invalid input.**  Anything but finite scores, as many as there are labels, at least one of them,
and at least one row of finite positive weights if weights are given, is rejected. -/
theorem C63_reject {y : List Bool} {sc : List (Flt K)} {M : Option (Mat K)}
    (hM : ∀ m, M = some m → ∀ r ∈ m.rows, r.length = m.ncols)
    (h : ¬ ∃ s W, CurveInput y s W ∧ sc = finVec s ∧ M = W.map (finMat y.length)) :
    binaryClfCurve y sc M = .error .assertion := by
  unfold binaryClfCurve
  simp only [pyAssert_bind]
  by_cases h1 : (decide (sc.length = y.length) && sc.all fun v => v.isFinite) = true
  · rw [if_pos h1]
    rw [Bool.and_eq_true, decide_eq_true_eq] at h1
    obtain ⟨s, rfl⟩ := exists_finVec h1.2
    have hl : s.length = y.length := by rw [← h1.1]; simp [finVec]
    by_cases h2 : decide (1 ≤ y.length) = true
    · rw [if_pos h2]
      rw [decide_eq_true_eq] at h2
      have hne : y ≠ [] := List.length_pos_iff.1 h2
      have hfin : (finVec s).filterMap finPart = s := by
        unfold finVec
        rw [List.filterMap_map]
        exact List.filterMap_some
      have hperm := descIdx_perm s
      have hidx : ∀ i ∈ descIdx s, i < s.length := fun i hi => List.mem_range.1 (hperm.mem_iff.1 hi)
      rw [hfin, show (argsortStable s).reverse = descIdx s from rfl, takeIdx_reorder hidx, ok_bind,
        takeIdx_reorder (fun i hi => hl ▸ hidx i hi), ok_bind]
      have hylen : (reorder (descIdx s) y).length = y.length := by
        rw [(reorder_perm (l := y) (hl ▸ hperm : IsPerm _ _)).length_eq]
      cases M with
      | none =>
        refine absurd ⟨s, none, ⟨hl, hne, by simp [weightRows], ?_⟩, rfl, rfl⟩ h
        intro w hw
        simp only [weightRows, Option.getD_none, List.mem_singleton] at hw
        subst hw
        refine ⟨by simp, fun v hv => ?_⟩
        rw [(List.mem_replicate.1 hv).2]; exact one_pos
      | some m =>
        unfold countsOf
        simp only [pyAssert_bind]
        by_cases h3 : decide (m.ncols = (reorder (descIdx s) y).length) = true
        · rw [if_pos h3]
          by_cases h4 : decide (1 ≤ m.rows.length) = true
          · rw [if_pos h4]
            by_cases h5 : (m.rows.all fun r => r.all fun v => v.isFinite) = true
            · rw [if_pos h5]
              by_cases h6 : (m.rows.all fun r => r.all fun v => (Flt.fin 0).lt v) = true
              · exfalso
                rw [decide_eq_true_eq, hylen] at h3
                have hW : m.rows = (m.rows.map fun r => r.filterMap finPart).map finVec := by
                  rw [List.map_map]
                  conv_lhs => rw [← List.map_id m.rows]
                  refine List.map_congr_left fun r hr => ?_
                  obtain ⟨xs, rfl⟩ := exists_finVec (List.all_eq_true.1 h5 r hr)
                  simp only [id, Function.comp]
                  congr 1
                  unfold finVec
                  rw [List.filterMap_map]
                  exact List.filterMap_some.symm
                refine h ⟨s, some (m.rows.map fun r => r.filterMap finPart), ⟨hl, hne, ?_, ?_⟩, rfl, ?_⟩
                · rw [decide_eq_true_eq] at h4
                  intro e
                  simp [weightRows] at e
                  rw [e] at h4; simp at h4
                · intro w hw
                  simp only [weightRows, Option.getD_some, List.mem_map] at hw
                  obtain ⟨r, hr, rfl⟩ := hw
                  have hrl := hM m rfl r hr
                  have hpos := List.all_eq_true.1 h6 r hr
                  obtain ⟨xs, rfl⟩ := exists_finVec (List.all_eq_true.1 h5 r hr)
                  have e : (finVec xs).filterMap finPart = xs := by
                    unfold finVec
                    rw [List.filterMap_map]
                    exact List.filterMap_some
                  rw [e]
                  refine ⟨by rw [← h3, ← hrl]; simp [finVec], fun v hv => ?_⟩
                  have := List.all_eq_true.1 hpos (.fin v) (List.mem_map_of_mem hv)
                  rw [Flt.lt_iff, Flt.fin_lt_fin] at this
                  exact this.2
                · rw [Option.map_some, finMat, ← hW, ← h3]
              · rw [if_neg h6]; rfl
            · rw [if_neg h5]; rfl
          · rw [if_neg h4]; rfl
        · rw [if_neg h3]; rfl
    · rw [if_neg h2]
  · rw [if_neg h1]

/-! ## The curves in terms of the counts -/

theorem fprAt_row {s : List K} {thr : List (Flt K)} (hne : s ≠ []) (ht : IsThresholds s thr) {S : List (Sample K)}
    (hw : ∀ a ∈ S, 0 < a.weight) (hS : S ≠ []) (hs : ∀ a ∈ S, a.score ∈ s) :
    overLast (thr.map (fpCount S)) = finVec (thr.map (fprAt S)) ∧
    overLast (thr.map (tpCount S)) = finVec (thr.map (recallAt S)) := by
  obtain ⟨-, -, h3, h4⟩ := getLastD_map_last hne ht hs
  unfold overLast
  rw [h3, h4]
  unfold finVec
  simp only [List.map_map]
  constructor
  · refine List.map_congr_left fun θ _ => ?_
    simp only [Function.comp]
    rw [Flt.div_fin (fpTotal_pos hw hS).ne']; rfl
  · refine List.map_congr_left fun θ _ => ?_
    simp only [Function.comp]
    rw [Flt.div_fin (tpTotal_pos hw hS).ne']; rfl

theorem mat_eq (thr : List (Flt K)) (rows : List (List K)) (g : List K → Flt K → K)
    (f : List K → List (Flt K)) (h : ∀ w ∈ rows, f w = finVec (thr.map (g w))) :
    matOf thr (rows.map f) = finMat thr.length (rows.map fun w => thr.map (g w)) := by
  unfold matOf finMat
  rw [List.map_map]
  congr 1
  exact List.map_congr_left h

/-- `roc_curve` in terms of the rates at the thresholds. -/
theorem roc_of {y : List Bool} {s : List K} {W : Option (List (List K))} (h : CurveInput y s W)
    {thr : List (Flt K)} (ht : IsThresholds s thr) :
    rocCurve y (finVec s) (W.map (finMat y.length)) =
      .ok (⟨finMat thr.length ((weightRows y.length W).map fun w => thr.map (fprAt (samples y s w))),
        finMat thr.length ((weightRows y.length W).map fun w => thr.map (recallAt (samples y s w))), .linear⟩,
        thr) := by
  unfold rocCurve
  rw [clf_of h ht, ok_bind]
  simp only [List.map_map, Function.comp_def]
  rw [mat_eq thr (weightRows y.length W) (fun w => fprAt (samples y s w)) _
      fun w hw => (fprAt_row h.scores_ne ht (h.weight_pos hw) (h.samples_ne hw) (h.score_mem hw)).1,
    mat_eq thr (weightRows y.length W) (fun w => recallAt (samples y s w)) _
      fun w hw => (fprAt_row h.scores_ne ht (h.weight_pos hw) (h.samples_ne hw) (h.score_mem hw)).2]
  rfl

theorem isThresholds_shape {s : List K} {thr : List (Flt K)} (hne : s ≠ []) (ht : IsThresholds s thr) :
    ∃ v ds, thr = .pinf :: .fin v :: finVec ds ∧ (v :: ds).Pairwise (· > ·) ∧ ∀ u, u ∈ v :: ds ↔ u ∈ s := by
  obtain ⟨ds, rfl, h1, h2⟩ := ht
  cases ds with
  | nil =>
    obtain ⟨v, hv⟩ := List.exists_mem_of_ne_nil s hne
    exact absurd ((h2 v).2 hv) (by simp)
  | cons v ds => exact ⟨v, ds, rfl, h1, h2⟩

theorem isThresholds_tail {s : List K} {thr : List (Flt K)} (ht : IsThresholds s thr) {θ : Flt K}
    (h : θ ∈ thr.tail) : ∃ v ∈ s, θ = .fin v := by
  obtain ⟨ds, rfl, h1, h2⟩ := ht
  obtain ⟨v, hv, rfl⟩ := List.mem_map.1 h
  exact ⟨v, (h2 v).1 hv, rfl⟩

theorem tpCount_nonneg {S : List (Sample K)} (hw : ∀ a ∈ S, 0 < a.weight) (θ : Flt K) : 0 ≤ tpCount S θ := by
  have h1 : 0 ≤ posAbove S θ := wsum_nonneg hw _
  have h2 : 0 ≤ negAbove S θ := wsum_nonneg hw _
  unfold tpCount; split <;> positivity

theorem fpCount_nonneg {S : List (Sample K)} (hw : ∀ a ∈ S, 0 < a.weight) (θ : Flt K) : 0 ≤ fpCount S θ := by
  have h1 : 0 ≤ posAbove S θ := wsum_nonneg hw _
  have h2 : 0 ≤ negAbove S θ := wsum_nonneg hw _
  unfold fpCount; split <;> positivity

theorem posAbove_le {S : List (Sample K)} (hw : ∀ a ∈ S, 0 < a.weight) (θ : Flt K) : posAbove S θ ≤ posTotal S :=
  wsum_mono hw fun a _ h => by rw [Bool.and_eq_true] at h; exact h.1

theorem negAbove_le {S : List (Sample K)} (hw : ∀ a ∈ S, 0 < a.weight) (θ : Flt K) : negAbove S θ ≤ negTotal S :=
  wsum_mono hw fun a _ h => by rw [Bool.and_eq_true] at h; exact h.1

theorem tpCount_le {S : List (Sample K)} (hw : ∀ a ∈ S, 0 < a.weight) (θ : Flt K) : tpCount S θ ≤ tpTotal S := by
  unfold tpCount tpTotal
  split
  · exact mul_le_mul_of_nonneg_left (negAbove_le hw θ) (by positivity)
  · exact posAbove_le hw θ

theorem fpCount_le {S : List (Sample K)} (hw : ∀ a ∈ S, 0 < a.weight) (θ : Flt K) : fpCount S θ ≤ fpTotal S := by
  unfold fpCount fpTotal
  split
  · exact mul_le_mul_of_nonneg_left (posAbove_le hw θ) (by positivity)
  · exact negAbove_le hw θ

/-- Some sample is at or above every score. -/
theorem count_pos {S : List (Sample K)} (hw : ∀ a ∈ S, 0 < a.weight) {v : K} (h : ∃ a ∈ S, a.score = v) :
    0 < tpCount S (.fin v) + fpCount S (.fin v) := by
  obtain ⟨a, ha, rfl⟩ := h
  have h1 := tpCount_nonneg hw (.fin a.score)
  have h2 := fpCount_nonneg hw (.fin a.score)
  cases hl : a.label
  · have h3 : 0 < negAbove S (.fin a.score) := wsum_pos hw ha (by simp [hl])
    have h4 : 0 < negTotal S := wsum_pos hw ha (by simp [hl])
    have : 0 < fpCount S (.fin a.score) := by rw [fpCount, if_neg h4.ne']; exact h3
    linarith
  · have h3 : 0 < posAbove S (.fin a.score) := wsum_pos hw ha (by simp [hl])
    have h4 : 0 < posTotal S := wsum_pos hw ha hl
    have : 0 < tpCount S (.fin a.score) := by rw [tpCount, if_neg h4.ne']; exact h3
    linarith

theorem precisionAt_bounds {S : List (Sample K)} (hw : ∀ a ∈ S, 0 < a.weight) (θ : Flt K) :
    0 ≤ precisionAt S θ ∧ precisionAt S θ ≤ 1 := by
  have h1 := tpCount_nonneg hw θ
  have h2 := fpCount_nonneg hw θ
  unfold precisionAt
  exact ⟨by positivity, div_le_one_of_le₀ (by linarith) (by positivity)⟩

theorem zipWith_map_self {α β γ δ : Type} (f : β → γ → δ) (g : α → β) (h : α → γ) (l : List α) :
    List.zipWith f (l.map g) (l.map h) = l.map fun a => f (g a) (h a) := by
  rw [List.zipWith_map, List.zipWith_self]

theorem zip_map_self {α β γ : Type} (g : α → β) (h : α → γ) (l : List α) :
    List.zip (l.map g) (l.map h) = l.map fun a => (g a, h a) := by
  rw [List.zip_map']

theorem atThresholds_mem {β : Type} {g : Flt K → β} {s : List K} {thr : List (Flt K)} (hne : s ≠ [])
    (ht : IsThresholds s thr) {b : β} (h : b ∈ atThresholds g thr) : ∃ v ∈ s, b = g (.fin v) := by
  obtain ⟨v, ds, rfl, -, hm⟩ := isThresholds_shape hne ht
  simp only [atThresholds, List.mem_cons] at h
  rcases h with rfl | rfl | h
  · exact ⟨v, (hm v).1 (by simp), rfl⟩
  · exact ⟨v, (hm v).1 (by simp), rfl⟩
  · obtain ⟨θ, hθ, rfl⟩ := List.mem_map.1 h
    obtain ⟨u, hu, rfl⟩ := List.mem_map.1 hθ
    exact ⟨u, (hm u).1 (by simp [hu]), rfl⟩

/-- `recall_precision_curve` in terms of recall and precision at the thresholds. -/
theorem recall_precision_of {y : List Bool} {s : List K} {W : Option (List (List K))} (h : CurveInput y s W)
    {thr : List (Flt K)} (ht : IsThresholds s thr) :
    recallPrecisionCurve y (finVec s) (W.map (finMat y.length)) =
      .ok (⟨finMat thr.length ((weightRows y.length W).map fun w => thr.map (recallAt (samples y s w))),
        finMat thr.length ((weightRows y.length W).map fun w => atThresholds (precisionAt (samples y s w)) thr),
        .previous⟩, thr) := by
  have hshape := isThresholds_shape h.scores_ne ht
  have hprec : (List.zipWith precisionRow ((weightRows y.length W).map fun w => thr.map (fpCount (samples y s w)))
      ((weightRows y.length W).map fun w => thr.map (tpCount (samples y s w)))).mapM copySecond =
      .ok ((weightRows y.length W).map fun w => finVec (atThresholds (precisionAt (samples y s w)) thr)) := by
    rw [zipWith_map_self, List.mapM_map]
    refine mapM_eq_ok_map _ _ _ fun w hw => ?_
    have key : ∀ v ∈ s, (Flt.fin (tpCount (samples y s w) (.fin v))).div
        (.fin (tpCount (samples y s w) (.fin v) + fpCount (samples y s w) (.fin v))) =
        .fin (precisionAt (samples y s w) (.fin v)) := fun v hv =>
      Flt.div_fin (count_pos (h.weight_pos hw) (h.exists_sample hw hv)).ne'
    obtain ⟨v, ds, rfl, -, hm⟩ := hshape
    simp only [Function.comp, precisionRow]
    rw [zipWith_map_self]
    simp only [List.map_cons, copySecond, atThresholds, finVec, List.map_map]
    rw [key v ((hm v).1 (by simp))]
    have : ∀ u ∈ ds, _ := fun u hu => key u ((hm u).1 (by simp [hu]))
    congr 3
    exact List.map_congr_left fun u hu => this u hu
  unfold recallPrecisionCurve
  rw [clf_of h ht, ok_bind]
  simp only [hprec, ok_bind, pyAssert_bind]
  rw [if_pos (by
    rw [Bool.and_eq_true, List.all_eq_true, List.all_eq_true]
    constructor
    · intro r hr
      obtain ⟨w, hw, rfl⟩ := List.mem_map.1 hr
      rw [List.all_eq_true]
      intro v hv
      obtain ⟨x, hx, rfl⟩ := List.mem_map.1 hv
      obtain ⟨u, -, rfl⟩ := atThresholds_mem h.scores_ne ht hx
      rw [Flt.le_iff]
      exact ⟨by simp, Flt.fin_le_fin.2 (precisionAt_bounds (h.weight_pos hw) _).1⟩
    · intro r hr
      obtain ⟨w, hw, rfl⟩ := List.mem_map.1 hr
      rw [List.all_eq_true]
      intro v hv
      obtain ⟨x, hx, rfl⟩ := List.mem_map.1 hv
      obtain ⟨u, -, rfl⟩ := atThresholds_mem h.scores_ne ht hx
      rw [Flt.le_iff]
      exact ⟨by simp, Flt.fin_le_fin.2 (precisionAt_bounds (h.weight_pos hw) _).2⟩)]
  simp only [List.map_map, Function.comp_def]
  rw [mat_eq thr (weightRows y.length W) (fun w => recallAt (samples y s w)) _
      fun w hw => (fprAt_row h.scores_ne ht (h.weight_pos hw) (h.samples_ne hw) (h.score_mem hw)).2]
  rw [pure_eq_ok]
  congr 3
  unfold finMat
  rw [List.map_map]; rfl

/-! ### Precision and recall gain -/

theorem recGain_eq {P N t : K} (hP : 0 < P) (hN : 0 < N) (ht : t ≠ 0) :
    1 - P * (P - t) / (N * t) = gain (P / (P + N)) (t / P) := by
  have h1 : P + N ≠ 0 := by positivity
  have h2 : 1 - P / (P + N) = N / (P + N) := by field_simp; ring
  unfold gain
  rw [h2]
  field_simp
  ring

theorem precGain_eq {P N t f : K} (hP : 0 < P) (hN : 0 < N) (ht : 0 < t) (hf : 0 ≤ f) :
    1 - P * f / (N * t) = gain (P / (P + N)) (t / (t + f)) := by
  have h1 : P + N ≠ 0 := by positivity
  have h3 : t + f ≠ 0 := by positivity
  have h2 : 1 - P / (P + N) = N / (P + N) := by field_simp; ring
  unfold gain
  rw [h2]
  field_simp
  ring

/-- The unclipped recall gain. -/
def rawRecGain (S : List (Sample K)) (θ : Flt K) : Flt K :=
  if tpCount S θ = 0 then .ninf else .fin (gain (prevalence S) (recallAt S θ))

theorem rec_value {S : List (Sample K)} (hw : ∀ a ∈ S, 0 < a.weight) (hS : S ≠ []) (θ : Flt K) :
    (Flt.fin 1).sub ((Flt.fin (tpTotal S * (tpTotal S - tpCount S θ))).div (.fin (fpTotal S * tpCount S θ))) =
      rawRecGain S θ := by
  have hP := tpTotal_pos hw hS
  have hN := fpTotal_pos hw hS
  unfold rawRecGain
  split
  · rename_i h
    rw [h, sub_zero, mul_zero]
    have : 0 < tpTotal S * tpTotal S := by positivity
    have : (Flt.fin (tpTotal S * tpTotal S)).div (.fin 0) = .pinf := by
      simp [Flt.div, Flt.signInf, this]
    rw [this]; rfl
  · rename_i h
    rw [Flt.div_fin (mul_ne_zero hN.ne' h)]
    show Flt.fin (1 + -_) = _
    rw [← sub_eq_add_neg, recGain_eq hP hN h]; rfl

theorem prec_value {S : List (Sample K)} (hw : ∀ a ∈ S, 0 < a.weight) (hS : S ≠ []) {v : K}
    (hv : ∃ a ∈ S, a.score = v) :
    (Flt.fin 1).sub ((Flt.fin (tpTotal S * fpCount S (.fin v))).div (.fin (fpTotal S * tpCount S (.fin v)))) =
      precGainAt S (.fin v) := by
  have hP := tpTotal_pos hw hS
  have hN := fpTotal_pos hw hS
  have hpos := count_pos hw hv
  have hf := fpCount_nonneg hw (.fin v)
  have ht := tpCount_nonneg hw (.fin v)
  unfold precGainAt
  have e : precisionAt S (.fin v) = 0 ↔ tpCount S (.fin v) = 0 := by
    unfold precisionAt
    rw [div_eq_zero_iff]
    exact ⟨fun h => h.resolve_right hpos.ne', Or.inl⟩
  split
  · rename_i h
    rw [e] at h
    rw [h] at hpos ⊢
    rw [zero_add] at hpos
    have : 0 < tpTotal S * fpCount S (.fin v) := by positivity
    have : (Flt.fin (tpTotal S * fpCount S (.fin v))).div (.fin (fpTotal S * 0)) = .pinf := by
      simp [Flt.div, Flt.signInf, this]
    rw [this]; rfl
  · rename_i h
    rw [e] at h
    rw [Flt.div_fin (mul_ne_zero hN.ne' h)]
    show Flt.fin (1 + -_) = _
    rw [← sub_eq_add_neg, precGain_eq hP hN (lt_of_le_of_ne ht (Ne.symm h)) hf]; rfl

theorem gain_le_one {S : List (Sample K)} (hw : ∀ a ∈ S, 0 < a.weight) (hS : S ≠ []) {θ : Flt K}
    (h : tpCount S θ ≠ 0) : gain (prevalence S) (recallAt S θ) ≤ 1 ∧ gain (prevalence S) (precisionAt S θ) ≤ 1 := by
  have hP := tpTotal_pos hw hS
  have hN := fpTotal_pos hw hS
  have ht := lt_of_le_of_ne (tpCount_nonneg hw θ) (Ne.symm h)
  have hf := fpCount_nonneg hw θ
  have h1 := sub_nonneg.2 (tpCount_le hw θ)
  constructor
  · unfold prevalence recallAt
    rw [← recGain_eq hP hN h]
    have : 0 ≤ tpTotal S * (tpTotal S - tpCount S θ) / (fpTotal S * tpCount S θ) := by positivity
    linarith
  · unfold prevalence precisionAt
    rw [← precGain_eq hP hN ht hf]
    have : 0 ≤ tpTotal S * fpCount S θ / (fpTotal S * tpCount S θ) := by positivity
    linarith

theorem recall_eq_zero {S : List (Sample K)} (hw : ∀ a ∈ S, 0 < a.weight) (hS : S ≠ []) (θ : Flt K) :
    recallAt S θ = 0 ↔ tpCount S θ = 0 := by
  unfold recallAt
  rw [div_eq_zero_iff]
  exact ⟨fun h => h.resolve_right (tpTotal_pos hw hS).ne', Or.inl⟩

theorem raw_max {S : List (Sample K)} (hw : ∀ a ∈ S, 0 < a.weight) (hS : S ≠ []) (θ : Flt K) :
    Flt.maximum (.fin 0) (rawRecGain S θ) = .fin (recGainAt S θ) := by
  unfold rawRecGain recGainAt Flt.maximum
  simp only [recall_eq_zero hw hS]
  split
  · exact max_eq_left (Flt.ninf_le _)
  · rw [Flt.max_fin]

theorem recGainAt_bounds {S : List (Sample K)} (hw : ∀ a ∈ S, 0 < a.weight) (hS : S ≠ []) (θ : Flt K) :
    0 ≤ recGainAt S θ ∧ recGainAt S θ ≤ 1 := by
  unfold recGainAt
  simp only [recall_eq_zero hw hS]
  split
  · exact ⟨le_rfl, zero_le_one⟩
  · rename_i h
    exact ⟨le_max_left _ _, max_le zero_le_one (gain_le_one hw hS h).1⟩

theorem gain_mono {S : List (Sample K)} (hw : ∀ a ∈ S, 0 < a.weight) (hS : S ≠ []) {θ θ' : Flt K} (h : θ' ≤ θ)
    (h0 : tpCount S θ ≠ 0) :
    tpCount S θ' ≠ 0 ∧ gain (prevalence S) (recallAt S θ) ≤ gain (prevalence S) (recallAt S θ') := by
  have hP := tpTotal_pos hw hS
  have hN := fpTotal_pos hw hS
  have ht := lt_of_le_of_ne (tpCount_nonneg hw θ) (Ne.symm h0)
  have hm := tpCount_mono hw h
  have ht' := lt_of_lt_of_le ht hm
  refine ⟨ht'.ne', ?_⟩
  unfold prevalence recallAt
  rw [← recGain_eq hP hN h0, ← recGain_eq hP hN ht'.ne']
  have h1 := sub_nonneg.2 (tpCount_le hw θ')
  have : tpTotal S * (tpTotal S - tpCount S θ') / (fpTotal S * tpCount S θ') ≤
      tpTotal S * (tpTotal S - tpCount S θ) / (fpTotal S * tpCount S θ) := by
    apply div_le_div₀
    · have := sub_nonneg.2 (tpCount_le hw θ); positivity
    · exact mul_le_mul_of_nonneg_left (by linarith) hP.le
    · positivity
    · exact mul_le_mul_of_nonneg_left hm hN.le
  linarith

theorem recGainAt_mono {S : List (Sample K)} (hw : ∀ a ∈ S, 0 < a.weight) (hS : S ≠ []) {θ θ' : Flt K}
    (h : θ' ≤ θ) : recGainAt S θ ≤ recGainAt S θ' := by
  by_cases h0 : tpCount S θ = 0
  · have : recGainAt S θ = 0 := by unfold recGainAt; rw [if_pos ((recall_eq_zero hw hS θ).2 h0)]
    rw [this]; exact (recGainAt_bounds hw hS θ').1
  · obtain ⟨h1, h2⟩ := gain_mono hw hS h h0
    unfold recGainAt
    rw [if_neg (mt (recall_eq_zero hw hS θ).1 h0), if_neg (mt (recall_eq_zero hw hS θ').1 h1)]
    exact max_le_max le_rfl h2

theorem precGainAt_le {S : List (Sample K)} (hw : ∀ a ∈ S, 0 < a.weight) (hS : S ≠ []) (θ : Flt K) :
    precGainAt S θ ≤ .fin 1 ∧ precGainAt S θ ≠ .nan := by
  unfold precGainAt
  split
  · exact ⟨Flt.ninf_le _, by simp⟩
  · rename_i h
    refine ⟨Flt.fin_le_fin.2 (gain_le_one hw hS ?_).2, by simp⟩
    intro e
    apply h
    unfold precisionAt; rw [e, zero_div]

/-- `prg_curve` in terms of the gains at the thresholds. -/
theorem prg_of {y : List Bool} {s : List K} {W : Option (List (List K))} (h : CurveInput y s W)
    {thr : List (Flt K)} (ht : IsThresholds s thr) :
    prgCurve y (finVec s) (W.map (finMat y.length)) =
      .ok (⟨finMat thr.length ((weightRows y.length W).map fun w => thr.map (recGainAt (samples y s w))),
        matOf thr ((weightRows y.length W).map fun w => atThresholds (precGainAt (samples y s w)) thr),
        .previous⟩, thr) := by
  have hshape := isThresholds_shape h.scores_ne ht
  have hlast : ∀ w ∈ weightRows y.length W, _ := fun w hw => getLastD_map_last h.scores_ne ht (h.score_mem hw)
  have hrec : List.zipWith recGainRow ((weightRows y.length W).map fun w => thr.map (fpCount (samples y s w)))
      ((weightRows y.length W).map fun w => thr.map (tpCount (samples y s w))) =
      (weightRows y.length W).map fun w => thr.map (rawRecGain (samples y s w)) := by
    rw [zipWith_map_self]
    refine List.map_congr_left fun w hw => ?_
    obtain ⟨-, -, l3, l4⟩ := hlast w hw
    unfold recGainRow
    simp only [l3, l4, List.map_map]
    exact List.map_congr_left fun θ _ => rec_value (h.weight_pos hw) (h.samples_ne hw) θ
  have hprec : (List.zipWith precGainRow ((weightRows y.length W).map fun w => thr.map (fpCount (samples y s w)))
      ((weightRows y.length W).map fun w => thr.map (tpCount (samples y s w)))).mapM copySecond =
      .ok ((weightRows y.length W).map fun w => atThresholds (precGainAt (samples y s w)) thr) := by
    rw [zipWith_map_self, List.mapM_map]
    refine mapM_eq_ok_map _ _ _ fun w hw => ?_
    obtain ⟨-, -, l3, l4⟩ := hlast w hw
    have key : ∀ v ∈ s, _ := fun v hv =>
      prec_value (h.weight_pos hw) (h.samples_ne hw) (h.exists_sample hw hv)
    simp only [Function.comp, precGainRow, l3, l4]
    rw [zipWith_map_self]
    obtain ⟨v, ds, rfl, -, hm⟩ := hshape
    simp only [List.map_cons, copySecond, atThresholds, finVec, List.map_map]
    rw [key v ((hm v).1 (by simp))]
    congr 3
    exact List.map_congr_left fun u hu => key u ((hm u).1 (by simp [hu]))
  unfold prgCurve
  rw [clf_of h ht, ok_bind]
  simp only [hrec, hprec, ok_bind, pyAssert_bind]
  have hmax : ((weightRows y.length W).map fun w => thr.map (rawRecGain (samples y s w))).map
      (fun r => r.map fun v => Flt.maximum (.fin 0) v) =
      (weightRows y.length W).map fun w => finVec (thr.map (recGainAt (samples y s w))) := by
    rw [List.map_map]
    refine List.map_congr_left fun w hw => ?_
    simp only [Function.comp, List.map_map, finVec]
    exact List.map_congr_left fun θ _ => raw_max (h.weight_pos hw) (h.samples_ne hw) θ
  rw [hmax]
  rw [if_pos (by
    rw [Bool.not_eq_true', List.any_eq_false]
    intro r hr
    obtain ⟨w, hw, rfl⟩ := List.mem_map.1 hr
    have : (diff (thr.map (rawRecGain (samples y s w)))).all (fun d => !(d.lt (.fin 0))) = true := by
      rw [diff_all, List.isChain_map]
      refine (List.isChain_iff_pairwise.2 (isThresholds_sorted ht)).imp fun θ θ' hθ => ?_
      unfold rawRecGain
      by_cases h0 : tpCount (samples y s w) θ = 0
      · rw [if_pos h0]
        split <;> rfl
      · obtain ⟨h1, h2⟩ := gain_mono (h.weight_pos hw) (h.samples_ne hw) (le_of_lt hθ) h0
        rw [if_neg h0, if_neg h1, Bool.not_eq_true', ← Bool.not_eq_true, Flt.lt_iff]
        rintro ⟨-, hlt⟩
        have : Flt.fin (gain (prevalence (samples y s w)) (recallAt (samples y s w) θ') +
          -gain (prevalence (samples y s w)) (recallAt (samples y s w) θ)) < .fin 0 := hlt
        rw [Flt.fin_lt_fin] at this
        linarith
    rw [List.any_eq_true]
    rintro ⟨d, hd, hlt⟩
    have := List.all_eq_true.1 this d hd
    rw [hlt] at this; exact absurd this (by simp))]
  rw [if_pos (by
    rw [List.all_eq_true]
    intro r hr
    obtain ⟨w, hw, rfl⟩ := List.mem_map.1 hr
    rw [List.all_eq_true]
    intro v hv
    obtain ⟨x, hx, rfl⟩ := List.mem_map.1 hv
    obtain ⟨θ, -, rfl⟩ := List.mem_map.1 hx
    rw [Flt.le_iff]
    exact ⟨by simp, Flt.fin_le_fin.2 (recGainAt_bounds (h.weight_pos hw) (h.samples_ne hw) θ).2⟩)]
  rw [if_pos (by
    rw [zip_map_self, List.all_eq_true]
    intro r hr
    obtain ⟨w, hw, rfl⟩ := List.mem_map.1 hr
    rw [List.all_eq_true]
    intro q hq
    have := (List.of_mem_zip hq).2
    obtain ⟨u, -, hu⟩ := atThresholds_mem h.scores_ne ht this
    rw [Bool.or_eq_true, Flt.le_iff, hu]
    obtain ⟨h1, -⟩ := precGainAt_le (h.weight_pos hw) (h.samples_ne hw) (.fin u)
    exact Or.inr ⟨by simp, h1⟩)]
  rw [mat_eq thr (weightRows y.length W) (fun w => recGainAt (samples y s w)) _ fun w _ => rfl]
  rfl

end

/-! ### Examples -/

example : CurveInput [true, false, true, false] [3, 2, 2, (1 : ℚ)] (some [[1, 2, 1, 1], [1, 1, 3, 1]]) :=
  ⟨by decide, by decide, by decide +kernel, by decide +kernel⟩
example : IsThresholds [3, 2, 2, (1 : ℚ)] [.pinf, .fin 3, .fin 2, .fin 1] :=
  ⟨[3, 2, 1], rfl, by decide +kernel, by simp⟩
example : binaryClfCurve [true, false, true, false] (finVec [3, 2, 2, (1 : ℚ)])
    (some (finMat 4 [[1, 2, 1, 1], [1, 1, 3, 1]])) =
    .ok ([[0, 0, 2, 3], [0, 0, 1, 2]], [[0, 1, 2, 2], [0, 1, 4, 4]], [.pinf, .fin 3, .fin 2, .fin 1]) := by
  refine (clf_of (W := some [[1, 2, 1, 1], [1, 1, 3, 1]])
    ⟨by decide, by decide, by decide +kernel, by decide +kernel⟩
    (thr := [.pinf, .fin 3, .fin 2, .fin 1]) ⟨[3, 2, 1], rfl, by decide +kernel, by simp⟩).trans ?_
  decide +kernel
example : binaryClfCurve [true, false] [.fin (1 : ℚ), .nan] none = .error .assertion := by
  apply C63_reject (by simp)
  rintro ⟨s, W, -, h, -⟩
  have : Flt.nan ∈ finVec s := by rw [← h]; simp
  simp [finVec] at this

end Mlp.Props
