import Verif.Props.Curves

/-! # Properties C64 to C67: success, shape and invariances of the curves -/

set_option linter.unusedSectionVars false

namespace Mlp.Props
open Mlp.Util Mlp.Perf Mlp.Spec Mlp.Lemmas

section
variable {K : Type} [Field K] [LinearOrder K] [IsStrictOrderedRing K]

/-! ## C64 -/

/-- **C64, ROC curve.**  For every valid input `roc_curve` succeeds: false and true positive rate at the
thresholds, to be interpolated linearly. -/
theorem C64_roc {y : List Bool} {s : List K} {W : Option (List (List K))} (h : CurveInput y s W) :
    ∃ thr, IsThresholds s thr ∧ rocCurve y (finVec s) (W.map (finMat y.length)) =
      .ok (⟨finMat thr.length ((weightRows y.length W).map fun w => thr.map (fprAt (samples y s w))),
        finMat thr.length ((weightRows y.length W).map fun w => thr.map (recallAt (samples y s w))), .linear⟩,
        thr) :=
  ⟨_, thresholdsOf_spec h.scores_ne, roc_of h (thresholdsOf_spec h.scores_ne)⟩

/-- **C64, recall-precision curve.**  For every valid input `recall_precision_curve` succeeds. -/
theorem C64_recall_precision {y : List Bool} {s : List K} {W : Option (List (List K))} (h : CurveInput y s W) :
    ∃ thr, IsThresholds s thr ∧ recallPrecisionCurve y (finVec s) (W.map (finMat y.length)) =
      .ok (⟨finMat thr.length ((weightRows y.length W).map fun w => thr.map (recallAt (samples y s w))),
        finMat thr.length ((weightRows y.length W).map fun w => atThresholds (precisionAt (samples y s w)) thr),
        .previous⟩, thr) :=
  ⟨_, thresholdsOf_spec h.scores_ne, recall_precision_of h (thresholdsOf_spec h.scores_ne)⟩

/-- **C64, precision-recall-gain curve.**  For every valid input `prg_curve` succeeds. -/
theorem C64_prg {y : List Bool} {s : List K} {W : Option (List (List K))} (h : CurveInput y s W) :
    ∃ thr, IsThresholds s thr ∧ prgCurve y (finVec s) (W.map (finMat y.length)) =
      .ok (⟨finMat thr.length ((weightRows y.length W).map fun w => thr.map (recGainAt (samples y s w))),
        ⟨thr.length, (weightRows y.length W).map fun w => atThresholds (precGainAt (samples y s w)) thr⟩,
        .previous⟩, thr) :=
  ⟨_, thresholdsOf_spec h.scores_ne, prg_of h (thresholdsOf_spec h.scores_ne)⟩

/-- A row of numbers that goes up from 0 to 1. -/
def Rises (r : List (Flt K)) : Prop :=
  ∃ xs, r = finVec xs ∧ xs.Pairwise (· ≤ ·) ∧ xs.head? = some 0 ∧ xs.getLast? = some 1

theorem rises_of {s : List K} (hne : s ≠ []) {thr : List (Flt K)} (ht : IsThresholds s thr) {g : Flt K → K}
    (h0 : g .pinf = 0) (h1 : ∀ θ, (∀ v ∈ s, θ ≤ v) → g (.fin θ) = 1)
    (hm : ∀ θ θ', θ' ≤ θ → g θ ≤ g θ') : Rises (finVec (thr.map g)) := by
  refine ⟨_, rfl, map_pairwise_mono ht hm, ?_, ?_⟩
  · obtain ⟨ds, rfl, -⟩ := ht
    simp [h0]
  · obtain ⟨pre, θ, rfl, -, hθ⟩ := isThresholds_last hne ht
    simp [h1 θ hθ]

section
variable {y : List Bool} {s : List K} {W : Option (List (List K))} (h : CurveInput y s W) {thr : List (Flt K)}
  (ht : IsThresholds s thr) {w : List K} (hw : w ∈ weightRows y.length W)
include h ht hw

theorem rises_fpr : Rises (finVec (thr.map (fprAt (samples y s w)))) := by
  have hN := fpTotal_pos (h.weight_pos hw) (h.samples_ne hw)
  refine rises_of h.scores_ne ht ?_ ?_ ?_
  · rw [fprAt, fpCount_pinf, zero_div]
  · intro θ hθ
    rw [fprAt, (counts_total fun a ha => Flt.fin_le_fin.2 (hθ _ (h.score_mem hw a ha))).1, div_self hN.ne']
  · intro θ θ' hθ
    exact div_le_div_of_nonneg_right (fpCount_mono (h.weight_pos hw) hθ) hN.le

theorem rises_recall : Rises (finVec (thr.map (recallAt (samples y s w)))) := by
  have hP := tpTotal_pos (h.weight_pos hw) (h.samples_ne hw)
  refine rises_of h.scores_ne ht ?_ ?_ ?_
  · rw [recallAt, tpCount_pinf, zero_div]
  · intro θ hθ
    rw [recallAt, (counts_total fun a ha => Flt.fin_le_fin.2 (hθ _ (h.score_mem hw a ha))).2, div_self hP.ne']
  · intro θ θ' hθ
    exact div_le_div_of_nonneg_right (tpCount_mono (h.weight_pos hw) hθ) hP.le

theorem rises_recGain : Rises (finVec (thr.map (recGainAt (samples y s w)))) := by
  have hP := tpTotal_pos (h.weight_pos hw) (h.samples_ne hw)
  have hN := fpTotal_pos (h.weight_pos hw) (h.samples_ne hw)
  refine rises_of h.scores_ne ht ?_ ?_ fun θ θ' hθ => recGainAt_mono (h.weight_pos hw) (h.samples_ne hw) hθ
  · rw [recGainAt, if_pos (by rw [recallAt, tpCount_pinf, zero_div])]
  · intro θ hθ
    have e : recallAt (samples y s w) (.fin θ) = 1 := by
      rw [recallAt, (counts_total fun a ha => Flt.fin_le_fin.2 (hθ _ (h.score_mem hw a ha))).2, div_self hP.ne']
    rw [recGainAt, e, if_neg one_ne_zero]
    have : gain (prevalence (samples y s w)) 1 = 1 := by
      unfold gain
      rw [mul_one, div_self]
      unfold prevalence
      rw [one_sub_div (by positivity), add_sub_cancel_left]
      positivity
    rw [this, max_eq_right zero_le_one]

end

/-- **C64, end points and monotonicity.**  Every row of the ROC curve goes from (0, 0) to (1, 1) and never
down, and the recall of the recall-precision curve goes up from 0 to 1. -/
theorem C64_rises {y : List Bool} {s : List K} {W : Option (List (List K))} (h : CurveInput y s W)
    {c c' : Curve K} {thr thr' : List (Flt K)} (hc : rocCurve y (finVec s) (W.map (finMat y.length)) = .ok (c, thr))
    (hc' : recallPrecisionCurve y (finVec s) (W.map (finMat y.length)) = .ok (c', thr')) :
    (∀ r ∈ c.x.rows, Rises r) ∧ (∀ r ∈ c.y.rows, Rises r) ∧ ∀ r ∈ c'.x.rows, Rises r := by
  have ht := thresholdsOf_spec h.scores_ne
  rw [roc_of h ht, Except.ok.injEq, Prod.mk.injEq] at hc
  rw [recall_precision_of h ht, Except.ok.injEq, Prod.mk.injEq] at hc'
  obtain ⟨rfl, -⟩ := hc
  obtain ⟨rfl, -⟩ := hc'
  simp only [finMat, List.map_map, List.mem_map, Function.comp]
  refine ⟨?_, ?_, ?_⟩
  · rintro r ⟨w, hw, rfl⟩; exact rises_fpr h ht hw
  · rintro r ⟨w, hw, rfl⟩; exact rises_recall h ht hw
  · rintro r ⟨w, hw, rfl⟩; exact rises_recall h ht hw

/-! ## C65 -/

theorem samples_reorder {σ : List Nat} {y : List Bool} {s w : List K} (hl : s.length = y.length)
    (hwl : w.length = y.length) (hσ : IsPerm σ y.length) :
    samples (reorder σ y) (reorder σ s) (reorder σ w) = reorder σ (samples y s w) := by
  unfold samples
  have hlt := perm_lt hσ
  rw [List.zip, ← reorder_zipWith _ (fun i hi => by rw [hl]; exact hlt i hi)
    (fun i hi => by rw [hwl]; exact hlt i hi)]
  rw [← reorder_zipWith _ hlt (fun i hi => by
    rw [List.length_zipWith, hl, hwl, min_self]; exact hlt i hi)]

theorem counts_perm {S S' : List (Sample K)} (h : S.Perm S') : fpCount S = fpCount S' ∧ tpCount S = tpCount S' := by
  have h1 : negTotal S = negTotal S' := wsum_perm h _
  have h2 : posTotal S = posTotal S' := wsum_perm h _
  have h3 : ∀ θ, negAbove S θ = negAbove S' θ := fun θ => wsum_perm h _
  have h4 : ∀ θ, posAbove S θ = posAbove S' θ := fun θ => wsum_perm h _
  constructor
  · funext θ; unfold fpCount; rw [h1, h3, h4]
  · funext θ; unfold tpCount; rw [h2, h3, h4]

/-- **C65, counts.**  Labels, scores and weight columns in another order give the same counts and
thresholds, also for invalid input. -/
theorem C65_counts {y : List Bool} {sc : List (Flt K)} {M : Option (Mat K)} {σ : List Nat}
    (hσ : IsPerm σ y.length) (hl : sc.length = y.length)
    (hM : ∀ m, M = some m → m.ncols = y.length ∧ ∀ r ∈ m.rows, r.length = y.length) :
    binaryClfCurve (reorder σ y) (reorder σ sc) (M.map (reorderCols σ)) = binaryClfCurve y sc M := by
  have hyl : (reorder σ y).length = y.length := (reorder_perm hσ).length_eq
  have hscp : (reorder σ sc).Perm sc := reorder_perm (by rw [hl]; exact hσ)
  by_cases hv : ∃ s W, CurveInput y s W ∧ sc = finVec s ∧ M = W.map (finMat y.length)
  · obtain ⟨s, W, h, rfl, rfl⟩ := hv
    have hp : ∀ {w : List K}, w.length = y.length → (reorder σ w).Perm w := fun hw =>
      reorder_perm (by rw [hw]; exact hσ)
    have hrows : weightRows (reorder σ y).length (W.map fun W => W.map (reorder σ)) =
        (weightRows y.length W).map (reorder σ) := by
      cases W with
      | none =>
        simp only [weightRows, Option.map_none, Option.getD_none, List.map_cons, List.map_nil, hyl]
        congr 1
        symm
        rw [List.eq_replicate_iff]
        have hp1 := hp (w := List.replicate y.length (1 : K)) (by simp)
        exact ⟨by rw [hp1.length_eq, List.length_replicate], fun v hv =>
          (List.mem_replicate.1 (hp1.mem_iff.1 hv)).2⟩
      | some W => rfl
    have hsp : (reorder σ s).Perm s := hp h.length
    have h' : CurveInput (reorder σ y) (reorder σ s) (W.map fun W => W.map (reorder σ)) := by
      refine ⟨by rw [hsp.length_eq, hyl, h.length], ?_, ?_, ?_⟩
      · intro e
        rw [e] at hyl
        exact h.nonempty (List.eq_nil_of_length_eq_zero hyl.symm)
      · rw [hrows]
        simpa using h.rows
      · rw [hrows, hyl]
        intro w hw
        obtain ⟨w, hwm, rfl⟩ := List.mem_map.1 hw
        clear hw
        obtain ⟨h1, h2⟩ := h.weights w hwm
        exact ⟨by rw [(hp h1).length_eq, h1], fun v hv => h2 v ((hp h1).mem_iff.1 hv)⟩
    have e1 : reorder σ (finVec s) = finVec (reorder σ s) := reorder_map ..
    have e2 : (W.map (finMat y.length)).map (reorderCols σ) =
        (W.map fun W => W.map (reorder σ)).map (finMat (reorder σ y).length) := by
      cases W with
      | none => rfl
      | some W =>
        simp only [Option.map_some, finMat, reorderCols, hyl, List.map_map]
        congr 2
        exact List.map_congr_left fun w _ => reorder_map ..
    have ht := thresholdsOf_spec h.scores_ne
    have ht' : IsThresholds (reorder σ s) (thresholdsOf s) := by
      obtain ⟨ds, h1, h2, h3⟩ := ht
      exact ⟨ds, h1, h2, fun v => by rw [h3, hsp.mem_iff]⟩
    rw [e1, e2, clf_of h' ht', clf_of h ht, hrows]
    simp only [List.map_map]
    have key : ∀ w ∈ weightRows y.length W,
        (samples (reorder σ y) (reorder σ s) (reorder σ w)).Perm (samples y s w) := by
      intro w hw
      have hwl := (h.weights w hw).1
      rw [samples_reorder h.length hwl hσ]
      exact reorder_perm (by rw [samples_length h.length hwl]; exact hσ)
    congr 2
    · refine List.map_congr_left fun w hw => ?_
      simp only [Function.comp]
      rw [(counts_perm (key w hw)).1]
    · congr 1
      refine List.map_congr_left fun w hw => ?_
      simp only [Function.comp]
      rw [(counts_perm (key w hw)).2]
  · rw [C63_reject (fun m hm r hr => by rw [(hM m hm).1]; exact (hM m hm).2 r hr) hv]
    refine C63_reject ?_ ?_
    · intro m hm r hr
      cases M with
      | none => simp at hm
      | some m' =>
        simp only [Option.map_some, Option.some.injEq] at hm
        subst hm
        obtain ⟨r', hr', rfl⟩ := List.mem_map.1 hr
        have h1 := (hM m' rfl).2 r' hr'
        rw [(reorder_perm (by rw [h1]; exact hσ)).length_eq, h1]
        exact (hM m' rfl).1.symm
    · rintro ⟨s', W', h', hs', hW'⟩
      apply hv
      have hfin : (sc.all fun v => v.isFinite) = true := by
        rw [← all_perm hscp, hs', List.all_eq_true]
        intro v hv
        obtain ⟨x, -, rfl⟩ := List.mem_map.1 hv
        rfl
      obtain ⟨s, rfl⟩ := exists_finVec hfin
      have hsl : s.length = y.length := by rw [← hl]; simp [finVec]
      have hne : y ≠ [] := by
        rintro rfl
        exact h'.nonempty (List.eq_nil_of_length_eq_zero hyl)
      cases M with
      | none =>
        refine ⟨s, none, ⟨hsl, hne, by simp [weightRows], ?_⟩, rfl, rfl⟩
        intro w hw
        simp only [weightRows, Option.getD_none, List.mem_singleton] at hw
        subst hw
        refine ⟨by simp, fun v hv => ?_⟩
        rw [(List.mem_replicate.1 hv).2]; exact one_pos
      | some m =>
        obtain ⟨hc, hr⟩ := hM m rfl
        cases W' with
        | none => simp at hW'
        | some W' =>
          simp only [Option.map_some, Option.some.injEq, reorderCols, finMat, Mat.mk.injEq] at hW'
          have hrow : ∀ r ∈ m.rows, ∃ xs, r = finVec xs ∧ ∀ v ∈ xs, 0 < v := by
            intro r hrm
            have : reorder σ r ∈ W'.map finVec := by rw [← hW'.2]; exact List.mem_map_of_mem hrm
            obtain ⟨w, hw, hwr⟩ := List.mem_map.1 this
            have hp : (reorder σ r).Perm r := reorder_perm (by rw [hr r hrm]; exact hσ)
            have hfin : (r.all fun v => v.isFinite) = true := by
              rw [← all_perm hp, ← hwr, List.all_eq_true]
              intro v hv
              obtain ⟨x, -, rfl⟩ := List.mem_map.1 hv
              rfl
            obtain ⟨xs, rfl⟩ := exists_finVec hfin
            refine ⟨xs, rfl, fun v hv => ?_⟩
            have : Flt.fin v ∈ finVec w := by
              rw [hwr, hp.mem_iff]; exact List.mem_map_of_mem hv
            obtain ⟨u, hu, he⟩ := List.mem_map.1 this
            rw [Flt.fin.injEq] at he
            rw [← he]
            exact (h'.weights w hw).2 u hu
          have hrows : ∃ W : List (List K), m.rows = W.map finVec ∧ ∀ w ∈ W, w.length = y.length ∧ ∀ v ∈ w, 0 < v := by
            have : ∀ l : List (List (Flt K)), (∀ r ∈ l, r ∈ m.rows) →
                ∃ W : List (List K), l = W.map finVec ∧ ∀ w ∈ W, w.length = y.length ∧ ∀ v ∈ w, 0 < v := by
              intro l
              induction l with
              | nil => intro _; exact ⟨[], rfl, by simp⟩
              | cons r l ih =>
                intro hl
                obtain ⟨W, hW, hW2⟩ := ih fun r hr => hl r (by simp [hr])
                obtain ⟨xs, hx, hpos⟩ := hrow r (hl r (by simp))
                refine ⟨xs :: W, by rw [hx, hW]; rfl, ?_⟩
                intro w hw
                rcases List.mem_cons.1 hw with rfl | hw
                · refine ⟨?_, hpos⟩
                  rw [← hr r (hl r (by simp)), hx]; simp [finVec]
                · exact hW2 w hw
            exact this m.rows fun _ h => h
          obtain ⟨W, hW, hW2⟩ := hrows
          refine ⟨s, some W, ⟨hsl, hne, ?_, hW2⟩, rfl, ?_⟩
          · intro e
            simp only [weightRows, Option.getD_some] at e
            subst e
            have hn := h'.rows
            simp only [weightRows, Option.getD_some] at hn
            rw [hW] at hW'
            simp at hW'
            exact hn hW'.2
          · rw [Option.map_some, finMat, ← hW, ← hc]

/-- **C65.**  Labels, scores and weight columns in another order give the same curves. -/
theorem C65_curves {y : List Bool} {sc : List (Flt K)} {M : Option (Mat K)} {σ : List Nat}
    (hσ : IsPerm σ y.length) (hl : sc.length = y.length)
    (hM : ∀ m, M = some m → m.ncols = y.length ∧ ∀ r ∈ m.rows, r.length = y.length) :
    rocCurve (reorder σ y) (reorder σ sc) (M.map (reorderCols σ)) = rocCurve y sc M ∧
    recallPrecisionCurve (reorder σ y) (reorder σ sc) (M.map (reorderCols σ)) = recallPrecisionCurve y sc M ∧
    prgCurve (reorder σ y) (reorder σ sc) (M.map (reorderCols σ)) = prgCurve y sc M := by
  unfold rocCurve recallPrecisionCurve prgCurve
  rw [C65_counts hσ hl hM]
  exact ⟨rfl, rfl, rfl⟩

/-! ## C66 -/

theorem samples_map {y : List Bool} {s w : List K} (f : K → K) :
    samples y (s.map f) w = (samples y s w).map fun a => ⟨f a.score, a.label, a.weight⟩ := by
  unfold samples
  induction y generalizing s w with
  | nil => rfl
  | cons b y ih =>
    cases s with
    | nil => rfl
    | cons v s =>
      cases w with
      | nil => rfl
      | cons u w => simp only [List.map_cons, List.zip_cons_cons, List.zipWith_cons_cons, ih]

theorem wsum_map (S : List (Sample K)) (g : Sample K → Sample K) (hg : ∀ a ∈ S, (g a).weight = a.weight)
    (p : Sample K → Bool) : wsum (S.map g) p = wsum S fun a => p (g a) := by
  unfold wsum
  rw [List.map_map]
  congr 1
  exact List.map_congr_left fun a ha => by simp only [Function.comp, hg a ha]

/-- **C66, counts.**  Replacing the scores by strictly increasing functions of them does not change the
counts, and the thresholds are mapped by the function. -/
theorem C66_counts {y : List Bool} {s : List K} {W : Option (List (List K))} (h : CurveInput y s W) {f : K → K}
    (hf : ∀ a ∈ s, ∀ b ∈ s, a < b → f a < f b) :
    ∃ fps tps ds, binaryClfCurve y (finVec s) (W.map (finMat y.length)) = .ok (fps, tps, .pinf :: finVec ds) ∧
      binaryClfCurve y (finVec (s.map f)) (W.map (finMat y.length)) = .ok (fps, tps, .pinf :: finVec (ds.map f)) := by
  obtain ⟨ds, hthr, hs, hm⟩ := thresholdsOf_spec h.scores_ne
  have ht : IsThresholds s (.pinf :: finVec ds) := ⟨ds, rfl, hs, hm⟩
  have h' : CurveInput y (s.map f) W := ⟨by rw [List.length_map, h.length], h.nonempty, h.rows, h.weights⟩
  have ht' : IsThresholds (s.map f) (.pinf :: finVec (ds.map f)) := by
    refine ⟨ds.map f, rfl, ?_, ?_⟩
    · rw [List.pairwise_map]
      refine hs.imp_of_mem fun {a b} ha hb hab => hf b ((hm b).1 hb) a ((hm a).1 ha) hab
    · intro v
      simp only [List.mem_map, hm]
  have hle : ∀ a ∈ s, ∀ b ∈ s, (f a ≤ f b ↔ a ≤ b) := by
    intro a ha b hb
    constructor
    · intro hab
      by_contra hc
      exact absurd (hf b hb a ha (not_le.1 hc)) (not_lt.2 hab)
    · intro hab
      rcases hab.eq_or_lt with rfl | hlt
      · exact le_rfl
      · exact (hf a ha b hb hlt).le
  refine ⟨_, _, ds, clf_of h ht, ?_⟩
  rw [clf_of h' ht']
  have key : ∀ w ∈ weightRows y.length W,
      (Flt.pinf :: finVec (ds.map f)).map (fpCount (samples y (s.map f) w)) =
        (Flt.pinf :: finVec ds).map (fpCount (samples y s w)) ∧
      (Flt.pinf :: finVec (ds.map f)).map (tpCount (samples y (s.map f) w)) =
        (Flt.pinf :: finVec ds).map (tpCount (samples y s w)) := by
    intro w hw
    have e0 := samples_map (y := y) (s := s) (w := w) f
    have h1 : posTotal (samples y (s.map f) w) = posTotal (samples y s w) := by
      rw [e0]; exact wsum_map (samples y s w) (fun a => ⟨f a.score, a.label, a.weight⟩) (fun _ _ => rfl) fun a => a.label
    have h2 : negTotal (samples y (s.map f) w) = negTotal (samples y s w) := by
      rw [e0]; exact wsum_map (samples y s w) (fun a => ⟨f a.score, a.label, a.weight⟩) (fun _ _ => rfl) fun a => !a.label
    have h3 : ∀ u ∈ s, posAbove (samples y (s.map f) w) (.fin (f u)) = posAbove (samples y s w) (.fin u) := by
      intro u hu
      rw [e0]
      refine (wsum_map (samples y s w) (fun a => ⟨f a.score, a.label, a.weight⟩) (fun _ _ => rfl)
        fun a => a.label && decide (Flt.fin (f u) ≤ .fin a.score)).trans (wsum_congr fun a ha => ?_)
      have := hle u hu a.score (h.score_mem hw a ha)
      rw [Bool.eq_iff_iff]
      simp only [Bool.and_eq_true, decide_eq_true_eq, Flt.fin_le_fin, this]
    have h4 : ∀ u ∈ s, negAbove (samples y (s.map f) w) (.fin (f u)) = negAbove (samples y s w) (.fin u) := by
      intro u hu
      rw [e0]
      refine (wsum_map (samples y s w) (fun a => ⟨f a.score, a.label, a.weight⟩) (fun _ _ => rfl)
        fun a => !a.label && decide (Flt.fin (f u) ≤ .fin a.score)).trans (wsum_congr fun a ha => ?_)
      have := hle u hu a.score (h.score_mem hw a ha)
      rw [Bool.eq_iff_iff]
      simp only [Bool.and_eq_true, decide_eq_true_eq, Flt.fin_le_fin, this]
    simp only [List.map_cons, fpCount_pinf, tpCount_pinf, finVec, List.map_map, List.cons.injEq, true_and]
    constructor
    · refine List.map_congr_left fun u hu => ?_
      simp only [Function.comp, fpCount]
      rw [h2, h3 u ((hm u).1 hu), h4 u ((hm u).1 hu)]
    · refine List.map_congr_left fun u hu => ?_
      simp only [Function.comp, tpCount]
      rw [h1, h3 u ((hm u).1 hu), h4 u ((hm u).1 hu)]
  congr 2
  · exact List.map_congr_left fun w hw => (key w hw).1
  · congr 1
    exact List.map_congr_left fun w hw => (key w hw).2

/-- The parts of the curves that are computed from the counts do not depend on the values of the
thresholds. -/
theorem curves_of_counts {y y' : List Bool} {sc sc' : List (Flt K)} {M M' : Option (Mat K)} {fps tps : List (List K)}
    {thr thr' : List (Flt K)} (h : binaryClfCurve y sc M = .ok (fps, tps, thr))
    (h' : binaryClfCurve y' sc' M' = .ok (fps, tps, thr')) (hl : thr.length = thr'.length) :
    (∃ c, rocCurve y sc M = .ok (c, thr) ∧ rocCurve y' sc' M' = .ok (c, thr')) ∧
    (∀ c, recallPrecisionCurve y sc M = .ok (c, thr) → recallPrecisionCurve y' sc' M' = .ok (c, thr')) ∧
    ∀ c, prgCurve y sc M = .ok (c, thr) → prgCurve y' sc' M' = .ok (c, thr') := by
  have e : ∀ rows : List (List (Flt K)), matOf thr' rows = matOf thr rows := fun rows => by
    unfold matOf; rw [hl]
  refine ⟨?_, ?_, ?_⟩
  · unfold rocCurve
    rw [h, h']
    simp only [ok_bind, e]
    exact ⟨_, rfl, rfl⟩
  · intro c hc
    unfold recallPrecisionCurve at hc ⊢
    rw [h] at hc
    rw [h']
    simp only [ok_bind, e] at hc ⊢
    simp only [bind_ok_iff] at hc
    obtain ⟨p, hp, u, hu, hr⟩ := hc
    rw [hp, ok_bind, hu, ok_bind]
    rw [pure_eq_ok, Except.ok.injEq, Prod.mk.injEq] at hr ⊢
    exact ⟨hr.1, rfl⟩
  · intro c hc
    unfold prgCurve at hc ⊢
    rw [h] at hc
    rw [h']
    simp only [ok_bind, e] at hc ⊢
    simp only [bind_ok_iff] at hc
    obtain ⟨p, hp, u, hu, v, hv, x, hx, hr⟩ := hc
    rw [hp, ok_bind, hu, ok_bind, hv, ok_bind, hx, ok_bind]
    rw [pure_eq_ok, Except.ok.injEq, Prod.mk.injEq] at hr ⊢
    exact ⟨hr.1, rfl⟩

/-- **C66.**  Replacing the scores by strictly increasing functions of them does not change the curves, and
the thresholds are mapped by the function. -/
theorem C66_curves {y : List Bool} {s : List K} {W : Option (List (List K))} (h : CurveInput y s W) {f : K → K}
    (hf : ∀ a ∈ s, ∀ b ∈ s, a < b → f a < f b) :
    ∃ ds roc pr prg,
      rocCurve y (finVec s) (W.map (finMat y.length)) = .ok (roc, .pinf :: finVec ds) ∧
      recallPrecisionCurve y (finVec s) (W.map (finMat y.length)) = .ok (pr, .pinf :: finVec ds) ∧
      prgCurve y (finVec s) (W.map (finMat y.length)) = .ok (prg, .pinf :: finVec ds) ∧
      rocCurve y (finVec (s.map f)) (W.map (finMat y.length)) = .ok (roc, .pinf :: finVec (ds.map f)) ∧
      recallPrecisionCurve y (finVec (s.map f)) (W.map (finMat y.length)) = .ok (pr, .pinf :: finVec (ds.map f)) ∧
      prgCurve y (finVec (s.map f)) (W.map (finMat y.length)) = .ok (prg, .pinf :: finVec (ds.map f)) := by
  obtain ⟨fps, tps, ds, h1, h2⟩ := C66_counts h hf
  have ht := thresholdsOf_spec h.scores_ne
  have hthr : thresholdsOf s = .pinf :: finVec ds := by
    have := clf_of h ht
    rw [h1, Except.ok.injEq, Prod.mk.injEq, Prod.mk.injEq] at this
    exact this.2.2.symm
  rw [hthr] at ht
  obtain ⟨⟨roc, r1, r2⟩, r3, r4⟩ := curves_of_counts h1 h2 (by simp [finVec])
  exact ⟨ds, roc, _, _, r1, recall_precision_of h ht, prg_of h ht, r2, r3 _ (recall_precision_of h ht),
    r4 _ (prg_of h ht)⟩

/-! ## C67 -/

theorem samples_repeated {k : List Nat} {y : List Bool} {s : List K} (hl : s.length = y.length)
    (hk : k.length = y.length) (p : Sample K → Bool) (hp : ∀ v b w w', p ⟨v, b, w⟩ = p ⟨v, b, w'⟩) (m : Nat)
    (hm : m = (repeated k y).length) :
    wsum (samples (repeated k y) (repeated k s) (List.replicate m 1)) p =
      wsum (samples y s (k.map fun (n : Nat) => (n : K))) p := by
  have app : ∀ {y y' : List Bool} {s s' w w' : List K}, s.length = y.length → w.length = y.length →
      samples (y ++ y') (s ++ s') (w ++ w') = samples y s w ++ samples y' s' w' := by
    intro y y' s s' w w' h1 h2
    unfold samples
    rw [List.zip_append (by rw [h1, h2]), List.zipWith_append (by simp [h1, h2])]
  have one : ∀ (n : Nat) (b : Bool) (v : K), wsum (samples (List.replicate n b) (List.replicate n v)
      (List.replicate n 1)) p = if p ⟨v, b, (n : K)⟩ then (n : K) else 0 := by
    intro n b v
    have : samples (List.replicate n b) (List.replicate n v) (List.replicate n 1) =
        List.replicate n (⟨v, b, 1⟩ : Sample K) := by
      unfold samples
      simp
    rw [this]
    unfold wsum
    rw [List.map_replicate, List.sum_replicate, hp v b 1 (n : K)]
    split <;> simp
  subst hm
  induction y generalizing s k with
  | nil =>
    cases k <;> cases s <;> simp at hl hk
    rfl
  | cons b y ih =>
    cases s with
    | nil => simp at hl
    | cons v s =>
      cases k with
      | nil => simp at hk
      | cons n k =>
        simp only [List.length_cons, Nat.add_right_cancel_iff] at hl hk
        have e1 : repeated (n :: k) (b :: y) = List.replicate n b ++ repeated k y := by simp [repeated]
        have e2 : repeated (n :: k) (v :: s) = List.replicate n v ++ repeated k s := by simp [repeated]
        rw [e1, e2, List.length_append, List.length_replicate, List.replicate_add, app (by simp) (by simp),
          wsum_append, one, ih hl hk]
        simp only [samples, List.map_cons, List.zip_cons_cons, List.zipWith_cons_cons, wsum_cons]

theorem repeated_length {α β : Type} {k : List Nat} {l : List α} {l' : List β} (hl : l.length = l'.length) :
    (repeated k l).length = (repeated k l').length := by
  unfold repeated
  induction k generalizing l l' with
  | nil => rfl
  | cons n k ih =>
    cases l <;> cases l' <;> simp at hl
    · rfl
    · simp only [List.zipWith_cons_cons, List.flatten_cons, List.length_append, List.length_replicate, ih hl]

theorem mem_repeated {α : Type} {k : List Nat} {l : List α} (hk : k.length = l.length) (hpos : ∀ n ∈ k, 0 < n)
    (a : α) : a ∈ repeated k l ↔ a ∈ l := by
  unfold repeated
  induction k generalizing l with
  | nil =>
    cases l with
    | nil => rfl
    | cons => simp at hk
  | cons n k ih =>
    cases l with
    | nil => simp at hk
    | cons b l =>
      simp only [List.zipWith_cons_cons, List.flatten_cons, List.mem_append, List.mem_replicate, List.mem_cons,
        ih (by simpa using hk) fun m hm => hpos m (by simp [hm])]
      have := hpos n (by simp)
      constructor
      · rintro (h | h)
        · exact Or.inl h.2
        · exact Or.inr h
      · rintro (h | h)
        · exact Or.inl ⟨by omega, h⟩
        · exact Or.inr h

/-- **C67, replication.**  Positive integer weights give the counts of the unweighted data set in which
every sample is repeated that many times. -/
theorem C67_replicate {y : List Bool} {s : List K} {k : List Nat} (hl : s.length = y.length) (hne : y ≠ [])
    (hk : k.length = y.length) (hpos : ∀ n ∈ k, 0 < n) :
    binaryClfCurve (repeated k y) (finVec (repeated k s)) none =
      binaryClfCurve y (finVec s) (some (finMat y.length [k.map fun (n : Nat) => (n : K)])) := by
  have h : CurveInput y s (some [k.map fun (n : Nat) => (n : K)]) := by
    refine ⟨hl, hne, by simp [weightRows], ?_⟩
    intro w hw
    simp only [weightRows, Option.getD_some, List.mem_singleton] at hw
    subst hw
    refine ⟨by rw [List.length_map, hk], fun v hv => ?_⟩
    obtain ⟨n, hn, rfl⟩ := List.mem_map.1 hv
    exact Nat.cast_pos.2 (hpos n hn)
  have h' : CurveInput (repeated k y) (repeated k s) none := by
    refine ⟨repeated_length hl, ?_, by simp [weightRows], ?_⟩
    · intro e
      obtain ⟨b, hb⟩ := List.exists_mem_of_ne_nil y hne
      rw [← mem_repeated hk hpos, e] at hb
      simp at hb
    · intro w hw
      simp only [weightRows, Option.getD_none, List.mem_singleton] at hw
      subst hw
      refine ⟨by simp, fun v hv => ?_⟩
      rw [(List.mem_replicate.1 hv).2]; exact one_pos
  have ht := thresholdsOf_spec h.scores_ne
  have ht' : IsThresholds (repeated k s) (thresholdsOf s) := by
    obtain ⟨ds, h1, h2, h3⟩ := ht
    exact ⟨ds, h1, h2, fun v => by rw [h3, mem_repeated (by rw [hk, hl]) hpos]⟩
  have c1 := clf_of h ht
  have c2 := clf_of h' ht'
  rw [Option.map_some] at c1
  rw [Option.map_none] at c2
  rw [c1, c2]
  have key := fun p hp => samples_repeated (K := K) hl hk p hp _ rfl
  have e1 := key (fun a => a.label) fun _ _ _ _ => rfl
  have e2 := key (fun a => !a.label) fun _ _ _ _ => rfl
  have e3 := fun θ => key (fun a => a.label && decide (θ ≤ Flt.fin a.score)) fun _ _ _ _ => rfl
  have e4 := fun θ => key (fun a => !a.label && decide (θ ≤ Flt.fin a.score)) fun _ _ _ _ => rfl
  have f1 : fpCount (samples (repeated k y) (repeated k s) (List.replicate (repeated k y).length 1)) =
      fpCount (samples y s (k.map fun (n : Nat) => (n : K))) := by
    funext θ
    unfold fpCount negTotal posAbove negAbove
    rw [e2, e3, e4]
  have f2 : tpCount (samples (repeated k y) (repeated k s) (List.replicate (repeated k y).length 1)) =
      tpCount (samples y s (k.map fun (n : Nat) => (n : K))) := by
    funext θ
    unfold tpCount posTotal posAbove negAbove
    rw [e1, e3, e4]
  simp only [weightRows, Option.getD_none, Option.getD_some, List.map_cons, List.map_nil, f1, f2]

/-- **C67, replication, curves.**  The curves with integer weights are those of the data set with repeated
samples. -/
theorem C67_replicate_curves {y : List Bool} {s : List K} {k : List Nat} (hl : s.length = y.length) (hne : y ≠ [])
    (hk : k.length = y.length) (hpos : ∀ n ∈ k, 0 < n) :
    rocCurve (repeated k y) (finVec (repeated k s)) none =
      rocCurve y (finVec s) (some (finMat y.length [k.map fun (n : Nat) => (n : K)])) ∧
    recallPrecisionCurve (repeated k y) (finVec (repeated k s)) none =
      recallPrecisionCurve y (finVec s) (some (finMat y.length [k.map fun (n : Nat) => (n : K)])) ∧
    prgCurve (repeated k y) (finVec (repeated k s)) none =
      prgCurve y (finVec s) (some (finMat y.length [k.map fun (n : Nat) => (n : K)])) := by
  unfold rocCurve recallPrecisionCurve prgCurve
  rw [C67_replicate hl hne hk hpos]
  exact ⟨rfl, rfl, rfl⟩

theorem samples_scale {y : List Bool} {s w : List K} (c : K) (p : Sample K → Bool)
    (hp : ∀ v b u u', p ⟨v, b, u⟩ = p ⟨v, b, u'⟩) :
    wsum (samples y s (w.map fun v => c * v)) p = c * wsum (samples y s w) p := by
  unfold samples
  induction y generalizing s w with
  | nil => simp [wsum_nil]
  | cons b y ih =>
    cases s with
    | nil => simp [wsum_nil]
    | cons v s =>
      cases w with
      | nil => simp [wsum_nil]
      | cons u w =>
        simp only [List.map_cons, List.zip_cons_cons, List.zipWith_cons_cons, wsum_cons, ih, mul_add,
          hp v b (c * u) u]
        split <;> simp

theorem rates_scale {y : List Bool} {s w : List K} {c : K} (hc : 0 < c) :
    fprAt (samples y s (w.map fun v => c * v)) = fprAt (samples y s w) ∧
    recallAt (samples y s (w.map fun v => c * v)) = recallAt (samples y s w) ∧
    precisionAt (samples y s (w.map fun v => c * v)) = precisionAt (samples y s w) ∧
    prevalence (samples y s (w.map fun v => c * v)) = prevalence (samples y s w) := by
  have key := fun p hp => samples_scale (y := y) (s := s) (w := w) c p hp
  have e1 : posTotal _ = c * posTotal _ := key (fun a => a.label) fun _ _ _ _ => rfl
  have e2 : negTotal _ = c * negTotal _ := key (fun a => !a.label) fun _ _ _ _ => rfl
  have e3 : ∀ θ, posAbove _ θ = c * posAbove _ θ := fun θ =>
    key (fun a => a.label && decide (θ ≤ Flt.fin a.score)) fun _ _ _ _ => rfl
  have e4 : ∀ θ, negAbove _ θ = c * negAbove _ θ := fun θ =>
    key (fun a => !a.label && decide (θ ≤ Flt.fin a.score)) fun _ _ _ _ => rfl
  have z1 : ∀ x : K, (c * x = 0) = (x = 0) := fun x => by simp [hc.ne']
  have f1 : ∀ θ, fpCount (samples y s (w.map fun v => c * v)) θ = c * fpCount (samples y s w) θ := by
    intro θ
    unfold fpCount
    simp only [e2, e3, e4, z1]
    split <;> ring
  have f2 : ∀ θ, tpCount (samples y s (w.map fun v => c * v)) θ = c * tpCount (samples y s w) θ := by
    intro θ
    unfold tpCount
    simp only [e1, e3, e4, z1]
    split <;> ring
  have f3 : fpTotal (samples y s (w.map fun v => c * v)) = c * fpTotal (samples y s w) := by
    unfold fpTotal
    simp only [e1, e2, z1]
    split <;> ring
  have f4 : tpTotal (samples y s (w.map fun v => c * v)) = c * tpTotal (samples y s w) := by
    unfold tpTotal
    simp only [e1, e2, z1]
    split <;> ring
  refine ⟨?_, ?_, ?_, ?_⟩
  · funext θ; unfold fprAt; rw [f1, f3, mul_div_mul_left _ _ hc.ne']
  · funext θ; unfold recallAt; rw [f2, f4, mul_div_mul_left _ _ hc.ne']
  · funext θ; unfold precisionAt; rw [f1, f2, ← mul_add, mul_div_mul_left _ _ hc.ne']
  · unfold prevalence; rw [f3, f4, ← mul_add, mul_div_mul_left _ _ hc.ne']

theorem zipWith_map_congr {α β γ : Type} {l : List α} {l' : List β} (h : l.length = l'.length) {f : α → β → β}
    {g : β → γ} (hg : ∀ a ∈ l, ∀ b ∈ l', g (f a b) = g b) : (List.zipWith f l l').map g = l'.map g := by
  induction l generalizing l' with
  | nil =>
    cases l' with
    | nil => rfl
    | cons => simp at h
  | cons a l ih =>
    cases l' with
    | nil => simp at h
    | cons b l' =>
      simp only [List.zipWith_cons_cons, List.map_cons, hg a (by simp) b (by simp)]
      rw [ih (by simpa using h) fun a ha b hb => hg a (by simp [ha]) b (by simp [hb])]

/-- **C67, scale.**  Multiplying every row of weights by a positive constant of its own does not change the
curves. -/
theorem C67_scale {y : List Bool} {s : List K} {W : List (List K)} (h : CurveInput y s (some W)) {cs : List K}
    (hcl : cs.length = W.length) (hc : ∀ c ∈ cs, 0 < c) :
    rocCurve y (finVec s) (some (finMat y.length (List.zipWith (fun c w => w.map fun v => c * v) cs W))) =
      rocCurve y (finVec s) (some (finMat y.length W)) ∧
    recallPrecisionCurve y (finVec s)
        (some (finMat y.length (List.zipWith (fun c w => w.map fun v => c * v) cs W))) =
      recallPrecisionCurve y (finVec s) (some (finMat y.length W)) ∧
    prgCurve y (finVec s) (some (finMat y.length (List.zipWith (fun c w => w.map fun v => c * v) cs W))) =
      prgCurve y (finVec s) (some (finMat y.length W)) := by
  have hmem : ∀ (cs : List K) (W : List (List K)), ∀ r ∈ List.zipWith (fun c w => w.map fun v => c * v) cs W,
      ∃ c ∈ cs, ∃ w ∈ W, r = w.map fun v => c * v := by
    intro cs W r hr
    rw [← List.map_uncurry_zip_eq_zipWith] at hr
    obtain ⟨p, hp, rfl⟩ := List.mem_map.1 hr
    obtain ⟨h1, h2⟩ := List.of_mem_zip hp
    exact ⟨p.1, h1, p.2, h2, rfl⟩
  have h' : CurveInput y s (some (List.zipWith (fun c w => w.map fun v => c * v) cs W)) := by
    refine ⟨h.length, h.nonempty, ?_, ?_⟩
    · have := h.rows
      simp only [weightRows, Option.getD_some] at this ⊢
      intro e
      have hl := congrArg List.length e
      rw [List.length_zipWith, hcl, min_self] at hl
      exact this (List.eq_nil_of_length_eq_zero hl)
    · intro r hr
      obtain ⟨c, hcm, w, hw, rfl⟩ := hmem cs W r hr
      obtain ⟨h1, h2⟩ := h.weights w hw
      refine ⟨by rw [List.length_map, h1], fun v hv => ?_⟩
      obtain ⟨u, hu, rfl⟩ := List.mem_map.1 hv
      exact mul_pos (hc c hcm) (h2 u hu)
  have ht := thresholdsOf_spec h.scores_ne
  have a1 := roc_of h ht
  have a2 := roc_of h' ht
  have b1 := recall_precision_of h ht
  have b2 := recall_precision_of h' ht
  have c1 := prg_of h ht
  have c2 := prg_of h' ht
  simp only [Option.map_some, weightRows, Option.getD_some] at a1 a2 b1 b2 c1 c2
  rw [a1, a2, b1, b2, c1, c2]
  have e1 := zipWith_map_congr hcl (f := fun (c : K) w => w.map fun v => c * v)
    (g := fun w => (thresholdsOf s).map (fprAt (samples y s w))) fun c hcm w _ => by
      rw [(rates_scale (hc c hcm)).1]
  have e2 := zipWith_map_congr hcl (f := fun (c : K) w => w.map fun v => c * v)
    (g := fun w => (thresholdsOf s).map (recallAt (samples y s w))) fun c hcm w _ => by
      rw [(rates_scale (hc c hcm)).2.1]
  have e3 := zipWith_map_congr hcl (f := fun (c : K) w => w.map fun v => c * v)
    (g := fun w => atThresholds (precisionAt (samples y s w)) (thresholdsOf s)) fun c hcm w _ => by
      rw [(rates_scale (hc c hcm)).2.2.1]
  have e4 := zipWith_map_congr hcl (f := fun (c : K) w => w.map fun v => c * v)
    (g := fun w => (thresholdsOf s).map (recGainAt (samples y s w))) fun c hcm w _ => by
      refine List.map_congr_left fun θ _ => ?_
      unfold recGainAt
      rw [(rates_scale (hc c hcm)).2.1, (rates_scale (hc c hcm)).2.2.2]
  have e5 := zipWith_map_congr hcl (f := fun (c : K) w => w.map fun v => c * v)
    (g := fun w => atThresholds (precGainAt (samples y s w)) (thresholdsOf s)) fun c hcm w _ => by
      congr 1
      funext θ
      unfold precGainAt
      rw [(rates_scale (hc c hcm)).2.2.1, (rates_scale (hc c hcm)).2.2.2]
  rw [e1, e2, e3, e4, e5]
  exact ⟨rfl, rfl, rfl⟩

/-- The curves on top of each other, as rows of one curve. -/
def stack (n : Nat) (kind : Kind) (cs : List (Curve K)) : Curve K :=
  ⟨⟨n, (cs.map fun c => c.x.rows).flatten⟩, ⟨n, (cs.map fun c => c.y.rows).flatten⟩, kind⟩

theorem CurveInput_row {y : List Bool} {s : List K} {W : List (List K)} (h : CurveInput y s (some W)) {w : List K}
    (hw : w ∈ W) : CurveInput y s (some [w]) := by
  refine ⟨h.length, h.nonempty, by simp [weightRows], fun r hr => ?_⟩
  simp only [weightRows, Option.getD_some, List.mem_singleton] at hr
  subst hr
  exact h.weights r hw

theorem flatten_singletons {α β : Type} (f : α → β) (l : List α) : (l.map fun a => [f a]).flatten = l.map f := by
  induction l with
  | nil => rfl
  | cons a l ih => simp [ih]

/-- **C67, rows.**  Every row of weights is treated on its own: the curves for a table of weights consist
of the curves for its rows. -/
theorem C67_rows {y : List Bool} {s : List K} {W : List (List K)} (h : CurveInput y s (some W)) :
    ∃ thr roc pr prg,
      (∀ w ∈ W, rocCurve y (finVec s) (some (finMat y.length [w])) = .ok (roc w, thr)) ∧
      (∀ w ∈ W, recallPrecisionCurve y (finVec s) (some (finMat y.length [w])) = .ok (pr w, thr)) ∧
      (∀ w ∈ W, prgCurve y (finVec s) (some (finMat y.length [w])) = .ok (prg w, thr)) ∧
      rocCurve y (finVec s) (some (finMat y.length W)) = .ok (stack thr.length .linear (W.map roc), thr) ∧
      recallPrecisionCurve y (finVec s) (some (finMat y.length W)) =
        .ok (stack thr.length .previous (W.map pr), thr) ∧
      prgCurve y (finVec s) (some (finMat y.length W)) = .ok (stack thr.length .previous (W.map prg), thr) := by
  have ht := thresholdsOf_spec h.scores_ne
  refine ⟨thresholdsOf s, _, _, _, fun w hw => roc_of (CurveInput_row h hw) ht,
    fun w hw => recall_precision_of (CurveInput_row h hw) ht, fun w hw => prg_of (CurveInput_row h hw) ht, ?_, ?_, ?_⟩
  · refine (roc_of h ht).trans ?_
    simp only [stack, finMat, weightRows, Option.getD_some, List.map_map, Function.comp_def, List.map_cons,
      List.map_nil, flatten_singletons]
  · refine (recall_precision_of h ht).trans ?_
    simp only [stack, finMat, weightRows, Option.getD_some, List.map_map, Function.comp_def, List.map_cons,
      List.map_nil, flatten_singletons]
  · refine (prg_of h ht).trans ?_
    simp only [stack, matOf, finMat, weightRows, Option.getD_some, List.map_map, Function.comp_def, List.map_cons,
      List.map_nil, flatten_singletons]

/-- **C67, no weights.**  Without weights the counts are those of weights 1. -/
theorem C67_unweighted {y : List Bool} {s : List K} (hl : s.length = y.length) (hne : y ≠ []) :
    binaryClfCurve y (finVec s) none =
      binaryClfCurve y (finVec s) (some (finMat y.length [List.replicate y.length 1])) := by
  have hw : ∀ w ∈ [List.replicate y.length (1 : K)], w.length = y.length ∧ ∀ v ∈ w, 0 < v := by
    intro w hw
    rw [List.mem_singleton] at hw
    subst hw
    refine ⟨by simp, fun v hv => ?_⟩
    rw [(List.mem_replicate.1 hv).2]; exact one_pos
  have h : CurveInput y s none := ⟨hl, hne, by simp [weightRows], hw⟩
  have h' : CurveInput y s (some [List.replicate y.length 1]) := ⟨hl, hne, by simp [weightRows], hw⟩
  have c1 := clf_ok h
  have c2 := clf_ok h'
  rw [Option.map_none] at c1
  rw [Option.map_some] at c2
  rw [c1, c2]; rfl

end

/-! ### Examples -/

/-- The input of the examples: four samples, two of them with the same score, and two rows of weights. -/
theorem exampleInput : CurveInput [true, false, true, false] [3, 2, 2, (1 : ℚ)]
    (some [[1, 2, 1, 1], [1, 1, 3, 1]]) :=
  ⟨by decide, by decide, by decide +kernel, by decide +kernel⟩

example : rocCurve [true, false, true, false] (finVec [3, 2, 2, (1 : ℚ)])
    (some (finMat 4 [[1, 2, 1, 1], [1, 1, 3, 1]])) =
    .ok (⟨finMat 4 [[0, 0, 2 / 3, 1], [0, 0, 1 / 2, 1]], finMat 4 [[0, 1 / 2, 1, 1], [0, 1 / 4, 1, 1]], .linear⟩,
      [.pinf, .fin 3, .fin 2, .fin 1]) := by
  refine (roc_of exampleInput (thr := [.pinf, .fin 3, .fin 2, .fin 1])
    ⟨[3, 2, 1], rfl, by decide +kernel, by simp⟩).trans ?_
  simp [finMat, weightRows, finVec, fprAt, recallAt, samples, fpCount, tpCount, fpTotal, tpTotal, negTotal, posTotal,
    negAbove, posAbove, wsum]
  norm_num
example : IsPerm [2, 0, 3, 1] ([true, false, true, false] : List Bool).length := by unfold IsPerm; decide
example : ∀ a ∈ [3, 2, 2, (1 : ℚ)], ∀ b ∈ [3, 2, 2, (1 : ℚ)], a < b → a * a < b * b := by decide +kernel
example : repeated [2, 1, 3] [true, false, true] = [true, true, false, true, true, true] := rfl

end Mlp.Props
