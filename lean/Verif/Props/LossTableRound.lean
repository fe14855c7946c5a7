import Verif.Props.LossDouble
import Verif.Props.ClassTable

/-! # Property C121: loss tables of predictions in floating point arithmetic -/

namespace Mlp.Props
open Mlp.Util Mlp.Frame Mlp.PerfR Mlp.PaperR Mlp.CurveR Mlp.LossR Mlp.Spec Mlp.Lemmas Mlp.Round Mlp.Classif Mlp.Paper

variable {L : Lib ℝ} {dotR : List ℝ → List ℝ → ℝ}

/-! ## The columns of `loss_table` -/

/-- The metric that normalises the predictions before it is computed. -/
noncomputable def thenNormalise (L : Lib ℝ) (m : Str × Metric) : Str × Metric := (m.1, fun y p => normalizeRowsR L p >>= fun q => m.2 y q)

theorem lossMethodR_eq {t : PredTable ℝ} {y : LabelVec} {metrics : List (Str × Metric)} (hne : metrics ≠ [])
    (cols : Cols (Str × Str) ℝ) (method : Str) :
    lossMethodR L t y metrics false cols method = lossMethod t y (metrics.map (thenNormalise L)) true cols method := by
  unfold lossMethodR lossMethod
  congr 1
  funext p
  congr 1
  funext _
  simp only [Bool.false_eq_true, if_false, if_true, pure_eq_ok, ok_bind]
  cases hq : normalizeRowsR L p with
  | error e =>
    rw [error_bind]
    obtain ⟨m, ms, rfl⟩ := List.exists_cons_of_ne_nil hne
    rw [List.map_cons, List.foldlM_cons, lossStep]
    simp only [thenNormalise]
    rw [hq, error_bind, error_bind, error_bind]
  | ok q =>
    rw [ok_bind]
    clear hne
    induction metrics generalizing cols with
    | nil => rfl
    | cons m ms ih =>
      rw [List.map_cons, List.foldlM_cons, List.foldlM_cons]
      have : lossStep t.nrows y p method cols (thenNormalise L m) = lossStep t.nrows y q method cols m := by
        simp only [lossStep, thenNormalise, hq, ok_bind]
      rw [this]
      cases lossStep t.nrows y q method cols m with
      | error e => rfl
      | ok s => rw [ok_bind, ok_bind]; exact ih s

/-- The rounded `loss_table` is the exact one with metrics that normalise first. -/
theorem lossTableR_eq {t : PredTable ℝ} {y : LabelVec} {metrics : List (Str × Metric)} (hne : metrics ≠ []) :
    lossTableR L t y metrics false = lossTable t y (metrics.map (thenNormalise L)) true := by
  unfold lossTableR lossTable
  have e : ((metrics.map (thenNormalise L)).map fun m => m.1) = metrics.map fun m => m.1 := by
    rw [List.map_map]; rfl
  have e2 : lossMethodR L t y metrics false = lossMethod t y (metrics.map (thenNormalise L)) true := by
    funext cols method; exact lossMethodR_eq hne cols method
  simp only [e, e2]

/-- **C121, columns.**  The floating point `loss_table` has a column for every metric and method, the metric of the rounded normalised
predictions of that method, and no other columns; it succeeds if the metrics succeed on the normalised predictions. -/
theorem C121_columns {t : PredTable ℝ} (ht : GoodTable t) (hM : t.methods.Nodup) {y : LabelVec} (hy : y.vals.length = t.nrows)
    {metrics : List (Str × Metric)} (hne : metrics ≠ []) (hk : (metrics.map fun m => m.1).Nodup)
    (hf : ∀ m ∈ metrics, ∀ method ∈ t.methods, ∀ p q : Mat ℝ, IsMatrix t method p → normalizeRowsR L p = .ok q →
      ∃ l, m.2 y q = .ok l ∧ l.length = t.nrows) :
    ∃ tbl, lossTableR L t y metrics false = .ok tbl ∧ tbl.nrows = t.nrows ∧
      (tbl.metrics.Perm (metrics.map fun m => m.1) ∧ tbl.metrics.Pairwise (· ≤ ·)) ∧
      (tbl.methods.Perm t.methods ∧ tbl.methods.Pairwise (· ≤ ·)) ∧
      (tbl.cols.map (·.1)).Nodup ∧ (∀ c ∈ tbl.cols, c.1.1 ∈ tbl.metrics ∧ c.1.2 ∈ tbl.methods) ∧
      ∀ m ∈ metrics, ∀ method ∈ t.methods, ∃ p q l, IsMatrix t method p ∧ normalizeRowsR L p = .ok q ∧ m.2 y q = .ok l ∧
        l.length = t.nrows ∧ HasLoss tbl m.1 method l := by
  have e : ((metrics.map (thenNormalise L)).map fun m => m.1) = metrics.map fun m => m.1 := by
    rw [List.map_map]; rfl
  obtain ⟨tbl, h⟩ := C79_success_on ht hy (metrics := metrics.map (thenNormalise L)) true (by
    intro m hm method hmeth p q hp h1 _ _
    obtain ⟨m, hm', rfl⟩ := List.mem_map.1 hm
    rw [h1 rfl]
    have hq := normalizeRowsR_eq (L := L) (p := p) (by rw [hp.1]; exact ht.labels)
    obtain ⟨l, h2, h3⟩ := hf m hm' method hmeth p _ hp hq
    refine ⟨l, ?_, h3⟩
    change (normalizeRowsR L p >>= fun q => m.2 y q) = _
    rw [hq, ok_bind, h2])
  obtain ⟨h1, h2, h3, h4, h5, -, h7⟩ := C79_columns (by rw [e]; exact hk) hM h
  rw [e] at h2
  refine ⟨tbl, by rw [lossTableR_eq hne]; exact h, h1, h2, h3, h4, h5, fun m hm method hmeth => ?_⟩
  obtain ⟨p, q, l, g1, -, g3, -, g4, g5, g6⟩ := h7 _ (List.mem_map_of_mem hm) method hmeth
  rw [g3 rfl] at g4
  obtain ⟨q', g7, g8⟩ := (bind_ok_iff _ _ _).1 g4
  exact ⟨p, q', l, g1, g7, g8, g5, g6⟩

/-! ## The standard losses -/

/-- What the methods predict: floats or `-inf`, not only `-inf` for a sample. -/
def FloatPreds (rnd : ℝ → ℝ) (t : PredTable ℝ) : Prop :=
  ∀ method ∈ t.methods, ∀ p : Mat ℝ, IsMatrix t method p → ∀ r ∈ p.rows, Proper r ∧ FloatRow rnd r

/-- The labels of the samples. -/
structure GoodTestLabels (y : LabelVec) (n nLabels : Nat) : Prop where
  kind : y.kind = 'b' ∨ y.kind = 'i'
  length : y.vals.length = n
  range : ∀ v ∈ y.vals, 0 ≤ v ∧ v < (nLabels : Int)

/-- The upper bound of the rescaled Brier loss. -/
noncomputable def brierTop (rnd : ℝ → ℝ) (n : Nat) : ℝ := if 1 < n then rnd (rnd ((n : ℝ) / ((n : ℝ) - 1)) * n) else n

theorem normalised_input (hL : GoodLib L) (hE : GoodExpLog L) {t : PredTable ℝ} (ht : GoodTable t) (hf : FloatPreds L.rnd t)
    {y : LabelVec} (hy : GoodTestLabels y t.nrows t.labels.length) {method : Str} (hm : method ∈ t.methods) {p q : Mat ℝ}
    (hp : IsMatrix t method p) (hq : normalizeRowsR L p = .ok q) :
    ClassInput y q ∧ q.ncols = t.labels.length ∧ q.rows.length = t.nrows ∧ List.Forall₂ (fun r r' => Proper r' ∧ FloatRow L.rnd r' ∧
      AtMostZero r' ∧ ∀ i : Nat, r'[i]? = some .ninf ↔ r[i]? = some .ninf) p.rows q.rows := by
  obtain ⟨q', h1, h2, h3⟩ := C120_normalize hL hE (p := p) (by rw [hp.1]; exact ht.labels) (fun r hr => (hf method hm p hp r hr).1)
    fun r hr => (hf method hm p hp r hr).2
  rw [hq, Except.ok.injEq] at h1
  subst h1
  have hl : q.rows.length = t.nrows := by rw [← h3.length_eq]; exact hp.2.1
  have hc : q.ncols = t.labels.length := h2.trans hp.1
  refine ⟨⟨hy.kind, by rw [hc]; exact ht.labels, ?_, by rw [hy.length, hl], ?_, by rw [hc]; exact hy.range⟩, hc, hl,
    h3.imp fun _ _ h => ⟨h.2.1, h.2.2.1, h.2.2.2.1, h.2.2.2.2.1⟩⟩
  · intro e
    have := ht.rows
    rw [e] at hl
    simp at hl
    omega
  · intro r hr
    obtain ⟨i, hi, rfl⟩ := List.mem_iff_getElem.1 hr
    have hi' : i < p.rows.length := by rw [h3.length_eq]; exact hi
    have := (List.forall₂_iff_get.1 h3).2 i hi' hi
    rw [h2, ← hp.2.2.1 _ (List.getElem_mem hi')]
    exact this.1

theorem forall₂_right_mem {α β : Type} {R : α → β → Prop} {P : β → Prop} {l : List α} {l' : List β} (h : List.Forall₂ R l l')
    (hP : ∀ a b, R a b → P b) : ∀ b ∈ l', P b := by
  induction h with
  | nil => simp
  | cons h _ ih =>
    intro b hb
    rcases List.mem_cons.1 hb with rfl | hb
    · exact hP _ _ h
    · exact ih b hb

/-- **C121, loss table.**  In floating point arithmetic `loss_table` with the standard losses succeeds on predictions of floats and labels in
range.  For every method the log losses are non-negative or `+inf`, the latter exactly where the method has excluded
the true label; the other losses are numbers: Brier and spherical losses non-negative and bounded, zero-one losses 0 or 1. -/
theorem C121_loss_table (hL : GoodLib L) (hE : GoodExpLog L) {t : PredTable ℝ} (ht : GoodTable t) (hM : t.methods.Nodup)
    (hf : FloatPreds L.rnd t) {y : LabelVec} (hy : GoodTestLabels y t.nrows t.labels.length)
    (hn : ∀ k : Nat, k ≤ t.labels.length → L.rnd k = k) :
    ∃ tbl, lossTableR L t y (stdClassLossR L dotR) false = .ok tbl ∧ tbl.nrows = t.nrows ∧
      (tbl.metrics.Perm ["NLL".toList, "Brier".toList, "sphere".toList, "zero_one".toList] ∧ tbl.metrics.Pairwise (· ≤ ·)) ∧
      (tbl.methods.Perm t.methods ∧ tbl.methods.Pairwise (· ≤ ·)) ∧
      ∀ method ∈ t.methods, ∃ (nll : List (Flt ℝ)) (brier sphere zeroOne : List ℝ),
        HasLoss tbl "NLL".toList method nll ∧ HasLoss tbl "Brier".toList method (finVec brier) ∧
        HasLoss tbl "sphere".toList method (finVec sphere) ∧ HasLoss tbl "zero_one".toList method (finVec zeroOne) ∧
        nll.length = t.nrows ∧ brier.length = t.nrows ∧ sphere.length = t.nrows ∧ zeroOne.length = t.nrows ∧
        (∀ v ∈ nll, v = .pinf ∨ ∃ x : ℝ, v = .fin x ∧ 0 ≤ x) ∧
        (∀ p, IsMatrix t method p → ∀ (i k : Nat) (r : List (Flt ℝ)), p.rows[i]? = some r → y.vals[i]? = some (k : Int) →
          (nll[i]? = some .pinf ↔ r[k]? = some .ninf)) ∧
        (∀ x ∈ brier, 0 ≤ x ∧ x ≤ brierTop L.rnd t.labels.length) ∧
        (∀ x ∈ sphere, 0 ≤ x ∧ x ≤ L.rnd (1 / sphereScaleR L t.labels.length)) ∧ ∀ x ∈ zeroOne, x = 0 ∨ x = 1 := by
  have hb : ∀ {method : Str}, method ∈ t.methods → ∀ {p q : Mat ℝ}, IsMatrix t method p → normalizeRowsR L p = .ok q →
      ClassInput y q ∧ q.ncols = t.labels.length ∧ q.rows.length = t.nrows ∧ List.Forall₂ (fun r r' => Proper r' ∧ FloatRow L.rnd r' ∧
        AtMostZero r' ∧ ∀ i : Nat, r'[i]? = some .ninf ↔ r[i]? = some .ninf) p.rows q.rows :=
    fun {method} hm {p q} hp hq => normalised_input hL hE ht hf hy hm hp hq
  have hzero : ∀ {p q : Mat ℝ}, List.Forall₂ (fun r r' => Proper r' ∧ FloatRow L.rnd r' ∧
        AtMostZero r' ∧ ∀ i : Nat, r'[i]? = some .ninf ↔ r[i]? = some .ninf) p.rows q.rows → ∀ r ∈ q.rows, AtMostZero r :=
    fun h => forall₂_right_mem h fun _ _ g => g.2.2.1
  have hprop : ∀ {p q : Mat ℝ}, List.Forall₂ (fun r r' => Proper r' ∧ FloatRow L.rnd r' ∧
        AtMostZero r' ∧ ∀ i : Nat, r'[i]? = some .ninf ↔ r[i]? = some .ninf) p.rows q.rows →
        (∀ r ∈ q.rows, Proper r) ∧ ∀ r ∈ q.rows, FloatRow L.rnd r :=
    fun h => ⟨forall₂_right_mem h fun _ _ g => g.1, forall₂_right_mem h fun _ _ g => g.2.1⟩
  have hnames : ((stdClassLossR L dotR).map fun m => m.1) = ["NLL".toList, "Brier".toList, "sphere".toList, "zero_one".toList] := rfl
  obtain ⟨tbl, h1, h2, h3, h4, -, -, h7⟩ := C121_columns (L := L) ht hM hy.length (metrics := stdClassLossR L dotR) (by simp [stdClassLossR])
    (by rw [hnames]; decide) (by
      intro m hm method hmeth p q hp hq
      obtain ⟨g1, g2, g3, g4⟩ := hb hmeth hp hq
      simp only [stdClassLossR, List.mem_cons, List.not_mem_nil, or_false] at hm
      rcases hm with rfl | rfl | rfl | rfl
      · obtain ⟨l, e, s⟩ := C120_log g1 (hzero g4)
        exact ⟨l, e, by rw [s.1, g3]⟩
      · obtain ⟨l, e, s⟩ := C120_brier hL hE g1 (hzero g4) (by rw [g2]; exact hn) true
        exact ⟨l, e, by rw [s.1, g3]⟩
      · obtain ⟨-, l, e, s⟩ := C120_sphere hL hE g1 (hprop g4).1 (hprop g4).2 true
        exact ⟨l, e, by rw [s.1, g3]⟩
      · obtain ⟨l, e, s⟩ := C120_zero_one (L := L) (dotR := dotR) g1 fun r hr => atMostZero_logProbs (hzero g4 r hr)
        exact ⟨l, e, by rw [s.1, g3]⟩)
  rw [hnames] at h3
  refine ⟨tbl, h1, h2, h3, h4, fun method hmeth => ?_⟩
  -- numbers from a relation for each sample
  have hnums : ∀ {q : Mat ℝ} {l : List (Flt ℝ)} {P : ℝ → Prop}, ClassInput y q → q.rows.length = t.nrows →
      PerSample (fun _ _ v => ∃ x : ℝ, v = .fin x ∧ P x) y q l → ∃ xs : List ℝ, l = finVec xs ∧ xs.length = t.nrows ∧ ∀ x ∈ xs, P x := by
    intro q l P hq hql hs
    have hmem : ∀ v ∈ l, ∃ x : ℝ, v = .fin x ∧ P x := by
      intro v hv
      obtain ⟨i, hi, rfl⟩ := List.mem_iff_getElem.1 hv
      have hi1 : i < q.rows.length := by rw [← hs.1]; exact hi
      have hi2 : i < y.vals.length := by rw [hq.length]; exact hi1
      obtain ⟨k, hk⟩ := Int.eq_ofNat_of_zero_le (hq.range _ (List.getElem_mem hi2)).1
      obtain ⟨w, e1, e2⟩ := hs.2 i k _ (List.getElem?_eq_getElem hi1) (by rw [List.getElem?_eq_getElem hi2, hk])
      rw [List.getElem?_eq_getElem hi, Option.some.injEq] at e1
      rw [e1]; exact e2
    have hl := hs.1.trans hql
    clear hs
    generalize t.nrows = n at hl
    induction l generalizing n with
    | nil => exact ⟨[], rfl, hl, by simp⟩
    | cons v l ih =>
      obtain ⟨x, rfl, hx⟩ := hmem v (by simp)
      obtain ⟨xs, rfl, e2, e3⟩ := ih (fun v hv => hmem v (by simp [hv])) (n - 1) (by simp at hl; omega)
      exact ⟨x :: xs, rfl, by simp at hl ⊢; omega, by simpa using ⟨hx, e3⟩⟩
  obtain ⟨p1, q1, l1, a1, b1, c1, d1, f1⟩ := h7 ("NLL".toList, logLoss) (by simp [stdClassLossR]) method hmeth
  obtain ⟨p2, q2, l2, a2, b2, c2, d2, f2⟩ := h7 ("Brier".toList, brierLossR L true) (by simp [stdClassLossR]) method hmeth
  obtain ⟨p3, q3, l3, a3, b3, c3, d3, f3⟩ := h7 ("sphere".toList, sphericalLossR L true) (by simp [stdClassLossR]) method hmeth
  obtain ⟨p4, q4, l4, a4, b4, c4, d4, f4⟩ := h7 ("zero_one".toList, hardLossR L dotR none) (by simp [stdClassLossR]) method hmeth
  -- Brier
  obtain ⟨g1, g2, g3, g4⟩ := hb hmeth a2 b2
  obtain ⟨l, e, s⟩ := C120_brier hL hE g1 (hzero g4) (by rw [g2]; exact hn) true
  simp only at c2
  rw [c2, Except.ok.injEq] at e
  subst e
  obtain ⟨brier, rfl, lb, rb⟩ := hnums g1 g3 s
  -- spherical
  obtain ⟨g1, g2', g3, g4⟩ := hb hmeth a3 b3
  obtain ⟨-, l, e, s⟩ := C120_sphere hL hE g1 (hprop g4).1 (hprop g4).2 true
  simp only at c3
  rw [c3, Except.ok.injEq] at e
  subst e
  obtain ⟨sphere, rfl, ls, rs⟩ := hnums g1 g3 s
  -- zero-one
  obtain ⟨g1, -, g3, g4⟩ := hb hmeth a4 b4
  obtain ⟨l, e, s⟩ := C120_zero_one (L := L) (dotR := dotR) g1 fun r hr => atMostZero_logProbs (hzero g4 r hr)
  simp only at c4
  rw [c4, Except.ok.injEq] at e
  subst e
  obtain ⟨zo, rfl, lz, rz⟩ := hnums (P := fun x => x = 0 ∨ x = 1) g1 g3 (perSample_mono s (by
    rintro r _ k v ⟨a, -, rfl⟩
    refine ⟨_, rfl, ?_⟩
    split_ifs <;> simp))
  -- log
  obtain ⟨g1, -, g3, g4⟩ := hb hmeth a1 b1
  obtain ⟨l, e, s⟩ := C120_log g1 (hzero g4)
  simp only at c1
  rw [c1, Except.ok.injEq] at e
  subst e
  refine ⟨l1, brier, sphere, zo, f1, f2, f3, f4, d1, lb, ls, lz, ?_, ?_, ?_, ?_, rz⟩
  · intro v hv
    obtain ⟨i, hi, rfl⟩ := List.mem_iff_getElem.1 hv
    have hi1 : i < q1.rows.length := by rw [← s.1]; exact hi
    have hi2 : i < y.vals.length := by rw [g1.length]; exact hi1
    obtain ⟨k, hk⟩ := Int.eq_ofNat_of_zero_le (g1.range _ (List.getElem_mem hi2)).1
    obtain ⟨w, e1, e2⟩ := s.2 i k _ (List.getElem?_eq_getElem hi1) (by rw [List.getElem?_eq_getElem hi2, hk])
    rw [List.getElem?_eq_getElem hi, Option.some.injEq] at e1
    rw [e1]
    rcases e2 with ⟨-, e2⟩ | ⟨x, -, e2, e3⟩
    · exact .inl e2
    · exact .inr ⟨-x, e2, e3⟩
  · intro p hp i k r hr hk
    obtain rfl := isMatrix_unique rfl rfl (fun k col => Iff.rfl) a1 hp
    have hi := (List.getElem?_eq_some_iff.1 hr).1
    have hi1 : i < q1.rows.length := by rw [← g4.length_eq]; exact hi
    have hz := (List.forall₂_iff_get.1 g4).2 i hi hi1
    simp only [List.get_eq_getElem] at hz
    rw [(List.getElem?_eq_some_iff.1 hr).2] at hz
    obtain ⟨w, e1, e2⟩ := s.2 i k _ (List.getElem?_eq_getElem hi1) hk
    rw [e1, ← hz.2.2.2 k, Option.some.injEq]
    rcases e2 with ⟨e2, e3⟩ | ⟨x, e2, e3, e4⟩
    · rw [e2, e3]; simp
    · rw [e2, e3]; simp
  · intro x hx
    have := rb x hx
    rw [g2] at this
    unfold brierTop
    refine ⟨this.1, this.2.trans (le_of_eq ?_)⟩
    simp
  · intro x hx
    have := rs x hx
    rw [g2'] at this
    simpa using this

end Mlp.Props
