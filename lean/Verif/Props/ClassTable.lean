import Verif.Lemmas.Frames

/-! # Properties C78 and C79: `loss_table` -/

namespace Mlp.Props
open Mlp.Util Mlp.Spec Mlp.Classif Mlp.Lemmas Mlp.Frame

theorem forall₂_mem {α β : Type} {R : α → β → Prop} {l : List α} {l' : List β} (h : List.Forall₂ R l l') {a : α}
    (ha : a ∈ l) : ∃ b, (a, b) ∈ List.zip l l' ∧ R a b := by
  induction h with
  | nil => simp at ha
  | cons hab _ ih =>
    rcases List.mem_cons.1 ha with rfl | ha
    · exact ⟨_, by simp, hab⟩
    · obtain ⟨b, h1, h2⟩ := ih ha
      exact ⟨b, by simp [h1], h2⟩

theorem mem_zipWith_of {α β γ : Type} {f : α → β → γ} {l : List α} {l' : List β} {a : α} {b : β}
    (h : (a, b) ∈ List.zip l l') : f a b ∈ List.zipWith f l l' := by
  rw [← List.map_uncurry_zip_eq_zipWith]
  exact List.mem_map.2 ⟨_, h, rfl⟩

theorem inner_keys {μ : Type} {metrics : List (Str × μ)} {ls : List (List (Flt ℝ))} (h : metrics.length = ls.length)
    (method : Str) :
    ((List.zipWith (fun (m : Str × μ) l => [((m.1, method), l)]) metrics ls).flatten).map (·.1) =
      metrics.map fun m => (m.1, method) := by
  induction metrics generalizing ls with
  | nil => rfl
  | cons m metrics ih =>
    cases ls with
    | nil => simp at h
    | cons l ls =>
      rw [List.zipWith_cons_cons, List.flatten_cons, List.map_append, ih (by simpa using h)]
      rfl

theorem outer_keys {μ : Type} {metrics : List (Str × μ)} {methods : List Str} {lss : List (List (List (Flt ℝ)))}
    (h : List.Forall₂ (fun (_ : Str) ls => metrics.length = ls.length) methods lss) :
    ((List.zipWith (fun method ls =>
      (List.zipWith (fun (m : Str × μ) l => [((m.1, method), l)]) metrics ls).flatten) methods lss).flatten).map (·.1) =
      methods.flatMap fun method => metrics.map fun m => (m.1, method) := by
  induction h with
  | nil => rfl
  | cons h _ ih =>
    rw [List.zipWith_cons_cons, List.flatten_cons, List.map_append, ih, inner_keys h, List.flatMap_cons]

theorem swapped_nodup {μ : Type} {metrics : List (Str × μ)} {methods : List Str} (h1 : (metrics.map fun m => m.1).Nodup)
    (h2 : methods.Nodup) : (methods.flatMap fun method => metrics.map fun m => (m.1, method)).Nodup := by
  rw [List.nodup_flatMap]
  constructor
  · intro method _
    have e : (metrics.map fun m => (m.1, method)) = (metrics.map fun m => m.1).map fun s => (s, method) := by
      rw [List.map_map]; rfl
    rw [e]
    exact h1.map fun a b h => (Prod.mk.injEq _ _ _ _ ▸ h).1
  · refine h2.imp fun {a b} hab => ?_
    intro x hx hy
    obtain ⟨_, _, rfl⟩ := List.mem_map.1 hx
    obtain ⟨_, _, e⟩ := List.mem_map.1 hy
    exact hab (Prod.mk.injEq _ _ _ _ ▸ e).2.symm

/-- The column of a metric and a method, with the predictions as the code computes them. -/
theorem lossTable_column {t : PredTable ℝ} {y : LabelVec} {metrics : List (Str × Metric)} {assume : Bool}
    {tbl : Paper.LossTable} (hk : (metrics.map fun m => m.1).Nodup) (hM : t.methods.Nodup)
    (h : lossTable t y metrics assume = .ok tbl) {m : Str × Metric} (hm : m ∈ metrics) {method : Str}
    (hmeth : method ∈ t.methods) :
    ∃ p q L, t.matrix method = .ok p ∧ anyNaN p = false ∧ prepared assume p = .ok q ∧ m.2 y q = .ok L ∧
      L.length = t.nrows ∧ HasLoss tbl m.1 method L := by
  obtain ⟨-, -, lss, h3, rfl⟩ := (lossTable_ok_iff t y metrics assume tbl).1 h
  obtain ⟨ls, hz, p, q, hp, hn, hq, h4⟩ := forall₂_mem h3 hmeth
  obtain ⟨l, hz', hl, hlen⟩ := forall₂_mem h4 hm
  refine ⟨p, q, l, hp, hn, hq, hl, hlen, ?_⟩
  apply hasCol_of_mem (κ := Str × Str)
  · rw [puts_keys, emptyCols_keys]
    exact product_nodup hk hM
  · apply mem_puts
    · rw [outer_keys]
      · exact swapped_nodup hk hM
      · exact h3.imp fun _ _ ⟨_, _, _, _, _, h⟩ => h.length_eq
    · rw [List.mem_flatten]
      refine ⟨_, mem_zipWith_of hz, ?_⟩
      rw [List.mem_flatten]
      exact ⟨_, mem_zipWith_of hz', by simp⟩
    · rw [emptyCols_keys, product_mem]
      exact ⟨List.mem_map_of_mem hm, hmeth⟩

theorem prepared_spec {assume : Bool} {p q : Mat ℝ} (h : prepared assume p = .ok q) :
    (assume = true → q = p) ∧ (assume = false → NormalisedRows p q) := by
  unfold prepared at h
  cases assume
  · refine ⟨by simp, fun _ => ?_⟩
    simp only [Bool.false_eq_true, if_false] at h
    unfold normalizeRows at h
    rw [pyAssert_bind] at h
    split at h
    · rename_i hc
      cases h
      refine ⟨rfl, ?_⟩
      rw [List.forall₂_map_right_iff]
      refine List.forall₂_same.2 fun r _ hr => ?_
      rw [normalize_row hr]
      refine ⟨⟨(proper_shift hr _).1, ?_⟩, _, rfl⟩
      rw [sum_shift hr.1, Real.exp_neg, Real.exp_log (proper_sum_pos hr), mul_inv_cancel₀ (proper_sum_pos hr).ne']
    · cases h
  · simp only [if_true, pure_eq_ok, Except.ok.injEq] at h
    exact ⟨fun _ => h.symm, by simp⟩

theorem sortLevel_perm (l : List Str) : (sortLevel l).Perm l := List.perm_insertionSort _ l

theorem sortLevel_sorted (l : List Str) : (sortLevel l).Pairwise (· ≤ ·) := List.pairwise_insertionSort _ l

/-- **C79, columns.**  The table that `loss_table` returns has a column for every metric and method and no other
columns.  The column is the loss function applied to the labels and to the predictions of that method, normalised
unless this is declined; the column has an entry for each row. -/
theorem C79_columns {t : PredTable ℝ} {y : LabelVec} {metrics : List (Str × Metric)} {assume : Bool}
    {tbl : Paper.LossTable} (hk : (metrics.map fun m => m.1).Nodup) (hM : t.methods.Nodup)
    (h : lossTable t y metrics assume = .ok tbl) :
    tbl.nrows = t.nrows ∧
    (tbl.metrics.Perm (metrics.map fun m => m.1) ∧ tbl.metrics.Pairwise (· ≤ ·)) ∧
    (tbl.methods.Perm t.methods ∧ tbl.methods.Pairwise (· ≤ ·)) ∧
    (tbl.cols.map (·.1)).Nodup ∧
    (∀ c ∈ tbl.cols, c.1.1 ∈ tbl.metrics ∧ c.1.2 ∈ tbl.methods) ∧ Complete tbl ∧
    ∀ m ∈ metrics, ∀ method ∈ t.methods, ∃ p q L, IsMatrix t method p ∧ (∀ r ∈ p.rows, Flt.nan ∉ r) ∧
      (assume = true → q = p) ∧ (assume = false → NormalisedRows p q) ∧
      m.2 y q = .ok L ∧ L.length = t.nrows ∧ HasLoss tbl m.1 method L := by
  have hcol := fun {m} hm {method} hmeth =>
    lossTable_column (m := m) (method := method) hk hM h hm hmeth
  have hpm := sortLevel_perm (metrics.map fun m => m.1)
  have hpM := sortLevel_perm t.methods
  have h' := h
  obtain ⟨-, -, lss, h3, rfl⟩ := (lossTable_ok_iff t y metrics assume tbl).1 h
  have hkeys : (puts (emptyCols (K := ℝ) t.nrows (product (metrics.map fun m => m.1) t.methods))
      (List.zipWith (fun method ls => (List.zipWith (fun (m : Str × Metric) l => [((m.1, method), l)]) metrics
        ls).flatten) t.methods lss).flatten).map (·.1) = product (metrics.map fun m => m.1) t.methods := by
    rw [puts_keys, emptyCols_keys]
  refine ⟨rfl, ⟨hpm, sortLevel_sorted _⟩, ⟨hpM, sortLevel_sorted _⟩, ?_, ?_, ?_, ?_⟩
  · simp only [hkeys]; exact product_nodup hk hM
  · intro c hc
    have : c.1 ∈ product (metrics.map fun m => m.1) t.methods := by
      rw [← hkeys]; exact List.mem_map_of_mem hc
    obtain ⟨h1, h2⟩ := product_mem.1 this
    exact ⟨hpm.mem_iff.2 h1, hpM.mem_iff.2 h2⟩
  · intro metric hmet method hmeth
    obtain ⟨m, hm, rfl⟩ := List.mem_map.1 (hpm.mem_iff.1 hmet)
    obtain ⟨p, q, L, -, -, -, -, h5, h6⟩ := hcol hm (hpM.mem_iff.1 hmeth)
    exact ⟨L, h6, h5⟩
  · intro m hm method hmeth
    obtain ⟨p, q, L, hp, hn, hq, hl, hlen, hL⟩ := hcol hm hmeth
    obtain ⟨⟨ho, -⟩, rfl⟩ := (matrix_ok_iff t method p).1 hp
    obtain ⟨g1, g2⟩ := prepared_spec hq
    refine ⟨_, q, L, isMatrix_of ho, ?_, g1, g2, hl, hlen, hL⟩
    intro r hr hnan
    have := (anyNaN_iff _).2 ⟨r, hr, hnan⟩
    rw [hn] at this
    cases this

/-- The matrix of a method is determined by the columns of the method. -/
theorem isMatrix_unique {K : Type} {t t' : PredTable K} {method : Str} {p p' : Mat K} (hl : t'.labels.length = t.labels.length)
    (hr : t'.nrows = t.nrows)
    (hc : ∀ (k : Nat) col, HasCol t.cols (method, (k : Int)) col ↔ HasCol t'.cols (method, (k : Int)) col)
    (h : IsMatrix t method p) (h' : IsMatrix t' method p') : p' = p := by
  have e1 : p'.ncols = p.ncols := by rw [h.1, h'.1, hl]
  have e2 : p'.rows = p.rows := by
    apply List.ext_getElem (by rw [h.2.1, h'.2.1, hr])
    intro i hi hi'
    have l1 := h.2.2.1 _ (List.getElem_mem hi')
    have l2 := h'.2.2.1 _ (List.getElem_mem hi)
    apply List.ext_getElem?
    intro k
    by_cases hk : k < t.labels.length
    · obtain ⟨col, g1, g2⟩ := h.2.2.2 k hk
      obtain ⟨col', g1', g2'⟩ := h'.2.2.2 k (hl ▸ hk)
      have := hasCol_unique ((hc k col).1 g1) g1'
      subst this
      rw [g2 i _ (List.getElem?_eq_getElem hi'), g2' i _ (List.getElem?_eq_getElem hi)]
    · rw [List.getElem?_eq_none (by rw [l2, h'.1]; omega), List.getElem?_eq_none (by rw [l1, h.1]; omega)]
  cases p; cases p'
  simp only at e1 e2
  rw [e1, e2]

/-- **C79, no mixing.**  Tables that agree on the columns of a method give the same losses for that method,
whatever the other methods predict. -/
theorem C79_local {t t' : PredTable ℝ} {y : LabelVec} {metrics metrics' : List (Str × Metric)} {assume : Bool}
    {tbl tbl' : Paper.LossTable} (hk : (metrics.map fun m => m.1).Nodup) (hM : t.methods.Nodup)
    (hk' : (metrics'.map fun m => m.1).Nodup) (hM' : t'.methods.Nodup)
    (h : lossTable t y metrics assume = .ok tbl) (h' : lossTable t' y metrics' assume = .ok tbl')
    (hl : t'.labels.length = t.labels.length) {m : Str × Metric} (hm : m ∈ metrics) (hm' : m ∈ metrics') {method : Str}
    (hmeth : method ∈ t.methods) (hmeth' : method ∈ t'.methods)
    (hc : ∀ (k : Nat) col, HasCol t.cols (method, (k : Int)) col ↔ HasCol t'.cols (method, (k : Int)) col) :
    ∃ L, HasLoss tbl m.1 method L ∧ HasLoss tbl' m.1 method L := by
  obtain ⟨p, q, L, hp, -, hq, hL, -, hc1⟩ := lossTable_column hk hM h hm hmeth
  obtain ⟨p', q', L', hp', -, hq', hL', -, hc2⟩ := lossTable_column hk' hM' h' hm' hmeth'
  obtain ⟨⟨ho, -⟩, rfl⟩ := (matrix_ok_iff t method p).1 hp
  obtain ⟨⟨ho', -⟩, rfl⟩ := (matrix_ok_iff t' method p').1 hp'
  have hr : t'.nrows = t.nrows := by
    rw [← ((lossTable_ok_iff _ _ _ _ _).1 h).1, ← ((lossTable_ok_iff _ _ _ _ _).1 h').1]
  have := isMatrix_unique hl hr hc (isMatrix_of ho) (isMatrix_of ho')
  rw [this, hq, Except.ok.injEq] at hq'
  rw [← hq', hL, Except.ok.injEq] at hL'
  subst hL'
  exact ⟨_, hc1, hc2⟩

/-- A table that `loss_table` accepts: some rows, labels and methods, and the columns of every method in order,
without NaN. -/
structure GoodTable (t : PredTable ℝ) : Prop where
  rows : 1 ≤ t.nrows
  labels : 1 ≤ t.labels.length
  methods : t.methods ≠ []
  order : ∀ method ∈ t.methods, InOrder t method
  lengths : ∀ c ∈ t.cols, c.2.length = t.nrows
  noNaN : ∀ c ∈ t.cols, Flt.nan ∉ c.2

theorem matrixOf_mem {K : Type} {t : PredTable K} {method : Str} (hl : ∀ c ∈ t.cols, c.2.length = t.nrows) {r : List (Flt K)}
    (hr : r ∈ (matrixOf t method).rows) {v : Flt K} (hv : v ∈ r) : ∃ c ∈ t.cols, c.1.1 = method ∧ v ∈ c.2 := by
  unfold matrixOf values at hr
  obtain ⟨i, hi, rfl⟩ := List.mem_map.1 hr
  obtain ⟨d, hd, rfl⟩ := List.mem_map.1 hv
  obtain ⟨c, hc, rfl⟩ := List.mem_map.1 hd
  have hc' := List.mem_filter.1 hc
  refine ⟨c, hc'.1, by simpa using hc'.2, ?_⟩
  have : i < c.2.length := by rw [hl c hc'.1]; exact List.mem_range.1 hi
  simp only
  rw [getD_eq _ _ this]
  exact List.getElem_mem this

theorem prepared_ok {t : PredTable ℝ} {method : Str} (hn : 1 ≤ t.labels.length) (ho : InOrder t method) (assume : Bool) :
    ∃ q, prepared assume (matrixOf t method) = .ok q := by
  unfold prepared
  cases assume
  · simp only [Bool.false_eq_true, if_false]
    unfold normalizeRows
    have : (matrixOf t method).ncols = t.labels.length := (isMatrix_of ho).1
    rw [pyAssert_bind, if_pos (by rw [this]; simpa using hn)]
    exact ⟨_, rfl⟩
  · exact ⟨_, rfl⟩

theorem lossMethod_total' {t : PredTable ℝ} {y : LabelVec} {metrics : List (Str × Metric)} (assume : Bool) {method : Str}
    (hn : 1 ≤ t.labels.length) (ho : InOrder t method)
    (hnan : ∀ r ∈ (matrixOf t method).rows, Flt.nan ∉ r)
    (hf : ∀ m ∈ metrics, ∀ q : Mat ℝ, prepared assume (matrixOf t method) = .ok q →
      ∃ l, m.2 y q = .ok l ∧ l.length = t.nrows) (s : Cols (Str × Str) ℝ) :
    ∃ s', lossMethod t y metrics assume s method = .ok s' := by
  obtain ⟨q, hq⟩ := prepared_ok hn ho assume
  have : ∃ ls, List.Forall₂ (fun (m : Str × Metric) l => m.2 y q = .ok l ∧ l.length = t.nrows) metrics ls := by
    revert hf
    induction metrics with
    | nil => intro _; exact ⟨[], .nil⟩
    | cons m metrics ih =>
      intro hf
      obtain ⟨l, hl⟩ := hf m (by simp) q hq
      obtain ⟨ls, hls⟩ := ih fun m hm => hf m (by simp [hm])
      exact ⟨l :: ls, .cons hl hls⟩
  obtain ⟨ls, hls⟩ := this
  refine ⟨_, (lossMethod_ok_iff t y metrics assume s method _).2 ⟨ls, ⟨_, q, (matrix_ok_iff _ _ _).2
    ⟨⟨ho, inOrder_ne_nil ho hn⟩, rfl⟩, ?_, hq, hls⟩, rfl⟩⟩
  rw [Bool.eq_false_iff]
  intro h
  obtain ⟨r, hr, hv⟩ := (anyNaN_iff _).1 h
  exact hnan r hr hv

theorem prepared_shape {t : PredTable ℝ} {method : Str} (ho : InOrder t method) {assume : Bool} {q : Mat ℝ}
    (hq : prepared assume (matrixOf t method) = .ok q) :
    q.ncols = t.labels.length ∧ q.rows.length = t.nrows ∧ ∀ r ∈ q.rows, r.length = q.ncols := by
  have hM := isMatrix_of ho
  unfold prepared at hq
  cases assume
  · simp only [Bool.false_eq_true, if_false] at hq
    unfold normalizeRows at hq
    rw [pyAssert_bind] at hq
    split at hq
    · cases hq
      refine ⟨hM.1, by rw [List.length_map]; exact hM.2.1, ?_⟩
      intro r hr
      obtain ⟨r', hr', rfl⟩ := List.mem_map.1 hr
      rw [List.length_map]; exact hM.2.2.1 r' hr'
    · cases hq
  · cases hq; exact ⟨hM.1, hM.2.1, hM.2.2.1⟩

theorem lossMethod_total {t : PredTable ℝ} {y : LabelVec} {metrics : List (Str × Metric)} (assume : Bool) {method : Str}
    (hn : 1 ≤ t.labels.length) (ho : InOrder t method)
    (hnan : ∀ r ∈ (matrixOf t method).rows, Flt.nan ∉ r)
    (hf : ∀ m ∈ metrics, ∀ q : Mat ℝ, q.ncols = t.labels.length → q.rows.length = t.nrows →
      (∀ r ∈ q.rows, r.length = q.ncols) → ∃ l, m.2 y q = .ok l ∧ l.length = t.nrows) (s : Cols (Str × Str) ℝ) :
    ∃ s', lossMethod t y metrics assume s method = .ok s' :=
  lossMethod_total' assume hn ho hnan (fun m hm q hq =>
    hf m hm q (prepared_shape ho hq).1 (prepared_shape ho hq).2.1 (prepared_shape ho hq).2.2) s

/-- **C79, success.**  `loss_table` succeeds on a well-formed table without NaN if the loss functions succeed on the
(normalised) predictions of the methods. -/
theorem C79_success_on {t : PredTable ℝ} (ht : GoodTable t) {y : LabelVec} (hy : y.vals.length = t.nrows)
    {metrics : List (Str × Metric)} (assume : Bool)
    (hf : ∀ m ∈ metrics, ∀ method ∈ t.methods, ∀ p q : Mat ℝ, IsMatrix t method p →
      (assume = true → q = p) → (assume = false → NormalisedRows p q) →
      (∀ r ∈ q.rows, r.length = q.ncols) → ∃ l, m.2 y q = .ok l ∧ l.length = t.nrows) :
    ∃ tbl, lossTable t y metrics assume = .ok tbl := by
  have key : ∀ (l : List Str) (s : Cols (Str × Str) ℝ), (∀ m ∈ l, m ∈ t.methods) →
      ∃ s', l.foldlM (lossMethod t y metrics assume) s = .ok s' := by
    intro l
    induction l with
    | nil => intro s _; exact ⟨s, rfl⟩
    | cons a l ih =>
      intro s hl
      obtain ⟨s', hs'⟩ := lossMethod_total' (metrics := metrics) (y := y) assume ht.labels
        (ht.order a (hl a (by simp))) (fun r hr hv => by
          obtain ⟨c, hc, -, hv'⟩ := matrixOf_mem ht.lengths hr hv
          exact ht.noNaN c hc hv') (fun m hm q hq => hf m hm a (hl a (by simp)) _ q
            (isMatrix_of (ht.order a (hl a (by simp)))) (prepared_spec hq).1 (prepared_spec hq).2
            (prepared_shape (ht.order a (hl a (by simp))) hq).2.2) s
      obtain ⟨s'', h⟩ := ih s' fun m hm => hl m (by simp [hm])
      exact ⟨s'', by rw [List.foldlM_cons, hs', ok_bind, h]⟩
  obtain ⟨s', hs'⟩ := key t.methods (emptyCols t.nrows (product (metrics.map fun m => m.1) t.methods)) fun _ h => h
  refine ⟨⟨sortLevel (metrics.map fun m => m.1), sortLevel t.methods, t.nrows, s'⟩, ?_⟩
  unfold lossTable
  rw [pyAssert_bind, if_pos (decide_eq_true hy), pyAssert_bind, if_pos]
  · simp only []
    rw [hs', ok_bind]; rfl
  · simp only [Bool.and_eq_true, decide_eq_true_eq]
    exact ⟨⟨ht.rows, ht.labels⟩, List.length_pos_iff.2 ht.methods⟩

/-- **C79, success.**  `loss_table` succeeds on a well-formed table without NaN if the loss functions succeed on all
inputs of the right shape. -/
theorem C79_success {t : PredTable ℝ} (ht : GoodTable t) {y : LabelVec} (hy : y.vals.length = t.nrows)
    {metrics : List (Str × Metric)} (assume : Bool)
    (hf : ∀ m ∈ metrics, ∀ q : Mat ℝ, q.ncols = t.labels.length → q.rows.length = t.nrows →
      (∀ r ∈ q.rows, r.length = q.ncols) → ∃ l, m.2 y q = .ok l ∧ l.length = t.nrows) :
    ∃ tbl, lossTable t y metrics assume = .ok tbl := by
  have key : ∀ (l : List Str) (s : Cols (Str × Str) ℝ), (∀ m ∈ l, m ∈ t.methods) →
      ∃ s', l.foldlM (lossMethod t y metrics assume) s = .ok s' := by
    intro l
    induction l with
    | nil => intro s _; exact ⟨s, rfl⟩
    | cons a l ih =>
      intro s hl
      obtain ⟨s', hs'⟩ := lossMethod_total (metrics := metrics) (y := y) assume ht.labels
        (ht.order a (hl a (by simp))) (fun r hr hv => by
          obtain ⟨c, hc, -, hv'⟩ := matrixOf_mem ht.lengths hr hv
          exact ht.noNaN c hc hv') hf s
      obtain ⟨s'', h⟩ := ih s' fun m hm => hl m (by simp [hm])
      exact ⟨s'', by rw [List.foldlM_cons, hs', ok_bind, h]⟩
  obtain ⟨s', hs'⟩ := key t.methods (emptyCols t.nrows (product (metrics.map fun m => m.1) t.methods)) fun _ h => h
  refine ⟨⟨sortLevel (metrics.map fun m => m.1), sortLevel t.methods, t.nrows, s'⟩, ?_⟩
  unfold lossTable
  rw [pyAssert_bind, if_pos (decide_eq_true hy), pyAssert_bind, if_pos]
  · simp only []
    rw [hs', ok_bind]; rfl
  · simp only [Bool.and_eq_true, decide_eq_true_eq]
    exact ⟨⟨ht.rows, ht.labels⟩, List.length_pos_iff.2 ht.methods⟩

/-- **C79, invalid.**  A wrong number of labels, or an empty table, raises AssertionError. -/
theorem C79_reject {t : PredTable ℝ} {y : LabelVec} (metrics : List (Str × Metric)) (assume : Bool)
    (h : y.vals.length ≠ t.nrows ∨ t.nrows = 0 ∨ t.labels = [] ∨ t.methods = []) :
    lossTable t y metrics assume = .error .assertion := by
  unfold lossTable
  rw [pyAssert_bind]
  split
  · rename_i h1
    rw [pyAssert_bind, if_neg]
    simp only [Bool.and_eq_true, decide_eq_true_eq] at h1 ⊢
    rintro ⟨⟨h2, h3⟩, h4⟩
    rcases h with h | h | h | h
    · exact h h1
    · omega
    · simp [h] at h3
    · simp [h] at h4
  · rfl

/-! ## C78 -/

/-- Normalisation does not see a shift of the row. -/
theorem normalize_shift {r : List (Flt ℝ)} (hn : Flt.nan ∉ r) (c : ℝ) :
    ((shiftRow c r).map fun v => v.sub (logsumexp (shiftRow c r))) = r.map fun v => v.sub (logsumexp r) := by
  by_cases hp : Flt.pinf ∈ r
  · have hp' : Flt.pinf ∈ shiftRow c r := List.mem_map.2 ⟨_, hp, rfl⟩
    have hn' : Flt.nan ∉ shiftRow c r := by
      intro h
      obtain ⟨v, hv, e⟩ := List.mem_map.1 h
      cases v
      · simp at e
      · simp [Flt.sub, Flt.add, Flt.neg] at e
      · simp [Flt.sub, Flt.add, Flt.neg] at e
      · exact hn hv
    have key : ∀ s : List (Flt ℝ), Flt.pinf ∈ s → Flt.nan ∉ s →
        (s.map fun v => v.sub (logsumexp s)) = s.map fun v => if v = .pinf then .nan else .ninf := by
      intro s h1 h2
      obtain ⟨q, hq, hf⟩ := C55_improper (p := ⟨1, [s]⟩) le_rfl
      unfold normalizeRows at hq
      rw [pyAssert_bind, if_pos (decide_eq_true (le_refl 1))] at hq
      cases hq
      simp only [List.map_cons, List.map_nil] at hf
      rcases hf with _ | ⟨⟨-, -, h3⟩, -⟩
      have h4 := h3 h1 h2
      generalize hm : (s.map fun v => v.sub (logsumexp s)) = w at h4
      clear hm h3 h1 h2
      induction h4 with
      | nil => rfl
      | cons h _ ih => rw [List.map_cons, ← ih, h]
    rw [key _ hp' hn', key _ hp hn]
    unfold shiftRow
    rw [List.map_map]
    refine List.map_congr_left fun v _ => ?_
    cases v <;> simp [Flt.sub, Flt.add, Flt.neg]
  · have hok : ∀ v ∈ r, v ≠ .nan ∧ v ≠ .pinf := fun v hv =>
      ⟨fun e => hn (e ▸ hv), fun e => hp (e ▸ hv)⟩
    by_cases hfin : ∃ x : ℝ, .fin x ∈ r
    · have hr : Proper r := ⟨hok, hfin⟩
      have := C55_shift_invariant (p := ⟨1, [r]⟩) (p' := ⟨1, [shiftRow c r]⟩) rfl
        (by intro s hs; simp only [List.mem_cons, List.not_mem_nil, or_false] at hs; rw [hs]; exact hr)
        (.cons ⟨c, rfl⟩ .nil)
      unfold normalizeRows at this
      rw [pyAssert_bind, pyAssert_bind, if_pos (decide_eq_true (le_refl 1)), if_pos (decide_eq_true (le_refl 1))] at this
      simp only [pure_eq_ok, Except.ok.injEq, Mat.mk.injEq, List.map_cons, List.map_nil, List.cons.injEq, and_true,
        true_and] at this
      exact this.symm
    · have hall : ∀ v ∈ r, v = .ninf := by
        intro v hv
        have := hok v hv
        cases v with
        | fin x => exact absurd ⟨x, hv⟩ hfin
        | ninf => rfl
        | pinf => simp at this
        | nan => simp at this
      have : shiftRow c r = r := by
        unfold shiftRow
        conv_rhs => rw [← List.map_id r]
        exact List.map_congr_left fun v hv => by rw [hall v hv]; rfl
      rw [this]

theorem shift_labels (c : Str → Nat → ℝ) (t : PredTable ℝ) (method : Str) :
    labelsOf (shiftTable c t) method = labelsOf t method := by
  unfold labelsOf shiftTable
  simp only
  rw [List.filterMap_map]
  rfl

theorem shift_matrix (c : Str → Nat → ℝ) (t : PredTable ℝ) (method : Str) :
    (matrixOf (shiftTable c t) method).ncols = (matrixOf t method).ncols ∧
    (matrixOf (shiftTable c t) method).rows = (matrixOf t method).rows.mapIdx fun i r => shiftRow (c method i) r := by
  have e : (shiftTable c t).cols.filter (fun col => decide (col.1.1 = method)) =
      (t.cols.filter fun col => decide (col.1.1 = method)).map
        fun col => (col.1, col.2.mapIdx fun i v => v.sub (.fin (c method i))) := by
    unfold shiftTable
    simp only
    rw [List.filter_map]
    refine List.map_congr_left fun col hc => ?_
    have : col.1.1 = method := by simpa using (List.mem_filter.1 hc).2
    rw [this]
  unfold matrixOf values
  rw [e]
  refine ⟨by simp, ?_⟩
  have hr : (shiftTable c t).nrows = t.nrows := rfl
  rw [hr]
  apply List.ext_getElem (by simp)
  intro i h1 h2
  simp only [List.getElem_map, List.getElem_range, List.getElem_mapIdx, List.map_map]
  unfold shiftRow
  rw [List.map_map]
  refine List.map_congr_left fun col _ => ?_
  simp only [Function.comp]
  rw [List.getD_eq_getElem?_getD, List.getD_eq_getElem?_getD, List.getElem?_mapIdx]
  cases col.2[i]? with
  | none => rfl
  | some v => rfl

theorem nan_shift (c : ℝ) (r : List (Flt ℝ)) : Flt.nan ∈ shiftRow c r ↔ Flt.nan ∈ r := by
  unfold shiftRow
  rw [List.mem_map]
  constructor
  · rintro ⟨v, hv, e⟩
    cases v
    · simp at e
    · simp [Flt.sub, Flt.add, Flt.neg] at e
    · simp [Flt.sub, Flt.add, Flt.neg] at e
    · exact hv
  · intro h; exact ⟨_, h, rfl⟩

/-- **C78, no cheating by normalisation.**  Adding any constants to the rows of predictions of any methods does
not change the loss table, or the exception, unless `assume_normalized` is set. -/
theorem C78_shift (c : Str → Nat → ℝ) (t : PredTable ℝ) (y : LabelVec) (metrics : List (Str × Metric)) :
    lossTable (shiftTable c t) y metrics false = lossTable t y metrics false := by
  have hstep : ∀ s method, lossMethod (shiftTable c t) y metrics false s method = lossMethod t y metrics false s method := by
    intro s method
    have hord : InOrder (shiftTable c t) method ↔ InOrder t method := by
      unfold InOrder; rw [shift_labels]; rfl
    by_cases ho : InOrder t method ∧ labelsOf t method ≠ []
    · have ho' : InOrder (shiftTable c t) method ∧ labelsOf (shiftTable c t) method ≠ [] :=
        ⟨hord.2 ho.1, by rw [shift_labels]; exact ho.2⟩
      obtain ⟨m1, m2⟩ := shift_matrix c t method
      unfold lossMethod
      rw [(matrix_ok_iff t method _).2 ⟨ho, rfl⟩, (matrix_ok_iff _ method _).2 ⟨ho', rfl⟩, ok_bind, ok_bind]
      have hn : anyNaN (matrixOf (shiftTable c t) method) = anyNaN (matrixOf t method) := by
        rw [Bool.eq_iff_iff, anyNaN_iff, anyNaN_iff, m2]
        constructor
        · rintro ⟨r, hr, h⟩
          obtain ⟨i, hi, rfl⟩ := List.mem_mapIdx.1 hr
          exact ⟨_, List.getElem_mem hi, (nan_shift _ _).1 h⟩
        · rintro ⟨r, hr, h⟩
          obtain ⟨i, hi, rfl⟩ := List.getElem_of_mem hr
          exact ⟨_, List.mem_mapIdx.2 ⟨i, hi, rfl⟩, (nan_shift _ _).2 h⟩
      rw [hn, pyAssert_bind, pyAssert_bind]
      by_cases hnan : anyNaN (matrixOf t method) = true
      · rw [hnan]; rfl
      · have hnan' : ∀ r ∈ (matrixOf t method).rows, Flt.nan ∉ r := fun r hr h => hnan ((anyNaN_iff _).2 ⟨r, hr, h⟩)
        have hq : normalizeRows (matrixOf (shiftTable c t) method) = normalizeRows (matrixOf t method) := by
          unfold normalizeRows
          rw [m1, m2]
          congr 1
          funext _
          simp only [pure_eq_ok, Except.ok.injEq, Mat.mk.injEq, true_and]
          apply List.ext_getElem (by simp)
          intro i h1 h2
          simp only [List.getElem_map, List.getElem_mapIdx]
          exact normalize_shift (hnan' _ (List.getElem_mem _)) _
        simp only [Bool.false_eq_true, if_false]
        rw [hq]
        rfl
    · have ho' : ¬ (InOrder (shiftTable c t) method ∧ labelsOf (shiftTable c t) method ≠ []) := by
        rw [hord, shift_labels]; exact ho
      have hne : t.matrix method = (shiftTable c t).matrix method := by
        unfold PredTable.matrix PredTable.sub
        unfold InOrder at ho ho'
        rw [sub_filter] at ho ho'
        revert ho ho'
        generalize hf : (t.cols.filter fun c => decide (c.1.1 = method)) = f
        have hf' : ((shiftTable c t).cols.filter fun c => decide (c.1.1 = method)) =
            f.map fun col => (col.1, col.2.mapIdx fun i v => v.sub (.fin (c col.1.1 i))) := by
          rw [← hf]
          unfold shiftTable
          simp only
          rw [List.filter_map]
          rfl
        rw [hf']
        intro ho ho'
        cases f with
        | nil => rfl
        | cons a f =>
          simp only [List.map_cons, ok_bind, pyAssert_bind] at ho ho' ⊢
          rw [if_neg, if_neg]
          · rw [decide_eq_true_eq]
            intro e
            exact ho' ⟨e, by simp⟩
          · rw [decide_eq_true_eq]
            intro e
            exact ho ⟨e, by simp⟩
      obtain h | h := matrix_error t method ho
      all_goals
        unfold lossMethod
        rw [← hne, h]
        rfl
  unfold lossTable
  have hf : lossMethod (shiftTable c t) y metrics false = lossMethod t y metrics false := by
    funext s method
    exact hstep s method
  rw [hf]
  rfl

/-- **C78, NaN.**  A table with a NaN in the predictions of a method is never accepted. -/
theorem C78_nan {t : PredTable ℝ} {y : LabelVec} {metrics : List (Str × Metric)} {assume : Bool} {method : Str}
    (hm : method ∈ t.methods) {p : Mat ℝ} (hp : IsMatrix t method p) (hn : ∃ r ∈ p.rows, Flt.nan ∈ r) :
    ∀ tbl, lossTable t y metrics assume ≠ .ok tbl := by
  intro tbl h
  obtain ⟨-, -, lss, h3, -⟩ := (lossTable_ok_iff t y metrics assume tbl).1 h
  obtain ⟨ls, -, q, -, hq, hnan, -⟩ := forall₂_mem h3 hm
  obtain ⟨⟨ho, -⟩, rfl⟩ := (matrix_ok_iff t method q).1 hq
  rw [isMatrix_unique rfl rfl (fun k col => Iff.rfl) (isMatrix_of ho) hp] at hn
  rw [(anyNaN_iff _).2 hn] at hnan
  cases hnan

/-- **C78, NaN.**  If the table is otherwise well formed and the loss functions do not fail, then the exception is
AssertionError. -/
theorem C78_nan_assertion {t : PredTable ℝ} (h1 : 1 ≤ t.nrows) (h2 : 1 ≤ t.labels.length)
    (ho : ∀ method ∈ t.methods, InOrder t method) {y : LabelVec} (hy : y.vals.length = t.nrows)
    {metrics : List (Str × Metric)} (assume : Bool)
    (hf : ∀ m ∈ metrics, ∀ q : Mat ℝ, q.ncols = t.labels.length → q.rows.length = t.nrows →
      (∀ r ∈ q.rows, r.length = q.ncols) → ∃ l, m.2 y q = .ok l ∧ l.length = t.nrows)
    {method : Str} (hm : method ∈ t.methods) {p : Mat ℝ} (hp : IsMatrix t method p) (hn : ∃ r ∈ p.rows, Flt.nan ∈ r) :
    lossTable t y metrics assume = .error .assertion := by
  rw [isMatrix_unique rfl rfl (fun k col => Iff.rfl) (isMatrix_of (ho method hm)) hp] at hn
  have key : ∀ (l : List Str) (s : Cols (Str × Str) ℝ), (∀ m ∈ l, m ∈ t.methods) → method ∈ l →
      l.foldlM (lossMethod t y metrics assume) s = .error .assertion := by
    intro l
    induction l with
    | nil => intro s _ h; simp at h
    | cons a l ih =>
      intro s hl hml
      have hoa := ho a (hl a (by simp))
      by_cases hnan : anyNaN (matrixOf t a) = true
      · have : lossMethod t y metrics assume s a = .error .assertion := by
          unfold lossMethod
          rw [(matrix_ok_iff t a _).2 ⟨⟨hoa, inOrder_ne_nil hoa h2⟩, rfl⟩, ok_bind, hnan]; rfl
        rw [List.foldlM_cons, this, error_bind]
      · obtain ⟨s', hs'⟩ := lossMethod_total (metrics := metrics) (y := y) assume h2 hoa
          (fun r hr hv => hnan ((anyNaN_iff _).2 ⟨r, hr, hv⟩)) hf s
        rw [List.foldlM_cons, hs', ok_bind]
        refine ih s' (fun m hm => hl m (by simp [hm])) ?_
        rcases List.mem_cons.1 hml with rfl | h
        · exact absurd ((anyNaN_iff _).2 hn) hnan
        · exact h
  unfold lossTable
  rw [pyAssert_bind, if_pos (decide_eq_true hy), pyAssert_bind, if_pos]
  · simp only []
    rw [key _ _ (fun _ h => h) hm]; rfl
  · simp only [Bool.and_eq_true, decide_eq_true_eq]
    exact ⟨⟨h1, h2⟩, List.length_pos_of_mem hm⟩

/-! ### Examples -/

/-- Two methods, two labels, two samples; the columns of the methods are interleaved. -/
noncomputable def exampleTable : PredTable ℝ :=
  ⟨["a".toList, "b".toList], [0, 1], 2,
    [(("b".toList, 0), [.fin 0, .fin 0]), (("a".toList, 0), [.fin 1, .ninf]), (("b".toList, 1), [.fin 0, .fin 2]),
      (("a".toList, 1), [.fin 3, .fin 0])]⟩

theorem exampleTable_good : GoodTable exampleTable where
  rows := by simp [exampleTable]
  labels := by simp [exampleTable]
  methods := by simp [exampleTable]
  order := by
    intro m hm
    simp only [exampleTable, List.mem_cons, List.not_mem_nil, or_false] at hm
    rcases hm with rfl | rfl <;> rfl
  lengths := by simp [exampleTable]
  noNaN := by simp [exampleTable]

theorem logLoss_total {y : LabelVec} {n k : Nat} (hn : 1 ≤ n) (hk : 1 ≤ k) (hkind : y.kind = 'b' ∨ y.kind = 'i')
    (hl : y.vals.length = n) (hy : ∀ v ∈ y.vals, 0 ≤ v ∧ v < (k : Int)) (q : Mat ℝ) (h1 : q.ncols = k)
    (h2 : q.rows.length = n) (h3 : ∀ r ∈ q.rows, r.length = q.ncols) : ∃ l, logLoss y q = .ok l ∧ l.length = n := by
  have hi : ClassInput y q := ⟨hkind, h1 ▸ hk, by
    intro e; rw [e] at h2; simp at h2; omega, by rw [hl, h2], h3, h1 ▸ hy⟩
  unfold logLoss
  rw [validate_ok hi, ok_bind, pick_ok hi, ok_bind]
  exact ⟨_, rfl, by simp [hl, h2]⟩

theorem exampleMetric : ∀ m ∈ [("NLL".toList, logLoss)], ∀ q : Mat ℝ, q.ncols = exampleTable.labels.length →
    q.rows.length = exampleTable.nrows → (∀ r ∈ q.rows, r.length = q.ncols) →
    ∃ l, (m : Str × Metric).2 ⟨'b', [1, 0]⟩ q = .ok l ∧ l.length = exampleTable.nrows := by
  intro m hm q h1 h2 h3
  simp only [List.mem_cons, List.not_mem_nil, or_false] at hm
  subst hm
  exact logLoss_total (k := 2) (by simp) (by norm_num) (Or.inl rfl) rfl (by simp) q h1 h2 h3

example : ∃ tbl, lossTable exampleTable ⟨'b', [1, 0]⟩ [("NLL".toList, logLoss)] false = .ok tbl :=
  C79_success exampleTable_good rfl false exampleMetric

example : lossTable (shiftTable (fun _ i => i) exampleTable) ⟨'b', [1, 0]⟩ stdClassLoss false =
    lossTable exampleTable ⟨'b', [1, 0]⟩ stdClassLoss false := C78_shift _ _ _ _

/-- The same table with a NaN. -/
noncomputable def exampleNaN : PredTable ℝ :=
  { exampleTable with cols := [(("b".toList, 0), [.fin 0, .fin 0]), (("a".toList, 0), [.fin 1, .ninf]),
      (("b".toList, 1), [.fin 0, .nan]), (("a".toList, 1), [.fin 3, .fin 0])] }

example : lossTable exampleNaN ⟨'b', [1, 0]⟩ [("NLL".toList, logLoss)] false = .error .assertion := by
  have ho : ∀ method ∈ exampleNaN.methods, InOrder exampleNaN method := by
    intro m hm
    simp only [exampleNaN, exampleTable, List.mem_cons, List.not_mem_nil, or_false] at hm
    rcases hm with rfl | rfl <;> rfl
  refine C78_nan_assertion (by simp [exampleNaN, exampleTable]) (by simp [exampleNaN, exampleTable]) ho rfl false
    exampleMetric (method := "b".toList) (by simp [exampleNaN, exampleTable])
    (isMatrix_of (ho _ (by simp [exampleNaN, exampleTable]))) ⟨[.fin 0, .nan], ?_, by simp⟩
  right; left

end Mlp.Props
