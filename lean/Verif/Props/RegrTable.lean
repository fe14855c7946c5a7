import Verif.Props.ClassTable
import Verif.Props.RegrLoss

/-! # Property C89: the regression `loss_table` -/

namespace Mlp.Props
open Mlp.Util Mlp.Spec Mlp.Regr Mlp.Lemmas Mlp.Frame

/-! ### The columns of a table of predictions -/

theorem filter_eq_nil_of {κ K : Type} [DecidableEq κ] {l : Cols κ K} {k : κ} (h : ∀ c ∈ l, c.1 ≠ k) :
    (l.filter fun c => decide (c.1 = k)) = [] := by
  rw [List.filter_eq_nil_iff]
  intro c hc
  simpa using h c hc

/-- The one column with the labels is what indexing gives. -/
theorem gaussColumn_ok {t : GaussTable} {method moment : Str} {v : List (Flt ℝ)}
    (h : HasCol t.cols (method, moment) v) : t.column method moment = .ok ⟨[t.nrows], v⟩ := by
  obtain ⟨a, b, e, h1, h2⟩ := h
  unfold GaussTable.column
  rw [e, List.filter_append, filter_eq_nil_of h1, List.nil_append, List.filter_cons_of_pos (by simp),
    filter_eq_nil_of h2]

/-- Without such a column indexing raises a KeyError. -/
theorem gaussColumn_missing {t : GaussTable} {method moment : Str}
    (h : ∀ c ∈ t.cols, c.1 ≠ (method, moment)) : t.column method moment = .error .keyError := by
  unfold GaussTable.column
  rw [filter_eq_nil_of h]

/-- If the labels are distinct, indexing gives the one column with the labels or fails. -/
theorem gaussColumn_ok_iff {t : GaussTable} (hn : (t.cols.map (·.1)).Nodup) (method moment : Str) (a : Arr) :
    t.column method moment = .ok a ↔ ∃ v, HasCol t.cols (method, moment) v ∧ a = ⟨[t.nrows], v⟩ := by
  constructor
  · intro h
    by_cases hm : ∃ c ∈ t.cols, c.1 = (method, moment)
    · obtain ⟨c, hc, e⟩ := hm
      have hc' : HasCol t.cols (method, moment) c.2 := hasCol_of_mem hn (by rw [← e]; exact hc)
      rw [gaussColumn_ok hc', Except.ok.injEq] at h
      exact ⟨_, hc', h.symm⟩
    · rw [gaussColumn_missing fun c hc e => hm ⟨c, hc, e⟩] at h
      cases h
  · rintro ⟨v, hv, rfl⟩
    exact gaussColumn_ok hv

/-! ### The loops -/

theorem regrStep_ok_iff (n : Nat) (y mu std : Arr) (method : Str) (s : Cols (Str × Str) ℝ) (m : Str × Loss)
    (out : Cols (Str × Str) ℝ) :
    lossStep n y mu std method s m = .ok out ↔
      ∃ l, (m.2 y mu std = .ok l ∧ l.length = n) ∧ out = puts s [((m.1, method), l)] := by
  unfold lossStep
  rw [bind_ok_iff]
  refine exists_congr fun l => ?_
  rw [setCol_ok_iff, and_assoc]
  rfl

theorem regrMethod_ok_iff (t : GaussTable) (y : Arr) (metrics : List (Str × Loss)) (s : Cols (Str × Str) ℝ)
    (method : Str) (out : Cols (Str × Str) ℝ) :
    lossMethod t y metrics s method = .ok out ↔
      ∃ ls, (∃ mu std, t.column method muName = .ok mu ∧ t.column method stdName = .ok std ∧
        List.Forall₂ (fun m l => m.2 y mu std = .ok l ∧ l.length = t.nrows) metrics ls) ∧
        out = puts s (List.zipWith (fun (m : Str × Loss) l => [((m.1, method), l)]) metrics ls).flatten := by
  unfold lossMethod
  simp only [bind_ok_iff]
  constructor
  · rintro ⟨mu, h1, std, h2, hl⟩
    obtain ⟨ls, h3, h4⟩ := (foldlM_puts _ _ _ (regrStep_ok_iff t.nrows y mu std method) metrics s out).1 hl
    exact ⟨ls, ⟨mu, std, h1, h2, h3⟩, h4⟩
  · rintro ⟨ls, ⟨mu, std, h1, h2, h3⟩, h4⟩
    exact ⟨mu, h1, std, h2, (foldlM_puts _ _ _ (regrStep_ok_iff t.nrows y mu std method) metrics s out).2 ⟨ls, h3, h4⟩⟩

/-- What the regression `loss_table` computes. -/
theorem regrTable_ok_iff (t : GaussTable) (y : Arr) (metrics : List (Str × Loss)) (tbl : Paper.LossTable) :
    lossTable t y metrics = .ok tbl ↔
      (muName ∈ t.moments ∧ stdName ∈ t.moments) ∧ y.shape = [t.nrows] ∧ (1 ≤ t.nrows ∧ 1 ≤ t.methods.length) ∧
      ∃ lss, List.Forall₂ (fun method ls => ∃ mu std, t.column method muName = .ok mu ∧
          t.column method stdName = .ok std ∧
          List.Forall₂ (fun m l => m.2 y mu std = .ok l ∧ l.length = t.nrows) metrics ls) t.methods lss ∧
        tbl = ⟨sortLevel (metrics.map fun m => m.1), sortLevel t.methods, t.nrows,
          puts (emptyCols t.nrows (product (metrics.map fun m => m.1) t.methods))
            (List.zipWith (fun method ls =>
              (List.zipWith (fun (m : Str × Loss) l => [((m.1, method), l)]) metrics ls).flatten)
              t.methods lss).flatten⟩ := by
  unfold lossTable
  simp only [bind_ok_iff, exists_unit, pyAssert_eq_ok, decide_eq_true_eq, Bool.and_eq_true, pure_eq_ok, Except.ok.injEq]
  constructor
  · rintro ⟨h0, h1, h2, cols, hc, rfl⟩
    obtain ⟨lss, h3, rfl⟩ := (foldlM_puts _ _ _ (regrMethod_ok_iff t y metrics) _ _ _).1 hc
    exact ⟨h0, h1, h2, lss, h3, rfl⟩
  · rintro ⟨h0, h1, h2, lss, h3, rfl⟩
    exact ⟨h0, h1, h2, _, (foldlM_puts _ _ _ (regrMethod_ok_iff t y metrics) _ _ _).2 ⟨lss, h3, rfl⟩, rfl⟩

/-! ### The statements -/

/-- **C89, columns.**  The loss table has a column for every metric and method and no other columns, and a row for
every row of the predictions.  The column is the loss function applied to the targets and to the columns `mu` and `std`
of that method, and to nothing else. -/
theorem C89_columns {t : GaussTable} {y : Arr} {metrics : List (Str × Loss)} {tbl : Paper.LossTable}
    (hk : (metrics.map fun m => m.1).Nodup) (hM : t.methods.Nodup) (ht : (t.cols.map (·.1)).Nodup)
    (h : lossTable t y metrics = .ok tbl) :
    tbl.nrows = t.nrows ∧ y.shape = [t.nrows] ∧
    (tbl.metrics.Perm (metrics.map fun m => m.1) ∧ tbl.metrics.Pairwise (· ≤ ·)) ∧
    (tbl.methods.Perm t.methods ∧ tbl.methods.Pairwise (· ≤ ·)) ∧
    (tbl.cols.map (·.1)).Nodup ∧
    (∀ c ∈ tbl.cols, c.1.1 ∈ tbl.metrics ∧ c.1.2 ∈ tbl.methods) ∧ Complete tbl ∧
    ∀ m ∈ metrics, ∀ method ∈ t.methods, ∃ mu std L, HasCol t.cols (method, "mu".toList) mu ∧
      HasCol t.cols (method, "std".toList) std ∧ m.2 y ⟨[t.nrows], mu⟩ ⟨[t.nrows], std⟩ = .ok L ∧
      L.length = t.nrows ∧ HasLoss tbl m.1 method L := by
  have hpm := sortLevel_perm (metrics.map fun m => m.1)
  have hpM := sortLevel_perm t.methods
  obtain ⟨-, hy, -, lss, h3, rfl⟩ := (regrTable_ok_iff t y metrics tbl).1 h
  have hkeys : (puts (emptyCols (K := ℝ) t.nrows (product (metrics.map fun m => m.1) t.methods))
      (List.zipWith (fun method ls => (List.zipWith (fun (m : Str × Loss) l => [((m.1, method), l)]) metrics
        ls).flatten) t.methods lss).flatten).map (·.1) = product (metrics.map fun m => m.1) t.methods := by
    rw [puts_keys, emptyCols_keys]
  have hcol : ∀ m ∈ metrics, ∀ method ∈ t.methods, ∃ mu std L, HasCol t.cols (method, "mu".toList) mu ∧
      HasCol t.cols (method, "std".toList) std ∧ m.2 y ⟨[t.nrows], mu⟩ ⟨[t.nrows], std⟩ = .ok L ∧
      L.length = t.nrows ∧ HasLoss ⟨sortLevel (metrics.map fun m => m.1), sortLevel t.methods, t.nrows,
        puts (emptyCols (K := ℝ) t.nrows (product (metrics.map fun m => m.1) t.methods))
      (List.zipWith (fun method ls => (List.zipWith (fun (m : Str × Loss) l => [((m.1, method), l)]) metrics
        ls).flatten) t.methods lss).flatten⟩ m.1 method L := by
    intro m hm method hmeth
    obtain ⟨ls, hz, mu, std, hmu, hstd, h4⟩ := forall₂_mem h3 hmeth
    obtain ⟨l, hz', hl, hlen⟩ := forall₂_mem h4 hm
    obtain ⟨vm, hvm, rfl⟩ := (gaussColumn_ok_iff ht _ _ _).1 hmu
    obtain ⟨vs, hvs, rfl⟩ := (gaussColumn_ok_iff ht _ _ _).1 hstd
    refine ⟨vm, vs, l, hvm, hvs, hl, hlen, ?_⟩
    apply hasCol_of_mem (κ := Str × Str)
    · simp only [hkeys]
      exact product_nodup hk hM
    · apply mem_puts
      · rw [outer_keys]
        · exact swapped_nodup hk hM
        · exact h3.imp fun _ _ ⟨_, _, _, _, h⟩ => h.length_eq
      · rw [List.mem_flatten]
        refine ⟨_, mem_zipWith_of hz, ?_⟩
        rw [List.mem_flatten]
        exact ⟨_, mem_zipWith_of hz', by simp⟩
      · rw [emptyCols_keys, product_mem]
        exact ⟨List.mem_map_of_mem hm, hmeth⟩
  refine ⟨rfl, hy, ⟨hpm, sortLevel_sorted _⟩, ⟨hpM, sortLevel_sorted _⟩, ?_, ?_, ?_, hcol⟩
  · simp only [hkeys]; exact product_nodup hk hM
  · intro c hc
    have : c.1 ∈ product (metrics.map fun m => m.1) t.methods := by
      rw [← hkeys]; exact List.mem_map_of_mem hc
    obtain ⟨h1, h2⟩ := product_mem.1 this
    exact ⟨hpm.mem_iff.2 h1, hpM.mem_iff.2 h2⟩
  · intro metric hmet method hmeth
    obtain ⟨m, hm, rfl⟩ := List.mem_map.1 (hpm.mem_iff.1 hmet)
    obtain ⟨_, _, L, -, -, -, h5, h6⟩ := hcol m hm method (hpM.mem_iff.1 hmeth)
    exact ⟨L, h6, h5⟩

/-- **C89, no mixing.**  Tables that agree on the two columns of a method give the same losses for that method,
whatever the other methods predict and whatever other losses are asked for. -/
theorem C89_local {t t' : GaussTable} {y : Arr} {metrics metrics' : List (Str × Loss)} {tbl tbl' : Paper.LossTable}
    (hk : (metrics.map fun m => m.1).Nodup) (hM : t.methods.Nodup) (ht : (t.cols.map (·.1)).Nodup)
    (hk' : (metrics'.map fun m => m.1).Nodup) (hM' : t'.methods.Nodup) (ht' : (t'.cols.map (·.1)).Nodup)
    (h : lossTable t y metrics = .ok tbl) (h' : lossTable t' y metrics' = .ok tbl')
    {m : Str × Loss} (hm : m ∈ metrics) (hm' : m ∈ metrics') {method : Str}
    (hmeth : method ∈ t.methods) (hmeth' : method ∈ t'.methods)
    (hc : ∀ v, (HasCol t.cols (method, "mu".toList) v ↔ HasCol t'.cols (method, "mu".toList) v) ∧
      (HasCol t.cols (method, "std".toList) v ↔ HasCol t'.cols (method, "std".toList) v)) :
    ∃ L, HasLoss tbl m.1 method L ∧ HasLoss tbl' m.1 method L := by
  obtain ⟨-, hy, -, -, -, -, -, hcol⟩ := C89_columns hk hM ht h
  obtain ⟨-, hy', -, -, -, -, -, hcol'⟩ := C89_columns hk' hM' ht' h'
  obtain ⟨mu, std, L, h1, h2, h3, -, h4⟩ := hcol m hm method hmeth
  obtain ⟨mu', std', L', g1, g2, g3, -, g4⟩ := hcol' m hm' method hmeth'
  rw [hy, List.cons.injEq] at hy'
  rw [← hasCol_unique ((hc _).1.1 h1) g1, ← hasCol_unique ((hc _).2.1 h2) g2, ← hy'.1, h3, Except.ok.injEq] at g3
  subst g3
  exact ⟨_, h4, g4⟩

/-- A table of predictions that `loss_table` accepts. -/
structure GoodGauss (t : GaussTable) : Prop where
  moments : "mu".toList ∈ t.moments ∧ "std".toList ∈ t.moments
  rows : 1 ≤ t.nrows
  methods : t.methods ≠ []
  columns : ∀ method ∈ t.methods, (∃ v, HasCol t.cols (method, "mu".toList) v) ∧
    ∃ v, HasCol t.cols (method, "std".toList) v

theorem regrMethod_total {t : GaussTable} {y : Arr} {metrics : List (Str × Loss)} {method : Str} {mu std : List (Flt ℝ)}
    (hmu : HasCol t.cols (method, "mu".toList) mu) (hstd : HasCol t.cols (method, "std".toList) std)
    (hf : ∀ m ∈ metrics, ∃ l, m.2 y ⟨[t.nrows], mu⟩ ⟨[t.nrows], std⟩ = .ok l ∧ l.length = t.nrows)
    (s : Cols (Str × Str) ℝ) : ∃ s', lossMethod t y metrics s method = .ok s' := by
  have : ∃ ls, List.Forall₂ (fun (m : Str × Loss) l => m.2 y ⟨[t.nrows], mu⟩ ⟨[t.nrows], std⟩ = .ok l ∧
      l.length = t.nrows) metrics ls := by
    revert hf
    induction metrics with
    | nil => intro _; exact ⟨[], .nil⟩
    | cons m metrics ih =>
      intro hf
      obtain ⟨l, hl⟩ := hf m (by simp)
      obtain ⟨ls, hls⟩ := ih fun m hm => hf m (by simp [hm])
      exact ⟨l :: ls, .cons hl hls⟩
  obtain ⟨ls, hls⟩ := this
  exact ⟨_, (regrMethod_ok_iff t y metrics s method _).2 ⟨ls, ⟨_, _, gaussColumn_ok hmu, gaussColumn_ok hstd, hls⟩, rfl⟩⟩

theorem foldlM_total {σ α : Type} (f : σ → α → Py σ) (l : List α) (h : ∀ a ∈ l, ∀ s, ∃ s', f s a = .ok s') (s : σ) :
    ∃ s', l.foldlM f s = .ok s' := by
  induction l generalizing s with
  | nil => exact ⟨s, rfl⟩
  | cons a l ih =>
    obtain ⟨s', hs'⟩ := h a (by simp) s
    obtain ⟨s'', hs''⟩ := ih (fun b hb => h b (by simp [hb])) s'
    exact ⟨s'', by rw [List.foldlM_cons, hs', ok_bind, hs'']⟩

/-- **C89, success.**  `loss_table` succeeds if both columns of every method are there and every loss function
succeeds on them. -/
theorem C89_success {t : GaussTable} (ht : GoodGauss t) {y : Arr} (hy : y.shape = [t.nrows])
    {metrics : List (Str × Loss)}
    (hf : ∀ m ∈ metrics, ∀ method ∈ t.methods, ∀ mu std, HasCol t.cols (method, "mu".toList) mu →
      HasCol t.cols (method, "std".toList) std →
      ∃ l, m.2 y ⟨[t.nrows], mu⟩ ⟨[t.nrows], std⟩ = .ok l ∧ l.length = t.nrows) :
    ∃ tbl, lossTable t y metrics = .ok tbl := by
  obtain ⟨s', hs'⟩ := foldlM_total (lossMethod t y metrics) t.methods (fun method hmeth => by
    obtain ⟨⟨mu, hmu⟩, std, hstd⟩ := ht.columns method hmeth
    exact regrMethod_total hmu hstd fun m hm => hf m hm method hmeth mu std hmu hstd)
    (emptyCols t.nrows (product (metrics.map fun m => m.1) t.methods))
  refine ⟨⟨sortLevel (metrics.map fun m => m.1), sortLevel t.methods, t.nrows, s'⟩, ?_⟩
  unfold lossTable
  rw [pyAssert_bind, if_pos, pyAssert_bind, if_pos (decide_eq_true hy), pyAssert_bind, if_pos]
  · simp only []
    rw [hs', ok_bind]; rfl
  · simp only [Bool.and_eq_true, decide_eq_true_eq]
    exact ⟨ht.rows, List.length_pos_iff.2 ht.methods⟩
  · simp only [Bool.and_eq_true, decide_eq_true_eq]
    exact ht.moments

/-- **C89, rejections.**  Without the moments `mu` and `std`, or if the targets are not a vector with one entry
for each row, or without rows or methods, there is an AssertionError. -/
theorem C89_reject {t : GaussTable} {y : Arr} (metrics : List (Str × Loss))
    (h : ¬ ("mu".toList ∈ t.moments ∧ "std".toList ∈ t.moments ∧ y.shape = [t.nrows] ∧ 1 ≤ t.nrows ∧ t.methods ≠ [])) :
    lossTable t y metrics = .error .assertion := by
  unfold lossTable
  rw [pyAssert_bind]
  split
  · rename_i h1
    rw [pyAssert_bind]
    split
    · rename_i h2
      rw [pyAssert_bind]
      split
      · rename_i h3
        simp only [Bool.and_eq_true, decide_eq_true_eq] at h1 h2 h3
        exact absurd ⟨h1.1, h1.2, h2, h3.1, fun e => by rw [e] at h3; simp at h3⟩ h
      · rfl
    · rfl
  · rfl

/-- **C89, missing column.**  A method of the table without one of its two columns causes a KeyError, unless a method
before it fails. -/
theorem C89_missing {t : GaussTable} (hm : "mu".toList ∈ t.moments ∧ "std".toList ∈ t.moments) (hr : 1 ≤ t.nrows)
    {y : Arr} (hy : y.shape = [t.nrows]) {metrics : List (Str × Loss)} {before after : List Str} {method : Str}
    (ht : t.methods = before ++ method :: after)
    (hb : ∀ b ∈ before, ∃ mu std, HasCol t.cols (b, "mu".toList) mu ∧ HasCol t.cols (b, "std".toList) std ∧
      ∀ m ∈ metrics, ∃ l, m.2 y ⟨[t.nrows], mu⟩ ⟨[t.nrows], std⟩ = .ok l ∧ l.length = t.nrows)
    (hcol : (∀ c ∈ t.cols, c.1 ≠ (method, "mu".toList)) ∨
      (∃ v, HasCol t.cols (method, "mu".toList) v) ∧ ∀ c ∈ t.cols, c.1 ≠ (method, "std".toList)) :
    lossTable t y metrics = .error .keyError := by
  unfold lossTable
  rw [pyAssert_bind, if_pos, pyAssert_bind, if_pos (decide_eq_true hy), pyAssert_bind, if_pos]
  · simp only []
    rw [ht, foldlM_error _ _ _ _ _ .keyError, error_bind]
    · intro b hb'
      obtain ⟨mu, std, h1, h2, h3⟩ := hb b hb'
      exact regrMethod_total h1 h2 h3
    · intro s
      unfold lossMethod
      rcases hcol with h | ⟨⟨v, hv⟩, h⟩
      · rw [show t.column method muName = _ from gaussColumn_missing h, error_bind]
      · rw [show t.column method muName = _ from gaussColumn_ok hv, ok_bind,
          show t.column method stdName = _ from gaussColumn_missing h, error_bind]
  · simp only [Bool.and_eq_true, decide_eq_true_eq]
    exact ⟨hr, by rw [ht]; simp; omega⟩
  · simp only [Bool.and_eq_true, decide_eq_true_eq]
    exact hm

/-- **C89, failing loss.**  The exception of the first loss function that fails on the first method for which one fails
is the one of `loss_table`. -/
theorem C89_error {t : GaussTable} (hm : "mu".toList ∈ t.moments ∧ "std".toList ∈ t.moments) (hr : 1 ≤ t.nrows)
    {y : Arr} (hy : y.shape = [t.nrows]) {metrics ok rest : List (Str × Loss)} {bad : Str × Loss}
    (hmet : metrics = ok ++ bad :: rest) {before after : List Str} {method : Str}
    (ht : t.methods = before ++ method :: after)
    (hb : ∀ b ∈ before, ∃ mu std, HasCol t.cols (b, "mu".toList) mu ∧ HasCol t.cols (b, "std".toList) std ∧
      ∀ m ∈ metrics, ∃ l, m.2 y ⟨[t.nrows], mu⟩ ⟨[t.nrows], std⟩ = .ok l ∧ l.length = t.nrows)
    {mu std : List (Flt ℝ)} (hmu : HasCol t.cols (method, "mu".toList) mu)
    (hstd : HasCol t.cols (method, "std".toList) std)
    (hok : ∀ m ∈ ok, ∃ l, m.2 y ⟨[t.nrows], mu⟩ ⟨[t.nrows], std⟩ = .ok l ∧ l.length = t.nrows)
    {e : PyErr} (hbad : bad.2 y ⟨[t.nrows], mu⟩ ⟨[t.nrows], std⟩ = .error e) :
    lossTable t y metrics = .error e := by
  unfold lossTable
  rw [pyAssert_bind, if_pos, pyAssert_bind, if_pos (decide_eq_true hy), pyAssert_bind, if_pos]
  · simp only []
    rw [ht, foldlM_error _ _ _ _ _ e, error_bind]
    · intro b hb'
      obtain ⟨mu, std, h1, h2, h3⟩ := hb b hb'
      exact regrMethod_total h1 h2 h3
    · intro s
      unfold lossMethod
      rw [show t.column method muName = _ from gaussColumn_ok hmu, ok_bind,
          show t.column method stdName = _ from gaussColumn_ok hstd, ok_bind, hmet]
      refine foldlM_error _ _ _ _ _ e (fun m hm s => ?_) fun s => ?_
      · obtain ⟨l, h1, h2⟩ := hok m hm
        exact ⟨_, (regrStep_ok_iff _ _ _ _ _ _ _ _).2 ⟨l, ⟨h1, h2⟩, rfl⟩⟩
      · unfold lossStep
        rw [hbad, error_bind]
  · simp only [Bool.and_eq_true, decide_eq_true_eq]
    exact ⟨hr, by rw [ht]; simp; omega⟩
  · simp only [Bool.and_eq_true, decide_eq_true_eq]
    exact hm

/-- **C89, repeated column.**  If a method has two columns for the mean or two for the standard deviation, there is no loss
table with any of the standard losses: neither column is silently preferred. -/
theorem C89_repeated {t : GaussTable} {y : Arr} {metrics : List (Str × Loss)} {name : Str} {loss : Loss}
    (hl : (name, loss) ∈ metrics) (hstd : loss = logLoss ∨ loss = squareLoss ∨ loss = absLoss) {method moment : Str}
    (hM : method ∈ t.methods) (hmo : moment = "mu".toList ∨ moment = "std".toList)
    (h2 : 2 ≤ t.cols.countP fun c => decide (c.1 = (method, moment))) : ∀ tbl, lossTable t y metrics ≠ .ok tbl := by
  intro tbl h
  obtain ⟨-, hy, -, lss, hF, -⟩ := (regrTable_ok_iff ..).1 h
  obtain ⟨ls, -, mu, std, c1, c2, hF'⟩ := forall₂_mem hF hM
  obtain ⟨l, -, hlo, -⟩ := forall₂_mem hF' hl
  have hin : ∃ n, RegrInput y mu std n := by
    by_contra hn
    have := C85_reject hn loss (by simp; tauto)
    dsimp only at hlo
    rw [this] at hlo
    cases hlo
  obtain ⟨n, hin⟩ := hin
  have key : ∀ a, t.column method moment = .ok a → a.shape.length = 2 := by
    intro a ha
    unfold GaussTable.column at ha
    rw [List.countP_eq_length_filter] at h2
    revert ha h2
    generalize (t.cols.filter fun c => decide (c.1 = (method, moment))) = L
    rcases L with - | ⟨c, - | ⟨d, L⟩⟩
    · simp
    · simp
    · rintro - ha
      cases ha
      rfl
  rcases hmo with rfl | rfl
  · have := key _ c1
    rw [hin.shapes.2.1] at this
    cases this
  · have := key _ c2
    rw [hin.shapes.2.2] at this
    cases this

/-- The standard losses with what they compute. -/
noncomputable def stdPoint : List (Str × (ℝ → ℝ → ℝ → ℝ)) :=
  [("NLL".toList, fun a m s => Real.log s + Real.log (2 * Real.pi) / 2 + (a - m) ^ 2 / (2 * s ^ 2)),
   ("MSE".toList, fun a m _ => (a - m) ^ 2), ("MAE".toList, fun a m _ => |a - m|)]

theorem stdRegr_points {y mu std : Arr} {n : Nat} (h : RegrInput y mu std n) (hy : y.Ok) (hm : mu.Ok) (hs : std.Ok) :
    List.Forall₂ (fun (m : Str × Loss) (f : Str × (ℝ → ℝ → ℝ → ℝ)) => m.1 = f.1 ∧
      ∃ L, m.2 y mu std = .ok L ∧ PerPoint f.2 y mu std L) stdRegrLoss stdPoint := by
  unfold stdRegrLoss stdPoint
  exact .cons ⟨rfl, C85_log h hy hm hs⟩ (.cons ⟨rfl, C85_square h hy hm hs⟩ (.cons ⟨rfl, C85_abs h hy hm hs⟩ .nil))

theorem stdRegr_nodup : (stdRegrLoss.map fun m => m.1).Nodup := by
  unfold stdRegrLoss
  simp only [List.map_cons, List.map_nil]
  decide

/-- **C89, standard losses.**  For targets and predictions that are numbers, with positive standard deviations,
`loss_table` with `STD_REGR_LOSS` succeeds.  Its columns `NLL`, `MSE` and `MAE` contain for each method and sample the negative log
density, the squared error and the absolute error. -/
theorem C89_standard {t : GaussTable} (ht : GoodGauss t) (hM : t.methods.Nodup) (hc : (t.cols.map (·.1)).Nodup)
    (hlen : ∀ c ∈ t.cols, c.2.length = t.nrows) {y : Arr} (hy : y.Ok) (hys : y.shape = [t.nrows])
    (hnum : ∀ v ∈ y.data, ∃ x : ℝ, v = .fin x) (hnum' : ∀ c ∈ t.cols, ∀ v ∈ c.2, ∃ x : ℝ, v = .fin x)
    (hpos : ∀ c ∈ t.cols, c.1.2 = "std".toList → ∀ v ∈ c.2, Flt.fin 0 < v) :
    ∃ tbl, lossTable t y stdRegrLoss = .ok tbl ∧ ∀ method ∈ t.methods, ∀ mu std,
      HasCol t.cols (method, "mu".toList) mu → HasCol t.cols (method, "std".toList) std → ∀ f ∈ stdPoint,
      ∃ L, HasLoss tbl f.1 method L ∧ PerPoint f.2 y ⟨[t.nrows], mu⟩ ⟨[t.nrows], std⟩ L := by
  have hmem : ∀ {k v}, HasCol t.cols k v → (k, v) ∈ t.cols := by
    rintro k v ⟨a, b, e, -, -⟩; rw [e]; simp
  have hin : ∀ method mu std, HasCol t.cols (method, "mu".toList) mu → HasCol t.cols (method, "std".toList) std →
      RegrInput y ⟨[t.nrows], mu⟩ ⟨[t.nrows], std⟩ t.nrows := by
    intro method mu std h1 h2
    refine ⟨ht.rows, ⟨hys, rfl, rfl⟩, ?_, fun v hv => hpos _ (hmem h2) rfl v hv⟩
    rintro v (hv | hv | hv)
    · exact hnum v hv
    · exact hnum' _ (hmem h1) v hv
    · exact hnum' _ (hmem h2) v hv
  have hok : ∀ {k v}, HasCol t.cols k v → (⟨[t.nrows], v⟩ : Arr).Ok := by
    intro k v h
    have := hlen _ (hmem h)
    simpa [Arr.Ok] using this
  have hylen : y.data.length = t.nrows := by
    have := hy
    unfold Arr.Ok at this
    rw [hys] at this
    simpa using this
  obtain ⟨tbl, htbl⟩ := C89_success ht hys (metrics := stdRegrLoss) fun m hm method hmeth mu std h1 h2 => by
    obtain ⟨f, -, -, L, hL, hp⟩ := forall₂_mem (stdRegr_points (hin method mu std h1 h2) hy (hok h1) (hok h2)) hm
    exact ⟨L, hL, by rw [hp.1, hylen]⟩
  refine ⟨tbl, htbl, fun method hmeth mu std h1 h2 f hf => ?_⟩
  obtain ⟨-, -, -, -, -, -, -, hcol⟩ := C89_columns stdRegr_nodup hM hc htbl
  obtain ⟨m, hz, e, L, hL, hp⟩ := forall₂_mem (stdRegr_points (hin method mu std h1 h2) hy (hok h1) (hok h2)).flip hf
  have hm : m ∈ stdRegrLoss := (List.of_mem_zip hz).2
  obtain ⟨mu', std', L', g1, g2, g3, -, g4⟩ := hcol m hm method hmeth
  rw [hasCol_unique g1 h1, hasCol_unique g2 h2, hL, Except.ok.injEq] at g3
  subst g3
  exact ⟨L, by rw [← e]; exact g4, hp⟩

/-! ### Examples -/

/-- Two methods and two test points. -/
noncomputable def gaussExample : GaussTable :=
  ⟨["a".toList, "b".toList], ["mu".toList, "std".toList], 2,
    [(("a".toList, "mu".toList), [.fin 1, .fin 2]), (("a".toList, "std".toList), [.fin 1, .fin 1]),
     (("b".toList, "mu".toList), [.fin 0, .fin 5]), (("b".toList, "std".toList), [.fin 2, .fin 3])]⟩

theorem gaussExample_nodup : (gaussExample.cols.map (·.1)).Nodup := by
  unfold gaussExample
  simp only [List.map_cons, List.map_nil]
  decide

theorem gaussExample_good : GoodGauss gaussExample where
  moments := by unfold gaussExample; decide
  rows := by unfold gaussExample; norm_num
  methods := by unfold gaussExample; simp
  columns := by
    intro method hm
    have h := fun {k v} => hasCol_of_mem (k := k) (v := v) gaussExample_nodup
    unfold gaussExample at hm
    simp only [List.mem_cons, List.not_mem_nil, or_false] at hm
    rcases hm with rfl | rfl
    · exact ⟨⟨_, h (v := [.fin 1, .fin 2]) (by unfold gaussExample; simp)⟩,
        ⟨_, h (v := [.fin 1, .fin 1]) (by unfold gaussExample; simp)⟩⟩
    · exact ⟨⟨_, h (v := [.fin 0, .fin 5]) (by unfold gaussExample; simp)⟩,
        ⟨_, h (v := [.fin 2, .fin 3]) (by unfold gaussExample; simp)⟩⟩

/-- The squared error of method `b` on the second test point, with target 7, is 4. -/
example : ∃ tbl L, lossTable gaussExample (.vec [.fin 1, .fin 7]) stdRegrLoss = .ok tbl ∧
    HasLoss tbl "MSE".toList "b".toList L ∧ L[1]? = some (.fin 4) := by
  obtain ⟨tbl, h1, h2⟩ := C89_standard gaussExample_good (by unfold gaussExample; decide) gaussExample_nodup
    (by unfold gaussExample; simp) (y := .vec [.fin 1, .fin 7]) (by simp [Arr.vec, Arr.Ok])
    (by simp [Arr.vec, gaussExample]) (by simp [Arr.vec]) (by unfold gaussExample; simp)
    (by unfold gaussExample; simp [Flt.fin_lt_fin])
  obtain ⟨L, h3, h4⟩ := h2 "b".toList (by unfold gaussExample; simp) [.fin 0, .fin 5] [.fin 2, .fin 3]
    (hasCol_of_mem gaussExample_nodup (by unfold gaussExample; simp))
    (hasCol_of_mem gaussExample_nodup (by unfold gaussExample; simp))
    ("MSE".toList, fun a m _ => (a - m) ^ 2) (by simp [stdPoint])
  refine ⟨tbl, L, h1, h3, ?_⟩
  rw [h4.2 1 7 5 3 rfl rfl rfl]
  norm_num

/-- The moments have other names. -/
example : lossTable { gaussExample with moments := ["mean".toList, "std".toList] } (.vec [.fin 1, .fin 7]) stdRegrLoss =
    .error .assertion :=
  C89_reject _ (by
    intro h
    have := h.1
    revert this
    decide)

/-- The second method has no column `std`. -/
example : lossTable { gaussExample with cols := gaussExample.cols.take 3 } (.vec [.fin 1, .fin 7]) [] = .error .keyError :=
  C89_missing (before := ["a".toList]) (method := "b".toList) (after := []) (by constructor <;> decide)
    (by unfold gaussExample; norm_num) (by simp [Arr.vec, gaussExample]) rfl
    (by
      intro b hb
      rw [List.mem_singleton] at hb
      subst hb
      have hn : ((gaussExample.cols.take 3).map (·.1)).Nodup := by
        unfold gaussExample
        simp only [List.take_succ_cons, List.take_zero, List.map_cons, List.map_nil]
        decide
      exact ⟨[.fin 1, .fin 2], [.fin 1, .fin 1], hasCol_of_mem hn (by unfold gaussExample; simp),
        hasCol_of_mem hn (by unfold gaussExample; simp), by simp⟩)
    (by
      right
      have hn : ((gaussExample.cols.take 3).map (·.1)).Nodup := by
        unfold gaussExample
        simp only [List.take_succ_cons, List.take_zero, List.map_cons, List.map_nil]
        decide
      refine ⟨⟨_, hasCol_of_mem (v := [.fin 0, .fin 5]) hn (by unfold gaussExample; simp)⟩, ?_⟩
      unfold gaussExample
      simp)

/-- A table whose first column occurs twice. -/
example (tbl : Paper.LossTable) :
    lossTable { gaussExample with cols := gaussExample.cols.head! :: gaussExample.cols } (.vec [.fin 1, .fin 7]) stdRegrLoss ≠
      .ok tbl :=
  C89_repeated (name := "MSE".toList) (loss := squareLoss) (by unfold stdRegrLoss; simp) (by simp) (method := "a".toList)
    (moment := "mu".toList) (by unfold gaussExample; simp) (Or.inl rfl) (by
      unfold gaussExample
      simp only [List.head!_cons, List.countP_cons, List.countP_nil]
      decide) tbl

end Mlp.Props
