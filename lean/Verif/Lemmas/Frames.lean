import Verif.Model.ClassTable
import Verif.Spec.Frames
import Verif.Lemmas.Losses
import Verif.Props.LossTable

/-! # Lemmas about frames -/

set_option linter.unusedSectionVars false

namespace Mlp.Lemmas
open Mlp.Util Mlp.Spec Mlp.Classif Mlp.Frame

section
variable {κ K : Type} [DecidableEq κ]

/-- Give the columns labelled `kv.1` the values `kv.2`. -/
def put (cols : Cols κ K) (kv : κ × List (Flt K)) : Cols κ K := cols.map fun c => if c.1 = kv.1 then (c.1, kv.2) else c

def puts (cols : Cols κ K) (kvs : List (κ × List (Flt K))) : Cols κ K := kvs.foldl put cols

theorem puts_append (cols : Cols κ K) (a b : List (κ × List (Flt K))) : puts cols (a ++ b) = puts (puts cols a) b := by
  unfold puts; rw [List.foldl_append]

theorem setCol_ok_iff (n : Nat) (cols : Cols κ K) (key : κ) (v : List (Flt K)) (out : Cols κ K) :
    setCol n cols key v = .ok out ↔ v.length = n ∧ out = put cols (key, v) := by
  unfold setCol put
  split
  · rename_i h; simp [h, eq_comm]
  · rename_i h; simp [h]

theorem put_keys (cols : Cols κ K) (kv : κ × List (Flt K)) : (put cols kv).map (·.1) = cols.map (·.1) := by
  unfold put
  rw [List.map_map]
  refine List.map_congr_left fun c _ => ?_
  simp only [Function.comp]
  split <;> rfl

theorem puts_keys (cols : Cols κ K) (kvs : List (κ × List (Flt K))) : (puts cols kvs).map (·.1) = cols.map (·.1) := by
  induction kvs generalizing cols with
  | nil => rfl
  | cons kv kvs ih =>
    change (puts (put cols kv) kvs).map (·.1) = _
    rw [ih, put_keys]

theorem put_mem_ne {cols : Cols κ K} {kv : κ × List (Flt K)} {k : κ} {v : List (Flt K)} (h : k ≠ kv.1) :
    (k, v) ∈ put cols kv ↔ (k, v) ∈ cols := by
  unfold put
  rw [List.mem_map]
  constructor
  · rintro ⟨c, hc, e⟩
    split at e
    · rename_i h1
      rw [Prod.mk.injEq] at e
      exact absurd (e.1.symm.trans h1) h
    · rw [← e]; exact hc
  · intro hc
    exact ⟨_, hc, by rw [if_neg h]⟩

theorem puts_mem_ne {kvs : List (κ × List (Flt K))} {cols : Cols κ K} {k : κ} {v : List (Flt K)}
    (h : k ∉ kvs.map (·.1)) : (k, v) ∈ puts cols kvs ↔ (k, v) ∈ cols := by
  induction kvs generalizing cols with
  | nil => exact Iff.rfl
  | cons kv kvs ih =>
    simp only [List.map_cons, List.mem_cons, not_or] at h
    change (k, v) ∈ puts (put cols kv) kvs ↔ _
    rw [ih h.2, put_mem_ne h.1]

theorem mem_puts {kvs : List (κ × List (Flt K))} {cols : Cols κ K} {k : κ} {v : List (Flt K)}
    (hn : (kvs.map (·.1)).Nodup) (hm : (k, v) ∈ kvs) (hk : k ∈ cols.map (·.1)) : (k, v) ∈ puts cols kvs := by
  induction kvs generalizing cols with
  | nil => simp at hm
  | cons kv kvs ih =>
    rw [List.map_cons, List.nodup_cons] at hn
    change (k, v) ∈ puts (put cols kv) kvs
    rcases List.mem_cons.1 hm with rfl | hm
    · rw [puts_mem_ne hn.1]
      obtain ⟨c, hc, rfl⟩ := List.mem_map.1 hk
      exact List.mem_map.2 ⟨c, hc, by simp⟩
    · exact ih hn.2 hm (by rw [put_keys]; exact hk)

/-- With distinct labels a column is found by its label. -/
theorem hasCol_of_mem {cols : Cols κ K} (hn : (cols.map (·.1)).Nodup) {k : κ} {v : List (Flt K)} (h : (k, v) ∈ cols) :
    HasCol cols k v := by
  obtain ⟨a, b, rfl⟩ := List.append_of_mem h
  refine ⟨a, b, rfl, ?_, ?_⟩
  · intro c hc
    rw [List.map_append, List.nodup_append] at hn
    exact hn.2.2 _ (List.mem_map_of_mem hc) _ (by simp)
  · intro c hc
    rw [List.map_append, List.nodup_append, List.map_cons, List.nodup_cons] at hn
    intro e
    exact hn.2.1.1 (List.mem_map.2 ⟨c, hc, e⟩)

theorem hasCol_unique {cols : Cols κ K} {k : κ} {v w : List (Flt K)} (h : HasCol cols k v) (h' : HasCol cols k w) :
    v = w := by
  obtain ⟨a, b, e, h1, h2⟩ := h
  obtain ⟨a', b', e', h1', h2'⟩ := h'
  have hm : (k, w) ∈ cols := by rw [e']; simp
  rw [e] at hm
  rcases List.mem_append.1 hm with hm | hm
  · exact absurd rfl (h1 _ hm)
  · rcases List.mem_cons.1 hm with hm | hm
    · exact ((Prod.mk.injEq _ _ _ _ ▸ hm).2).symm
    · exact absurd rfl (h2 _ hm)

/-- A loop that sets columns. -/
theorem foldlM_puts {α β : Type} (f : Cols κ K → α → Py (Cols κ K)) (R : α → β → Prop)
    (g : α → β → List (κ × List (Flt K)))
    (hf : ∀ s a out, f s a = .ok out ↔ ∃ b, R a b ∧ out = puts s (g a b)) (l : List α) (s out : Cols κ K) :
    l.foldlM f s = .ok out ↔ ∃ bs, List.Forall₂ R l bs ∧ out = puts s (List.zipWith g l bs).flatten := by
  induction l generalizing s with
  | nil =>
    rw [List.foldlM_nil]
    constructor
    · intro h
      cases h
      exact ⟨[], .nil, rfl⟩
    · rintro ⟨bs, h, rfl⟩
      cases h; rfl
  | cons a l ih =>
    rw [List.foldlM_cons, bind_ok_iff]
    constructor
    · rintro ⟨s', h1, h2⟩
      obtain ⟨b, hb, rfl⟩ := (hf _ _ _).1 h1
      obtain ⟨bs, hbs, rfl⟩ := (ih _).1 h2
      exact ⟨b :: bs, .cons hb hbs, by rw [List.zipWith_cons_cons, List.flatten_cons, puts_append]⟩
    · rintro ⟨bs, h, rfl⟩
      cases h with
      | cons hb hbs =>
        refine ⟨_, (hf _ _ _).2 ⟨_, hb, rfl⟩, (ih _).2 ⟨_, hbs, ?_⟩⟩
        rw [List.zipWith_cons_cons, List.flatten_cons, puts_append]

/-- A loop stops with the exception of the first pass that fails. -/
theorem foldlM_error {σ α : Type} (f : σ → α → Py σ) (l₁ : List α) (a : α) (l₂ : List α) (s : σ) (e : PyErr)
    (h₁ : ∀ b ∈ l₁, ∀ s, ∃ s', f s b = .ok s') (h : ∀ s, f s a = .error e) :
    (l₁ ++ a :: l₂).foldlM f s = .error e := by
  induction l₁ generalizing s with
  | nil => rw [List.nil_append, List.foldlM_cons, h, error_bind]
  | cons b l₁ ih =>
    obtain ⟨s', hs⟩ := h₁ b (by simp) s
    rw [List.cons_append, List.foldlM_cons, hs, ok_bind]
    exact ih s' fun b hb => h₁ b (by simp [hb])

theorem foldlM_congr {σ α : Type} (f g : σ → α → Py σ) (l : List α) (s : σ) (h : ∀ s, ∀ a ∈ l, f s a = g s a) :
    l.foldlM f s = l.foldlM g s := by
  induction l generalizing s with
  | nil => rfl
  | cons a l ih =>
    rw [List.foldlM_cons, List.foldlM_cons, h s a (by simp)]
    congr 1
    funext s'
    exact ih s' fun s b hb => h s b (by simp [hb])

theorem product_mem {α β : Type} {ms : List α} {ns : List β} {x : α × β} :
    x ∈ product ms ns ↔ x.1 ∈ ms ∧ x.2 ∈ ns := by
  unfold product
  simp only [List.mem_flatMap, List.mem_map]
  constructor
  · rintro ⟨m, hm, n, hn, rfl⟩; exact ⟨hm, hn⟩
  · rintro ⟨h1, h2⟩; exact ⟨x.1, h1, x.2, h2, rfl⟩

theorem product_nodup {α β : Type} {ms : List α} {ns : List β} (h1 : ms.Nodup) (h2 : ns.Nodup) :
    (product ms ns).Nodup := by
  unfold product
  rw [List.nodup_flatMap]
  refine ⟨fun m _ => h2.map fun a b e => (Prod.mk.injEq _ _ _ _ ▸ e).2, ?_⟩
  refine h1.imp fun {a b} hab => ?_
  intro x hx hy
  obtain ⟨_, _, rfl⟩ := List.mem_map.1 hx
  obtain ⟨_, _, e⟩ := List.mem_map.1 hy
  exact hab (Prod.mk.injEq _ _ _ _ ▸ e).1.symm

theorem emptyCols_keys (n : Nat) (keys : List κ) : (emptyCols n keys : Cols κ K).map (·.1) = keys := by
  unfold emptyCols
  rw [List.map_map]
  conv_rhs => rw [← List.map_id keys]
  exact List.map_congr_left fun _ _ => rfl

end

section
variable {K : Type}

theorem sub_filter (t : PredTable K) (method : Str) :
    labelsOf t method = ((t.cols.filter fun c => decide (c.1.1 = method)).map fun c => (c.1.2, c.2)).map (·.1) := by
  unfold labelsOf
  rw [List.map_map]
  induction t.cols with
  | nil => rfl
  | cons c l ih =>
    rw [List.filterMap_cons, List.filter_cons]
    by_cases h : c.1.1 = method
    · rw [if_pos h, if_pos (decide_eq_true h), List.map_cons, ← ih]; rfl
    · rw [if_neg h, if_neg (by simpa using h), ← ih]

/-- The matrix of a method. -/
def matrixOf (t : PredTable K) (method : Str) : Mat K :=
  values t.nrows ((t.cols.filter fun c => decide (c.1.1 = method)).map fun c => (c.1.2, c.2))

theorem matrix_ok_iff (t : PredTable K) (method : Str) (p : Mat K) :
    t.matrix method = .ok p ↔ (InOrder t method ∧ labelsOf t method ≠ []) ∧ p = matrixOf t method := by
  unfold PredTable.matrix PredTable.sub InOrder
  rw [sub_filter]
  unfold matrixOf
  generalize hf : (t.cols.filter fun c => decide (c.1.1 = method)) = f
  cases f with
  | nil => simp [error_bind]
  | cons c l =>
    simp only [ok_bind, pyAssert_bind]
    by_cases h : ((c :: l).map fun c => (c.1.2, c.2)).map (·.1) = rangeList t.labels.length
    · rw [if_pos (decide_eq_true h), if_pos]
      · rw [pure_eq_ok, Except.ok.injEq, eq_comm]
        constructor
        · intro e
          exact ⟨⟨h, by simp⟩, e⟩
        · rintro ⟨-, e⟩; exact e
      · have : (values t.nrows ((c :: l).map fun c => (c.1.2, c.2))).ncols = t.labels.length := by
          have := congrArg List.length h
          simpa [values, rangeList] using this
        simp only [Bool.and_eq_true, decide_eq_true_eq]
        exact ⟨by simp [values], this⟩
    · rw [if_neg (by simpa using h)]
      simp only [reduceCtorEq, false_iff]
      rintro ⟨⟨h1, -⟩, -⟩
      exact h h1

theorem matrix_error (t : PredTable K) (method : Str) (h : ¬ (InOrder t method ∧ labelsOf t method ≠ [])) :
    t.matrix method = .error .keyError ∨ t.matrix method = .error .assertion := by
  have h0 := sub_filter t method
  unfold PredTable.matrix PredTable.sub
  revert h0
  generalize (t.cols.filter fun c => decide (c.1.1 = method)) = f
  intro h0
  cases f with
  | nil => left; rfl
  | cons c l =>
    right
    simp only [ok_bind, pyAssert_bind]
    rw [if_neg]
    rw [decide_eq_true_eq]
    intro e
    apply h
    rw [h0]
    refine ⟨?_, by simp⟩
    unfold InOrder
    rw [h0]; exact e

theorem labels_nodup (n : Nat) : (rangeList n).Nodup :=
  List.nodup_range.map fun a b h => by exact_mod_cast h

/-- A column of a method in order. -/
theorem filter_split {l : Cols (Str × Int) K} {method : Str} {k : Int} {v : List (Flt K)} {a b : Cols (Str × Int) K}
    (h : (l.filter fun c => decide (c.1.1 = method)) = a ++ ((method, k), v) :: b)
    (ha : ∀ c ∈ a, c.1.2 ≠ k) (hb : ∀ c ∈ b, c.1.2 ≠ k) : HasCol l (method, k) v := by
  induction l generalizing a with
  | nil => simp at h
  | cons c l ih =>
    rw [List.filter_cons] at h
    by_cases hc : c.1.1 = method
    · rw [if_pos (decide_eq_true hc)] at h
      cases a with
      | nil =>
        rw [List.nil_append, List.cons.injEq] at h
        refine ⟨[], l, by rw [h.1]; rfl, by simp, ?_⟩
        intro d hd e
        have : d ∈ b := by
          rw [← h.2]
          exact List.mem_filter.2 ⟨hd, by simp [e]⟩
        exact hb d this (by rw [e])
      | cons x a =>
        rw [List.cons_append, List.cons.injEq] at h
        obtain ⟨p, q, e, h1, h2⟩ := ih h.2 fun d hd => ha d (by simp [hd])
        refine ⟨c :: p, q, by rw [e]; rfl, ?_, h2⟩
        intro d hd
        rcases List.mem_cons.1 hd with rfl | hd
        · intro e'
          exact ha x (by simp) (by rw [← h.1, e'])
        · exact h1 d hd
    · rw [if_neg (by simpa using hc)] at h
      obtain ⟨p, q, e, h1, h2⟩ := ih h ha
      refine ⟨c :: p, q, by rw [e]; rfl, ?_, h2⟩
      intro d hd
      rcases List.mem_cons.1 hd with rfl | hd
      · intro e'; exact hc (by rw [e'])
      · exact h1 d hd

theorem isMatrix_of {t : PredTable K} {method : Str} (h : InOrder t method) : IsMatrix t method (matrixOf t method) := by
  have hl := sub_filter t method
  rw [h] at hl
  have hlen : t.labels.length = (t.cols.filter fun c => decide (c.1.1 = method)).length := by
    simpa using congrArg List.length hl
  refine ⟨?_, ?_, ?_, ?_⟩
  · simp [matrixOf, values, hlen]
  · simp [matrixOf, values]
  · intro r hr
    obtain ⟨i, -, rfl⟩ := List.mem_map.1 hr
    simp [matrixOf, values]
  · intro k hk
    generalize hf : (t.cols.filter fun c => decide (c.1.1 = method)) = f at *
    have hk' : k < f.length := hlen ▸ hk
    have hkey : ∀ j (hj : j < f.length), f[j].1 = (method, (j : Int)) := by
      intro j hj
      have h1 : f[j].1.1 = method := by
        have : f[j] ∈ t.cols.filter fun c => decide (c.1.1 = method) := by
          rw [hf]; exact List.getElem_mem hj
        simpa using (List.mem_filter.1 this).2
      have h2 : f[j].1.2 = (j : Int) := by
        have := congrArg (fun l => l[j]?) hl
        simp only [List.getElem?_map] at this
        rw [List.getElem?_range (by omega), List.getElem?_eq_getElem hj] at this
        simpa using this.symm
      exact Prod.ext h1 h2
    refine ⟨f[k].2, ?_, ?_⟩
    · apply filter_split (a := f.take k) (b := f.drop (k + 1))
      · rw [hf]
        have e : ((method, (k : Int)), f[k].2) = f[k] := Prod.ext (hkey k hk').symm rfl
        rw [e, List.cons_getElem_drop_succ, List.take_append_drop]
      · intro c hc
        obtain ⟨j, hj, rfl⟩ := List.getElem_of_mem hc
        rw [List.length_take] at hj
        rw [List.getElem_take, hkey j (by omega)]
        simp; omega
      · intro c hc
        obtain ⟨j, hj, rfl⟩ := List.getElem_of_mem hc
        rw [List.length_drop] at hj
        rw [List.getElem_drop, hkey _ (by omega)]
        simp; omega
    · intro i r hr
      unfold matrixOf values at hr
      rw [hf] at hr
      simp only [List.getElem?_map] at hr
      obtain ⟨j, hj, rfl⟩ := Option.map_eq_some_iff.1 hr
      obtain ⟨hi, rfl⟩ := List.getElem?_eq_some_iff.1 hj
      rw [List.getElem?_map, List.getElem?_map, List.getElem?_eq_getElem hk']
      simp

theorem inOrder_ne_nil {t : PredTable K} {method : Str} (h : InOrder t method) (hn : 1 ≤ t.labels.length) :
    labelsOf t method ≠ [] := by
  rw [h]
  intro e
  have := congrArg List.length e
  simp at this
  rw [this] at hn
  simp at hn

end

theorem anyNaN_iff {K : Type} (p : Mat K) : anyNaN p = true ↔ ∃ r ∈ p.rows, Flt.nan ∈ r := by
  unfold anyNaN
  simp only [List.any_eq_true]
  constructor
  · rintro ⟨r, hr, v, hv, h⟩
    cases v <;> first | exact ⟨r, hr, hv⟩ | simp [Flt.isNaN] at h
  · rintro ⟨r, hr, h⟩; exact ⟨r, hr, _, h, rfl⟩

/-- The predictions a loss function gets. -/
noncomputable def prepared (assume : Bool) (p : Mat ℝ) : Py (Mat ℝ) := if assume then pure p else normalizeRows p

theorem lossStep_ok_iff (n : Nat) (y : LabelVec) (p : Mat ℝ) (method : Str) (s : Cols (Str × Str) ℝ) (m : Str × Metric)
    (out : Cols (Str × Str) ℝ) :
    lossStep n y p method s m = .ok out ↔
      ∃ l, (m.2 y p = .ok l ∧ l.length = n) ∧ out = puts s [((m.1, method), l)] := by
  unfold lossStep
  rw [bind_ok_iff]
  refine exists_congr fun l => ?_
  rw [setCol_ok_iff, and_assoc]
  rfl

theorem lossMethod_ok_iff (t : PredTable ℝ) (y : LabelVec) (metrics : List (Str × Metric)) (assume : Bool)
    (s : Cols (Str × Str) ℝ) (method : Str) (out : Cols (Str × Str) ℝ) :
    lossMethod t y metrics assume s method = .ok out ↔
      ∃ ls, (∃ p q, t.matrix method = .ok p ∧ anyNaN p = false ∧ prepared assume p = .ok q ∧
        List.Forall₂ (fun m l => m.2 y q = .ok l ∧ l.length = t.nrows) metrics ls) ∧
        out = puts s (List.zipWith (fun (m : Str × Metric) l => [((m.1, method), l)]) metrics ls).flatten := by
  unfold lossMethod
  simp only [bind_ok_iff, Mlp.Props.exists_unit, pyAssert_eq_ok]
  constructor
  · rintro ⟨p, hp, hn, q, hq, hl⟩
    obtain ⟨ls, h1, h2⟩ := (foldlM_puts _ _ _ (lossStep_ok_iff t.nrows y q method) metrics s out).1 hl
    exact ⟨ls, ⟨p, q, hp, by simpa using hn, hq, h1⟩, h2⟩
  · rintro ⟨ls, ⟨p, q, hp, hn, hq, h1⟩, h2⟩
    exact ⟨p, hp, by simpa using hn, q, hq,
      (foldlM_puts _ _ _ (lossStep_ok_iff t.nrows y q method) metrics s out).2 ⟨ls, h1, h2⟩⟩

/-- What `loss_table` computes. -/
theorem lossTable_ok_iff (t : PredTable ℝ) (y : LabelVec) (metrics : List (Str × Metric)) (assume : Bool)
    (tbl : Paper.LossTable) :
    lossTable t y metrics assume = .ok tbl ↔
      y.vals.length = t.nrows ∧ (1 ≤ t.nrows ∧ 1 ≤ t.labels.length ∧ 1 ≤ t.methods.length) ∧
      ∃ lss, List.Forall₂ (fun method ls => ∃ p q, t.matrix method = .ok p ∧ anyNaN p = false ∧
          prepared assume p = .ok q ∧ List.Forall₂ (fun m l => m.2 y q = .ok l ∧ l.length = t.nrows) metrics ls)
          t.methods lss ∧
        tbl = ⟨sortLevel (metrics.map fun m => m.1), sortLevel t.methods, t.nrows,
          puts (emptyCols t.nrows (product (metrics.map fun m => m.1) t.methods))
            (List.zipWith (fun method ls =>
              (List.zipWith (fun (m : Str × Metric) l => [((m.1, method), l)]) metrics ls).flatten)
              t.methods lss).flatten⟩ := by
  unfold lossTable
  simp only [bind_ok_iff, Mlp.Props.exists_unit, pyAssert_eq_ok, decide_eq_true_eq, Bool.and_eq_true, pure_eq_ok, Except.ok.injEq]
  constructor
  · rintro ⟨h1, h2, cols, hc, rfl⟩
    obtain ⟨lss, h3, rfl⟩ := (foldlM_puts _ _ _ (lossMethod_ok_iff t y metrics assume) _ _ _).1 hc
    exact ⟨h1, ⟨h2.1.1, h2.1.2, h2.2⟩, lss, h3, rfl⟩
  · rintro ⟨h1, h2, lss, h3, rfl⟩
    exact ⟨h1, ⟨⟨h2.1, h2.2.1⟩, h2.2.2⟩, _,
      (foldlM_puts _ _ _ (lossMethod_ok_iff t y metrics assume) _ _ _).2 ⟨lss, h3, rfl⟩, rfl⟩

end Mlp.Lemmas
