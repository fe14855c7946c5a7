import Verif.Model.UtilHeap
import Verif.Props.Unique

/-! # C123: what `cummax_strict` does to the memory -/

set_option linter.unusedSectionVars false

namespace Mlp.Props
open Mlp.Util Mlp.Spec Mlp.Lemmas

section
variable {K : Type} [LinearOrder K] {least : K} {next : K → Option K}

theorem arrayAt_set {m : Heap K} {ref : Nat} (h : ref < m.length) (v : List (Flt K)) :
    arrayAt (m.set ref v) ref = v := by
  simp [arrayAt, h]

theorem arrayAt_set_ne {m : Heap K} {ref r : Nat} (h : r ≠ ref) (v : List (Flt K)) :
    arrayAt (m.set ref v) r = arrayAt m r := by
  simp [arrayAt, List.getElem?_set, Ne.symm h]

/-- The writes from position `i` on, when the entry before is `p`, are the functional loop on the rest. -/
theorem cummaxWrite_fold (ref : Nat) (m : Heap K) (h : ref < m.length) (pre : List (Flt K)) (p : Flt K)
    (l : List (Flt K)) (hr : arrayAt m ref = pre ++ p :: l) :
    (List.range' (pre.length + 1) l.length).foldl (cummaxWrite least next ref) m =
      m.set ref (pre ++ p :: cummaxLoop least next p l) := by
  induction l generalizing m pre p with
  | nil =>
    have : m[ref] = pre ++ [p] := by simpa [arrayAt, h] using hr
    simp only [List.length_nil, List.range'_zero, List.foldl_nil, cummaxLoop]
    rw [← this, List.set_getElem_self]
  | cons a l ih =>
    have step : cummaxWrite least next ref m (pre.length + 1) =
        m.set ref (pre ++ p :: Flt.maximum (nextafter least next p) a :: l) := by
      have e1 : (pre ++ p :: a :: l)[pre.length + 1 - 1]? = some p := by simp
      have e2 : (pre ++ p :: a :: l)[pre.length + 1]? = some a := by simp
      simp only [cummaxWrite, hr, e1, e2]
      congr 1
      rw [List.set_append_right _ _ (by omega)]
      simp
    rw [List.length_cons, List.range'_succ, List.foldl_cons, step]
    have := ih (m.set ref (pre ++ p :: Flt.maximum (nextafter least next p) a :: l))
      (by simpa using h) (pre ++ [p]) (Flt.maximum (nextafter least next p) a)
      (by rw [arrayAt_set h]; simp)
    simp only [List.length_append, List.length_cons, List.length_nil, Nat.zero_add] at this
    rw [this, List.set_set]
    simp [cummaxLoop]

theorem cummaxWrite_run (ref : Nat) (m : Heap K) (h : ref < m.length) :
    (List.range' 1 ((arrayAt m ref).length - 1)).foldl (cummaxWrite least next ref) m =
      m.set ref (cummaxRun least next (arrayAt m ref)) := by
  cases hr : arrayAt m ref with
  | nil =>
    have : m[ref] = [] := by simpa [arrayAt, h] using hr
    simp only [List.length_nil, Nat.zero_sub, List.range'_zero, List.foldl_nil, cummaxRun]
    rw [← this, List.set_getElem_self]
  | cons a l => exact cummaxWrite_fold ref m h [] a l hr

theorem cummaxStrict_ok_iff {x out : List (Flt K)} :
    cummaxStrict least next x = .ok out ↔ out = cummaxRun least next x ∧
      (List.zipWith (fun (a b : Flt K) => a.lt b) out out.tail).all id = true := by
  unfold cummaxStrict
  rw [pyAssert_bind]
  constructor
  · intro h
    split at h
    · rename_i hc; cases h; exact ⟨rfl, hc⟩
    · cases h
  · rintro ⟨rfl, h⟩
    exact if_pos h

/-- C123: with `copy=True` (the default) no existing array is changed, whether the call returns or raises;
if it returns, the result is a new array with the values of the functional model. -/
theorem C123_copy (m : Heap K) {x : Nat} (hx : x < m.length) :
    let out := cummaxStrictMem least next m x true
    (∀ r < m.length, arrayAt out.2 r = arrayAt m r) ∧
    (∀ r, out.1 = .ok r → m.length ≤ r ∧ r < out.2.length ∧
      cummaxStrict least next (arrayAt m x) = .ok (arrayAt out.2 r)) ∧
    (∀ e, out.1 = .error e → e = .assertion ∧ cummaxStrict least next (arrayAt m x) = .error .assertion) := by
  have hl : m.length < (m ++ [arrayAt m x]).length := by simp
  have hread : arrayAt (m ++ [arrayAt m x]) m.length = arrayAt m x := by simp [arrayAt]
  have key : cummaxStrictMem least next m x true =
      (if (List.zipWith (fun (a b : Flt K) => a.lt b) (cummaxRun least next (arrayAt m x))
        (cummaxRun least next (arrayAt m x)).tail).all id = true then .ok m.length else .error .assertion,
        (m ++ [arrayAt m x]).set m.length (cummaxRun least next (arrayAt m x))) := by
    simp only [cummaxStrictMem, if_true]
    rw [cummaxWrite_run _ _ hl, arrayAt_set hl, hread]
    split <;> rfl
  have old : ∀ r < m.length, arrayAt ((m ++ [arrayAt m x]).set m.length (cummaxRun least next (arrayAt m x))) r =
      arrayAt m r := by
    intro r hr
    rw [arrayAt_set_ne (Nat.ne_of_lt hr)]
    simp [arrayAt, List.getElem?_append_left hr]
  intro out
  have ho : out = _ := key
  rw [ho]
  refine ⟨old, ?_, ?_⟩
  · intro r hr
    dsimp only at hr ⊢
    split at hr
    · rename_i hc
      cases hr
      refine ⟨le_rfl, by simp, ?_⟩
      rw [arrayAt_set hl, cummaxStrict_ok_iff]
      exact ⟨rfl, hc⟩
    · cases hr
  · intro e he
    dsimp only at he
    split at he
    · cases he
    · rename_i hc
      cases he
      refine ⟨rfl, ?_⟩
      unfold cummaxStrict
      rw [pyAssert_bind]
      exact if_neg hc

/-- C123: with `copy=False` the call allocates nothing, changes no array but the argument, and returns the
argument itself, which then holds the values of the functional model.  -/
theorem C123_inplace (m : Heap K) {x : Nat} (hx : x < m.length) :
    let out := cummaxStrictMem least next m x false
    out.2.length = m.length ∧
    (∀ r, r ≠ x → arrayAt out.2 r = arrayAt m r) ∧
    (∀ r, out.1 = .ok r → r = x ∧ cummaxStrict least next (arrayAt m x) = .ok (arrayAt out.2 x)) ∧
    (∀ e, out.1 = .error e → e = .assertion ∧ cummaxStrict least next (arrayAt m x) = .error .assertion) := by
  have key : cummaxStrictMem least next m x false =
      (if (List.zipWith (fun (a b : Flt K) => a.lt b) (cummaxRun least next (arrayAt m x))
        (cummaxRun least next (arrayAt m x)).tail).all id = true then .ok x else .error .assertion,
        m.set x (cummaxRun least next (arrayAt m x))) := by
    simp only [cummaxStrictMem, Bool.false_eq_true, if_false]
    rw [cummaxWrite_run _ _ hx, arrayAt_set hx]
    split <;> rfl
  intro out
  have ho : out = _ := key
  rw [ho]
  refine ⟨by simp, fun r hr => arrayAt_set_ne hr _, ?_, ?_⟩
  · intro r hr
    dsimp only at hr ⊢
    split at hr
    · rename_i hc
      cases hr
      refine ⟨rfl, ?_⟩
      rw [arrayAt_set hx, cummaxStrict_ok_iff]
      exact ⟨rfl, hc⟩
    · cases hr
  · intro e he
    dsimp only at he
    split at he
    · cases he
    · rename_i hc
      cases he
      refine ⟨rfl, ?_⟩
      unfold cummaxStrict
      rw [pyAssert_bind]
      exact if_neg hc

theorem arrayAt_inplace (m : Heap K) {x : Nat} (hx : x < m.length) :
    arrayAt (cummaxStrictMem least next m x false).2 x = cummaxRun least next (arrayAt m x) := by
  simp only [cummaxStrictMem, Bool.false_eq_true, if_false]
  rw [cummaxWrite_run _ _ hx, arrayAt_set hx]
  split <;> exact arrayAt_set hx _

/-- C123: whatever the outcome of a call with `copy=False`, the argument keeps its length and its first
entry, and no entry becomes smaller (a NaN counting as largest).  So a failed call has already changed the
caller's array, but only upwards. -/
theorem C123_inplace_above (m : Heap K) {x : Nat} (hx : x < m.length) :
    let after := arrayAt (cummaxStrictMem least next m x false).2 x
    after.head? = (arrayAt m x).head? ∧ List.Forall₂ (· ≤ ·) (arrayAt m x) after := by
  intro after
  have : after = _ := arrayAt_inplace m hx
  rw [this]
  cases arrayAt m x with
  | nil => exact ⟨rfl, .nil⟩
  | cons a l => exact ⟨rfl, .cons le_rfl (loop_ge _ _)⟩

/-- C123: for an array without NaN, a call with `copy=False` leaves the argument as it was exactly if it was
strictly increasing, or is `+inf` from some entry on and strictly increasing up to there. -/
theorem C123_unchanged (hg : IsGrid least next) (m : Heap K) {x : Nat} (hx : x < m.length)
    (hn : NoNaN (arrayAt m x)) :
    arrayAt (cummaxStrictMem least next m x false).2 x = arrayAt m x ↔
      (arrayAt m x).IsChain (fun a b => a < b ∨ a = .pinf ∧ b = .pinf) := by
  rw [arrayAt_inplace m hx]
  have key : ∀ (l : List (Flt K)) (a : Flt K), NoNaN (a :: l) →
      (cummaxLoop least next a l = l ↔ (a :: l).IsChain (fun a b => a < b ∨ a = .pinf ∧ b = .pinf)) := by
    intro l
    induction l with
    | nil => intro a _; simp [cummaxLoop]
    | cons b l ih =>
      intro a hn
      have hna : a ≠ .nan := fun e => hn (by simp [e])
      have hnb : b ≠ .nan := fun e => hn (by simp [e])
      have hb := ih b (fun e => hn (List.mem_cons_of_mem _ e))
      rw [List.isChain_cons_cons, ← hb]
      have hm : Flt.maximum (nextafter least next a) b = b ↔ (a < b ∨ a = .pinf ∧ b = .pinf) := by
        show max (nextafter least next a) b = b ↔ _
        rw [max_eq_right_iff]
        constructor
        · intro h
          by_cases ha : a = .pinf
          · subst ha
            right
            exact ⟨rfl, le_antisymm (Flt.le_pinf hnb) h⟩
          · exact .inl (lt_of_lt_of_le (nextafter_lt hg hna ha) h)
        · rintro (h | ⟨rfl, rfl⟩)
          · exact nextafter_le hg h
          · exact le_rfl
      simp only [cummaxLoop, List.cons.injEq]
      constructor
      · rintro ⟨h1, h2⟩
        exact ⟨hm.1 h1, by rwa [h1] at h2⟩
      · rintro ⟨h1, h2⟩
        refine ⟨hm.2 h1, ?_⟩
        rw [hm.2 h1]; exact h2
  cases hr : arrayAt m x with
  | nil => simp [cummaxRun]
  | cons a l =>
    rw [hr] at hn
    rw [← key l a hn]
    simp [cummaxRun]

end

/-- The next entry of the grid 0, 1, …, 9. -/
abbrev next10 : Fin 10 → Option (Fin 10) := fun x => if h : x.val + 1 < 10 then some ⟨x.val + 1, h⟩ else none

/-- A heap with two arrays: the second is worked on, in both modes. -/
example : cummaxStrictMem (0 : Fin 10) next10 [[.fin 5, .fin 5], [.fin 3, .fin 3, .fin 1, .fin 7]] 1 true =
    (.ok 2, [[.fin 5, .fin 5], [.fin 3, .fin 3, .fin 1, .fin 7], [.fin 3, .fin 4, .fin 5, .fin 7]]) := by
  decide +kernel
example : cummaxStrictMem (0 : Fin 10) next10 [[.fin 5, .fin 5], [.fin 3, .fin 3, .fin 1, .fin 7]] 1 false =
    (.ok 1, [[.fin 5, .fin 5], [.fin 3, .fin 4, .fin 5, .fin 7]]) := by decide +kernel
/-- A failing call with `copy=False` leaves a changed argument behind. -/
example : cummaxStrictMem (0 : Fin 10) next10 [[.fin 8, .fin 8, .pinf, .pinf]] 0 false =
    (.error .assertion, [[.fin 8, .fin 9, .pinf, .pinf]]) := by decide +kernel
/-- `[3, inf, inf]` is left as it was although the call fails. -/
example : arrayAt (cummaxStrictMem (0 : Fin 10) next10 [[.fin 3, .pinf, .pinf]] 0 false).2 0 =
    [.fin 3, .pinf, .pinf] :=
  (C123_unchanged exGrid _ (by decide) (by unfold NoNaN; decide)).2 (by
    simp only [arrayAt, List.getElem?_cons_zero, Option.getD_some, List.isChain_cons_cons]
    decide)
end Mlp.Props
