import Verif.Lemmas.Curve
import Mathlib.Data.Rat.Floor
import Mathlib.Data.Fintype.Card

/-! # C57 and C58: `unique_take_last` and `cummax_strict` -/

set_option linter.unusedSectionVars false

namespace Mlp.Props
open Mlp.Util Mlp.Spec Mlp.Lemmas

section
variable {K : Type} [Field K] [LinearOrder K] [IsStrictOrderedRing K]

/-- The positions `unique_take_last` keeps. -/
def lastBits (xp : List (Flt K)) : List Bool := (diff xp).map (fun d => (Flt.fin 0).lt d) ++ [true]

theorem lastBits_cons_cons (a b : Flt K) (l : List (Flt K)) :
    lastBits (a :: b :: l) = (Flt.fin 0).lt (b.sub a) :: lastBits (b :: l) := rfl

/-- `(X, Y)` are the distinct values of `xp` in increasing order, each with the entry of `yp` at its last
occurrence. -/
structure TakesLast {β : Type} (xp : List (Flt K)) (yp : List β) (X : List (Flt K)) (Y : List β) : Prop where
  sorted : X.Pairwise (· < ·)
  mem : ∀ v, v ∈ X ↔ v ∈ xp
  length : X.length = Y.length
  last : ∀ (k : Nat) (v : Flt K) (y : β), X[k]? = some v → Y[k]? = some y →
    ∃ i : Nat, xp[i]? = some v ∧ yp[i]? = some y ∧ ∀ j : Nat, i < j → xp[j]? ≠ some v

theorem mask_takesLast {β : Type} {xp : List (Flt K)} {yp : List β} (h : Sortable xp)
    (hl : xp.length = yp.length) (hne : xp ≠ []) :
    TakesLast xp yp (mask (lastBits xp) xp) (mask (lastBits xp) yp) := by
  induction xp generalizing yp with
  | nil => exact absurd rfl hne
  | cons a xp ih =>
    obtain ⟨y0, yp, rfl⟩ : ∃ y0 yp', yp = y0 :: yp' := by
      cases yp with
      | nil => simp at hl
      | cons y0 yp => exact ⟨y0, yp, rfl⟩
    cases xp with
    | nil =>
      have hy : yp = [] := by
        apply List.eq_nil_of_length_eq_zero
        simpa using hl.symm
      subst hy
      have e : lastBits [a] = [true] := rfl
      rw [e]
      refine ⟨by simp [mask], by simp [mask], by simp [mask], ?_⟩
      intro k v y hk hy
      refine ⟨k, hk, hy, ?_⟩
      intro j hj
      cases k with
      | zero =>
        have : [a][j]? = none := by
          rw [List.getElem?_eq_none_iff]; simp; omega
        rw [this]; simp
      | succ k => simp [mask] at hk
    | cons b l =>
      have h2 : Sortable (b :: l) := by
        refine ⟨fun hc => h.1 (by simp [hc]), (List.pairwise_cons.1 h.2).2⟩
      have ih' := ih (yp := yp) h2 (by simpa using hl) (by simp)
      have hab := (List.pairwise_cons.1 h.2).1
      have ha : a ≠ .nan := fun e => h.1 (by simp [e])
      have hb : b ≠ .nan := fun e => h.1 (by simp [e])
      rw [lastBits_cons_cons]
      by_cases hlt : (Flt.fin 0).lt (b.sub a) = true
      · rw [hlt]
        show TakesLast _ _ (a :: mask (lastBits (b :: l)) (b :: l)) (y0 :: mask (lastBits (b :: l)) yp)
        have hlt' := (zero_lt_sub.1 hlt).2.2
        have hall : ∀ v ∈ b :: l, a < v := by
          intro v hv
          rcases List.mem_cons.1 hv with rfl | hv
          · exact hlt'
          · exact lt_of_lt_of_le hlt' ((List.pairwise_cons.1 h2.2).1 v hv).1
        refine ⟨List.pairwise_cons.2 ⟨fun v hv => hall v ((ih'.mem v).1 hv), ih'.sorted⟩, ?_, ?_, ?_⟩
        · intro v
          rw [List.mem_cons, ih'.mem, List.mem_cons (a := v) (b := a)]
        · simp [ih'.length]
        · intro k v y hk hy
          cases k with
          | zero =>
            simp only [List.getElem?_cons_zero, Option.some.injEq] at hk hy
            subst hk hy
            refine ⟨0, rfl, rfl, ?_⟩
            intro j hj hc
            obtain ⟨j', rfl⟩ : ∃ j', j = j' + 1 := ⟨j - 1, by omega⟩
            rw [List.getElem?_cons_succ] at hc
            exact lt_irrefl _ (hall _ (List.mem_of_getElem? hc))
          | succ k =>
            rw [List.getElem?_cons_succ] at hk hy
            obtain ⟨i, h1, h2, h3⟩ := ih'.last k v y hk hy
            refine ⟨i + 1, by simpa using h1, by simpa using h2, ?_⟩
            intro j hj
            obtain ⟨j', rfl⟩ : ∃ j', j = j' + 1 := ⟨j - 1, by omega⟩
            rw [List.getElem?_cons_succ]
            exact h3 j' (by omega)
      · have hlt0 : (Flt.fin 0).lt (b.sub a) = false := by simpa using hlt
        rw [hlt0]
        show TakesLast _ _ (mask (lastBits (b :: l)) (b :: l)) (mask (lastBits (b :: l)) yp)
        have heq : a = b := by
          have h1 := (hab b (by simp)).1
          by_contra hne
          exact hlt (zero_lt_sub.2 ⟨ha, hb, lt_of_le_of_ne h1 hne⟩)
        refine ⟨ih'.sorted, ?_, ih'.length, ?_⟩
        · intro v
          rw [ih'.mem, heq]; simp
        · intro k v y hk hy
          obtain ⟨i, h1, h2, h3⟩ := ih'.last k v y hk hy
          refine ⟨i + 1, by simpa using h1, by simpa using h2, ?_⟩
          intro j hj
          obtain ⟨j', rfl⟩ : ∃ j', j = j' + 1 := ⟨j - 1, by omega⟩
          rw [List.getElem?_cons_succ]
          exact h3 j' (by omega)

/-- C57: for sorted points the result is the increasing list of the distinct values, each with the
auxiliary entry of its last occurrence; without auxiliary list the points are the same. -/
theorem C57_take_last {β : Type} {xp : List (Flt K)} {yp : List β} (h : Sortable xp)
    (hl : xp.length = yp.length) :
    ∃ X Y, uniqueTakeLast xp (some yp) = .ok (X, some Y) ∧
      uniqueTakeLast xp (none : Option (List β)) = .ok (X, none) ∧ TakesLast xp yp X Y := by
  have hs := sortable_iff.1 h
  have hn := (noNaN_any' xp).2 h.1
  unfold uniqueTakeLast
  simp only [pyAssert_bind, hn, hl, decide_true, if_true, Option.isNone, Bool.or_true, hs.2]
  cases xp with
  | nil =>
    have : yp = [] := List.eq_nil_of_length_eq_zero hl.symm
    subst this
    exact ⟨[], [], rfl, rfl, ⟨by simp, by simp, rfl, by simp⟩⟩
  | cons a xp =>
    have hy : yp.length ≠ 0 := by rw [← hl]; simp
    refine ⟨_, _, ?_, ?_, mask_takesLast h hl (by simp)⟩
    · rw [if_neg hy]; rfl
    · rw [if_neg hy]; rfl

/-- C57: unsorted points (or NaN, or a repeated infinity) raise AssertionError, and so does an auxiliary
list of another length. -/
theorem C57_reject {β : Type} (xp : List (Flt K)) (yp : Option (List β))
    (h : ¬ Sortable xp ∨ ∃ y, yp = some y ∧ xp.length ≠ y.length) :
    uniqueTakeLast xp yp = .error .assertion := by
  unfold uniqueTakeLast
  simp only [pyAssert_bind]
  by_cases h1 : (!(xp.any fun v => v.isNaN)) = true
  swap
  · rw [if_neg h1]
  rw [if_pos h1]
  rcases h with h | ⟨y, rfl, hy⟩
  · have h2 : ¬ ((diff xp).all (fun d => (Flt.fin 0).le d) = true) := fun h2 =>
      h (sortable_iff.2 ⟨(noNaN_any' xp).1 h1, h2⟩)
    simp only [h2, Bool.false_eq_true, if_false, ite_self]
  · simp only [hy, decide_false, Bool.false_eq_true, if_false]

end

example : Sortable (finVec [1, 2, 2, (5 : ℚ)]) := sortable_finVec (by decide +kernel)
example : uniqueTakeLast (finVec [1, 2, 2, (5 : ℚ)]) (some [10, 20, 30, 40]) =
    .ok (finVec [1, 2, 5], some [10, 30, 40]) := by decide +kernel
example : uniqueTakeLast [Flt.fin (0 : ℚ), .pinf, .pinf] (some [1, 2, 3]) = .error .assertion := by
  decide +kernel

/-! ## C58 -/

section
variable {K : Type} [LinearOrder K]

/-- `K` is a grid of floats: `least` is its first element and `next` gives the next larger element
(none after the largest). -/
structure IsGrid (least : K) (next : K → Option K) : Prop where
  least_le : ∀ x, least ≤ x
  next_some : ∀ x y, next x = some y → x < y ∧ ∀ z, x < z → y ≤ z
  next_none : ∀ x, next x = none → ∀ z, z ≤ x

variable {least : K} {next : K → Option K}

theorem nextafter_lt (hg : IsGrid least next) {a : Flt K} (h1 : a ≠ .nan) (h2 : a ≠ .pinf) :
    a < nextafter least next a := by
  cases a with
  | fin x =>
    cases hx : next x with
    | none => rw [show nextafter least next (.fin x) = .pinf by simp [nextafter, hx]]; exact not_le.1 (Flt.not_pinf_le_fin x)
    | some y =>
      rw [show nextafter least next (.fin x) = .fin y by simp [nextafter, hx]]; exact Flt.fin_lt_fin.2 (hg.next_some x y hx).1
  | ninf => exact not_le.1 (Flt.not_fin_le_ninf least)
  | pinf => exact absurd rfl h2
  | nan => exact absurd rfl h1

theorem nextafter_le (hg : IsGrid least next) {a b : Flt K} (h : a < b) : nextafter least next a ≤ b := by
  cases a with
  | fin x =>
    cases hx : next x with
    | none =>
      rw [show nextafter least next (.fin x) = .pinf by simp [nextafter, hx]]
      cases b with
      | fin z => exact absurd (Flt.fin_lt_fin.1 h) (not_lt.2 (hg.next_none x hx z))
      | pinf => exact le_rfl
      | ninf => exact absurd h (not_lt.2 (Flt.ninf_le _))
      | nan => exact Flt.le_nan _
    | some y =>
      rw [show nextafter least next (.fin x) = .fin y by simp [nextafter, hx]]
      cases b with
      | fin z => exact Flt.fin_le_fin.2 ((hg.next_some x y hx).2 z (Flt.fin_lt_fin.1 h))
      | pinf => exact Flt.fin_le_pinf _
      | ninf => exact absurd h (not_lt.2 (Flt.ninf_le _))
      | nan => exact Flt.le_nan _
  | ninf =>
    cases b with
    | fin z => exact Flt.fin_le_fin.2 (hg.least_le z)
    | pinf => exact Flt.fin_le_pinf _
    | ninf => exact absurd h (lt_irrefl _)
    | nan => exact Flt.le_nan _
  | pinf =>
    cases b with
    | nan => exact Flt.le_nan _
    | fin z => exact absurd h (not_lt.2 (Flt.fin_le_pinf z))
    | pinf => exact le_rfl
    | ninf => exact absurd h (not_lt.2 (Flt.ninf_le _))
  | nan => exact absurd h (not_lt.2 (Flt.le_nan _))

theorem loop_ge (prev : Flt K) (l : List (Flt K)) :
    List.Forall₂ (· ≤ ·) l (cummaxLoop least next prev l) := by
  induction l generalizing prev with
  | nil => exact .nil
  | cons a l ih => exact .cons (le_max_right _ _) (ih _)

/-- The loop stays below every strictly increasing list of floats above the input. -/
theorem loop_least (hg : IsGrid least next) {prev y0 : Flt K} {l y : List (Flt K)} (h0 : prev ≤ y0)
    (hy : (y0 :: y).IsChain (· < ·)) (hn : ∀ v ∈ y0 :: y, v ≠ .nan) (hl : List.Forall₂ (· ≤ ·) l y) :
    List.Forall₂ (· ≤ ·) (cummaxLoop least next prev l) y ∧
      (prev :: cummaxLoop least next prev l).IsChain fun a b => a.lt b = true := by
  induction hl generalizing prev y0 with
  | nil => exact ⟨.nil, by simp [cummaxLoop]⟩
  | @cons a y1 l y hay _ ih =>
    rw [List.isChain_cons_cons] at hy
    have hlt : prev < y1 := lt_of_le_of_lt h0 hy.1
    have hy1 : y1 ≠ .nan := hn y1 (by simp)
    have hp1 : prev ≠ .nan := by
      rintro rfl; exact absurd hlt (not_lt.2 (Flt.le_nan _))
    have hp2 : prev ≠ .pinf := by
      rintro rfl; exact absurd hlt (not_lt.2 (Flt.le_pinf hy1))
    have hv : Flt.maximum (nextafter least next prev) a ≤ y1 := max_le (nextafter_le hg hlt) hay
    obtain ⟨i1, i2⟩ := ih hv hy.2 (fun v hv => hn v (by simp only [List.mem_cons] at hv ⊢; tauto))
    refine ⟨.cons hv i1, ?_⟩
    show (prev :: Flt.maximum (nextafter least next prev) a :: cummaxLoop least next _ l).IsChain _
    rw [List.isChain_cons_cons]
    refine ⟨?_, i2⟩
    rw [Flt.lt_iff]
    constructor
    · intro e
      rw [e, Flt.nan_le_iff] at hv
      exact hy1 hv
    · exact lt_of_lt_of_le (nextafter_lt hg hp1 hp2) (le_max_left _ _)

theorem zip_lt_chain (l : List (Flt K)) :
    (List.zipWith (fun (a b : Flt K) => a.lt b) l l.tail).all id = true ↔
      l.IsChain fun a b => a.lt b = true := by
  induction l with
  | nil => simp
  | cons a l ih =>
    cases l with
    | nil => simp
    | cons b l =>
      rw [List.tail_cons] at ih ⊢
      rw [List.zipWith_cons_cons, List.all_cons, Bool.and_eq_true, List.isChain_cons_cons, ← ih]
      rfl

/-- C58: a returned list is strictly increasing and nowhere below the input. -/
theorem C58_strict {x out : List (Flt K)} (h : cummaxStrict least next x = .ok out) :
    out.Pairwise (· < ·) ∧ List.Forall₂ (· ≤ ·) x out := by
  unfold cummaxStrict at h
  rw [pyAssert_bind] at h
  split at h
  · rename_i hc
    cases h
    rw [zip_lt_chain] at hc
    constructor
    · rw [← List.isChain_iff_pairwise]
      exact hc.imp fun a b hab => (Flt.lt_iff.1 hab).2
    · cases x with
      | nil => exact .nil
      | cons a l => exact .cons le_rfl (loop_ge _ _)
  · cases h

/-- C58: whenever some strictly increasing list of floats lies above the input, the call succeeds, and
its result is pointwise below that list.  So the result is the least such list. -/
theorem C58_least (hg : IsGrid least next) {x y : List (Flt K)} (hy : y.Pairwise (· < ·)) (hn : NoNaN y)
    (hl : List.Forall₂ (· ≤ ·) x y) :
    ∃ out, cummaxStrict least next x = .ok out ∧ List.Forall₂ (· ≤ ·) out y := by
  cases hl with
  | nil => exact ⟨[], rfl, .nil⟩
  | @cons a y0 l y h0 hl =>
    obtain ⟨h1, h2⟩ := loop_least hg (prev := a) h0 (List.isChain_iff_pairwise.2 hy)
      (fun v hv e => hn (e ▸ hv)) hl
    refine ⟨a :: cummaxLoop least next a l, ?_, .cons h0 h1⟩
    unfold cummaxStrict
    rw [pyAssert_bind]
    exact if_pos ((zip_lt_chain _).2 h2)

theorem forall₂_le_antisymm {l l' : List (Flt K)} (h : List.Forall₂ (· ≤ ·) l l')
    (h' : List.Forall₂ (· ≤ ·) l' l) : l = l' := by
  induction h with
  | nil => rfl
  | cons h1 _ ih =>
    cases h' with
    | cons h2 h3 => rw [le_antisymm h1 h2, ih h3]

/-- C58: a list that is strictly increasing already stays as it is. -/
theorem C58_unchanged (hg : IsGrid least next) {x : List (Flt K)} (hx : x.Pairwise (· < ·)) (hn : NoNaN x) :
    cummaxStrict least next x = .ok x := by
  obtain ⟨out, h1, h2⟩ := C58_least hg hx hn (List.forall₂_same.2 fun _ _ => le_rfl)
  obtain ⟨-, h3⟩ := C58_strict h1
  rw [h1, forall₂_le_antisymm h2 h3]

/-- C58: with at least two entries, AssertionError means that there is no strictly increasing list of
floats above the input (a NaN, or no room below `+inf`). -/
theorem C58_reject {x : List (Flt K)} (h2 : 2 ≤ x.length)
    (h : ∀ y : List (Flt K), y.Pairwise (· < ·) → NoNaN y → ¬ List.Forall₂ (· ≤ ·) x y) :
    cummaxStrict least next x = .error .assertion := by
  cases hc : cummaxStrict least next x with
  | ok out =>
    exfalso
    obtain ⟨h3, h4⟩ := C58_strict hc
    refine h out h3 ?_ h4
    unfold cummaxStrict at hc
    rw [pyAssert_bind] at hc
    split at hc
    · rename_i hch
      cases hc
      rw [zip_lt_chain] at hch
      revert hch
      match x, h2 with
      | a :: b :: l, _ =>
        intro hch hm
        have key : ∀ (l : List (Flt K)) (a b : Flt K), (a :: b :: l).IsChain (fun a b => a.lt b = true) →
            Flt.nan ∉ a :: b :: l := by
          intro l
          induction l with
          | nil =>
            intro a b h hm
            rw [List.isChain_cons_cons] at h
            have := Flt.lt_iff.1 h.1
            simp only [List.mem_cons, List.not_mem_nil, or_false] at hm
            rcases hm with rfl | rfl
            · exact absurd this.2 (not_lt.2 (Flt.le_nan _))
            · exact this.1 rfl
          | cons c l ih =>
            intro a b h hm
            rw [List.isChain_cons_cons] at h
            rcases List.mem_cons.1 hm with rfl | hm
            · exact absurd (Flt.lt_iff.1 h.1).2 (not_lt.2 (Flt.le_nan _))
            · exact ih b c h.2 hm
        exact key _ _ _ hch hm
    · cases hc
  | error e =>
    unfold cummaxStrict at hc
    rw [pyAssert_bind] at hc
    split at hc
    · cases hc
    · cases hc; rfl

end

/-- The grid 0, 1, …, 9. -/
theorem exGrid : IsGrid (0 : Fin 10) (fun x => if h : x.val + 1 < 10 then some ⟨x.val + 1, h⟩ else none) := by
  refine ⟨fun x => Fin.zero_le x, ?_, ?_⟩
  · intro x y h
    split at h
    · cases h
      refine ⟨Fin.lt_def.2 (by simp), fun z hz => Fin.le_def.2 ?_⟩
      have := Fin.lt_def.1 hz
      simp; omega
    · cases h
  · intro x h z
    split at h
    · cases h
    · exact Fin.le_def.2 (by omega)

example : cummaxStrict (0 : Fin 10) (fun x => if h : x.val + 1 < 10 then some ⟨x.val + 1, h⟩ else none)
    [.fin 3, .fin 3, .fin 1, .fin 7, .pinf] = .ok [.fin 3, .fin 4, .fin 5, .fin 7, .pinf] := by
  decide +kernel
example : cummaxStrict (0 : Fin 10) (fun x => if h : x.val + 1 < 10 then some ⟨x.val + 1, h⟩ else none)
    [.fin 9, .fin 9, .fin 9] = .error .assertion := by decide +kernel

end Mlp.Props
