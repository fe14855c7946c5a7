import Verif.Lemmas.Curve
import Verif.Lemmas.PermInv
import Mathlib.Data.Rat.Floor

/-! # C59: `eval_step_func` -/

set_option linter.unusedSectionVars false

namespace Mlp.Props
open Mlp.Util Mlp.Spec Mlp.Lemmas

section
variable {K : Type} [Field K] [LinearOrder K] [IsStrictOrderedRing K] {β : Type}

/-- `y` is the value at `v` of the right-continuous step function with the steps `(xp, yp)` and the value
`ival` before the first step. -/
def IsStep (xp : List (Flt K)) (yp : List β) (ival : Option β) (v : Flt K) (y : β) : Prop :=
  (∃ x, (x, y) ∈ xp.zip yp ∧ x ≤ v ∧ ∀ x' ∈ xp, x' ≤ v → x' ≤ x) ∨
    ((∀ x ∈ xp, ¬ x ≤ v) ∧ ival = some y)

/-- `σ` lists the positions of `l` in an order that sorts `l`. -/
def SortsList (σ : List Nat) (l : List (Flt K)) : Prop :=
  σ.Perm (List.range l.length) ∧ (reorder σ l).Pairwise (· ≤ ·)

/-- The grid is acceptable without an initial value: no point is before the first step. -/
def Covered (xp xGrid : List (Flt K)) : Prop := ∀ v ∈ xGrid, v ≠ .nan ∧ ∃ x ∈ xp, x ≤ v

theorem isStep_unique {xp : List (Flt K)} {yp : List β} {ival : Option β} {v : Flt K} {y y' : β}
    (hl : xp.length = yp.length) (hd : xp.Nodup) (h : IsStep xp yp ival v y) (h' : IsStep xp yp ival v y') :
    y = y' := by
  have mem : ∀ {x : Flt K} {y : β}, (x, y) ∈ xp.zip yp → x ∈ xp := fun h => (List.of_mem_zip h).1
  rcases h with ⟨x, h1, h2, h3⟩ | ⟨h1, h2⟩ <;> rcases h' with ⟨x', h1', h2', h3'⟩ | ⟨h1', h2'⟩
  · have e : x = x' := le_antisymm (h3' x (mem h1) h2) (h3 x' (mem h1') h2')
    subst e
    obtain ⟨i, hi, ei⟩ := List.getElem_of_mem h1
    obtain ⟨j, hj, ej⟩ := List.getElem_of_mem h1'
    rw [List.getElem_zip, Prod.mk.injEq] at ei ej
    have hz : (xp.zip yp).length = xp.length := by rw [List.length_zip]; omega
    have hij : i = j :=
      (List.Nodup.getElem_inj_iff hd (hi := hz ▸ hi) (hj := hz ▸ hj)).1 (ei.1.trans ej.1.symm)
    subst hij
    rw [← ei.2, ← ej.2]
  · exact absurd h2 (h1' x (mem h1))
  · exact absurd h2' (h1 x' (mem h1'))
  · rw [h2] at h2'; exact Option.some.inj h2'

theorem isStep_perm {xp xp' : List (Flt K)} {yp yp' : List β} (h : (xp.zip yp).Perm (xp'.zip yp'))
    (hx : xp.Perm xp') (ival : Option β) (v : Flt K) (y : β) :
    IsStep xp yp ival v y ↔ IsStep xp' yp' ival v y := by
  unfold IsStep
  simp only [h.mem_iff, hx.mem_iff]

/-- For strictly increasing steps, the position found by bisection is the step. -/
theorem step_sorted {X : List (Flt K)} {Y : List β} (hX : X.Pairwise (· < ·)) (hl : X.length = Y.length)
    (v : Flt K) :
    (searchRight X v = 0 ∧ ∀ x ∈ X, ¬ x ≤ v) ∨
      (0 < searchRight X v ∧ ∃ h : searchRight X v - 1 < Y.length,
        IsStep X Y none v (Y[searchRight X v - 1])) := by
  have hle : X.Pairwise (· ≤ ·) := hX.imp fun h => h.le
  rcases Nat.eq_zero_or_pos (searchRight X v) with h | h
  · left
    refine ⟨h, fun x hx => ?_⟩
    unfold searchRight at h
    rw [List.countP_eq_zero] at h
    simpa using h x hx
  · right
    have hc : searchRight X v ≤ X.length := List.countP_le_length
    refine ⟨h, by omega, Or.inl ⟨X[searchRight X v - 1]'(by omega), ?_, ?_, ?_⟩⟩
    · rw [List.mem_iff_getElem]
      refine ⟨searchRight X v - 1, by rw [List.length_zip]; omega, ?_⟩
      rw [List.getElem_zip]
    · rw [count_prefix hle v]
      show _ < searchRight X v
      omega
    · intro x' hx' hv
      obtain ⟨j, hj, rfl⟩ := List.getElem_of_mem hx'
      rw [count_prefix hle v] at hv
      change j < searchRight X v at hv
      rcases Nat.lt_or_ge j (searchRight X v - 1) with hjl | hjl
      · exact (List.pairwise_iff_getElem.1 hle j _ hj (by omega) hjl)
      · have : j = searchRight X v - 1 := by omega
        subst this; exact le_rfl

theorem pyIdx_zero (l : List β) : pyIdx l 0 = match l with
    | [] => .error .indexError
    | a :: _ => .ok a := by
  cases l <;> rfl

theorem mapM_forall₂ {α γ : Type} {f : α → Py γ} {R : α → γ → Prop} {l : List α}
    (h : ∀ a ∈ l, ∃ b, f a = .ok b ∧ R a b) : ∃ out, l.mapM f = .ok out ∧ List.Forall₂ R l out := by
  induction l with
  | nil => exact ⟨[], rfl, .nil⟩
  | cons a l ih =>
    obtain ⟨b, h1, h2⟩ := h a (by simp)
    obtain ⟨out, h3, h4⟩ := ih fun a ha => h a (by simp [ha])
    refine ⟨b :: out, ?_, .cons h2 h4⟩
    rw [List.mapM_cons, h1, ok_bind, h3]; rfl

/-- The part of `eval_step_func` after sorting, on strictly increasing steps. -/
theorem eval_sorted {X : List (Flt K)} {Y : List β} (hX : X.Pairwise (· < ·)) (hn : NoNaN X)
    (hl : X.length = Y.length) (xGrid : List (Flt K)) (ival : Option β) (argsort : List (Flt K) → List Nat)
    (skip : Bool) (hc : ival = none → Covered X xGrid) :
    ∃ out, evalStepFunc argsort xGrid X Y ival true skip = .ok out ∧
      List.Forall₂ (IsStep X Y ival) xGrid out := by
  have hs : (skip || (diff X).all fun d => (Flt.fin 0).lt d) = true := by
    rw [(strict_iff hn).2 hX, Bool.or_true]
  unfold evalStepFunc
  simp only [pyAssert_bind, hl, decide_true, if_true, pure_eq_ok, ok_bind, hs]
  cases ival with
  | none =>
    have hcov := hc rfl
    simp only
    by_cases h0 : xGrid.length = 0
    · have : xGrid = [] := List.eq_nil_of_length_eq_zero h0
      subst this
      exact ⟨[], rfl, .nil⟩
    rw [if_neg h0]
    obtain ⟨w, hw⟩ := List.exists_mem_of_length_pos (Nat.pos_of_ne_zero h0)
    cases X with
    | nil => obtain ⟨-, x, hx, -⟩ := hcov w hw; simp at hx
    | cons x0 X =>
      have hall : (xGrid.all fun v => x0.le v) = true := by
        rw [List.all_eq_true]
        intro v hv
        obtain ⟨h1, x, hx, hxv⟩ := hcov v hv
        rw [Flt.le_iff]
        refine ⟨h1, le_trans ?_ hxv⟩
        rcases List.mem_cons.1 hx with rfl | hx
        · exact le_rfl
        · exact ((List.pairwise_cons.1 hX).1 x hx).le
      rw [pyIdx_zero]
      simp only [ok_bind, hall, if_true]
      refine mapM_forall₂ fun v hv => ?_
      rcases step_sorted hX hl v with ⟨-, h2⟩ | ⟨h1, h2, h3⟩
      · obtain ⟨-, x, hx, hxv⟩ := hcov v hv
        exact absurd hxv (h2 x hx)
      · refine ⟨_, ?_, h3⟩
        rw [show ((searchRight (x0 :: X) v : Int) - 1) = ((searchRight (x0 :: X) v - 1 : Nat) : Int) by omega]
        exact pyIdx_nat _ _ h2
  | some i =>
    simp only [ok_bind]
    refine mapM_forall₂ fun v _ => ?_
    have e : searchRight (Flt.ninf :: X) v = searchRight X v + 1 := by
      unfold searchRight
      rw [List.countP_cons]
      simp
    rw [e, show (((searchRight X v + 1 : Nat) : Int) - 1) = ((searchRight X v : Nat) : Int) by omega]
    have hlen : searchRight X v < (i :: Y).length := by
      have : searchRight X v ≤ X.length := List.countP_le_length
      rw [List.length_cons]; omega
    refine ⟨_, pyIdx_nat _ _ hlen, ?_⟩
    rcases step_sorted hX hl v with ⟨h1, h2⟩ | ⟨h1, h2, h3⟩
    · right
      refine ⟨h2, ?_⟩
      simp [h1]
    · left
      have : (i :: Y)[searchRight X v] = Y[searchRight X v - 1] := by
        rw [List.getElem_cons, dif_neg (by omega)]
      rw [this]
      rcases h3 with h3 | ⟨-, h3⟩
      · exact h3
      · cases h3

theorem eval_reduce {xp : List (Flt K)} {yp : List β} {argsort : List (Flt K) → List Nat}
    (hl : xp.length = yp.length) (ha : (argsort xp).Perm (List.range xp.length)) (xGrid : List (Flt K))
    (ival : Option β) (skip : Bool) :
    evalStepFunc argsort xGrid xp yp ival false skip =
      evalStepFunc argsort xGrid (reorder (argsort xp) xp) (reorder (argsort xp) yp) ival true skip := by
  have hlt : ∀ i ∈ argsort xp, i < xp.length := fun i hi => List.mem_range.1 (ha.mem_iff.1 hi)
  have e1 := takeIdx_ok xp (argsort xp) hlt
  have e2 := takeIdx_ok yp (argsort xp) (fun i hi => hl ▸ hlt i hi)
  have e3 : (reorder (argsort xp) xp).length = (reorder (argsort xp) yp).length := by
    rw [(reorder_perm (l := xp) ha).length_eq, (reorder_perm (l := yp) (hl ▸ ha)).length_eq, hl]
  unfold evalStepFunc
  simp only [pyAssert_bind, hl, decide_true, if_true, e1, e2, ok_bind, e3, Bool.false_eq_true, if_false,
    pure_eq_ok]
  rfl

/-- The steps are given in increasing order, or the function is left to sort them. -/
def StepsReady (argsort : List (Flt K) → List Nat) (assumeSorted : Bool) (xp : List (Flt K)) : Prop :=
  if assumeSorted = true then xp.Pairwise (· ≤ ·) else SortsList (argsort xp) xp

theorem zip_reorder {xp : List (Flt K)} {yp : List β} {σ : List Nat}
    (hl : xp.length = yp.length) (ha : σ.Perm (List.range xp.length)) :
    ((reorder σ xp).zip (reorder σ yp)).Perm (xp.zip yp) := by
  have hlt : ∀ i ∈ σ, i < xp.length := fun i hi => List.mem_range.1 (ha.mem_iff.1 hi)
  have e := reorder_zipWith Prod.mk hlt (fun i hi => hl ▸ hlt i hi : ∀ i ∈ σ, i < yp.length)
  show (List.zipWith Prod.mk _ _).Perm (List.zipWith Prod.mk _ _)
  rw [← e]
  apply reorder_perm
  unfold IsPerm
  rw [List.length_zipWith, ← hl, Nat.min_self]
  exact ha

/-- Sorting the steps first changes nothing about the step function. -/
theorem eval_ready {xp : List (Flt K)} {yp : List β} {argsort : List (Flt K) → List Nat}
    {assumeSorted : Bool} (hl : xp.length = yp.length) (hr : StepsReady argsort assumeSorted xp) :
    ∃ X Y, X.Pairwise (· ≤ ·) ∧ X.length = Y.length ∧ X.Perm xp ∧ (X.zip Y).Perm (xp.zip yp) ∧
      ∀ xGrid ival skip, evalStepFunc argsort xGrid xp yp ival assumeSorted skip =
        evalStepFunc argsort xGrid X Y ival true skip := by
  cases assumeSorted with
  | true =>
    exact ⟨xp, yp, by simpa [StepsReady] using hr, hl, .refl _, .refl _, fun _ _ _ => rfl⟩
  | false =>
    have hr : SortsList (argsort xp) xp := by simpa [StepsReady] using hr
    refine ⟨reorder (argsort xp) xp, reorder (argsort xp) yp, hr.2, ?_, reorder_perm hr.1,
      zip_reorder hl hr.1, fun xGrid ival skip => eval_reduce hl hr.1 xGrid ival skip⟩
    rw [(reorder_perm (l := xp) hr.1).length_eq, (reorder_perm (l := yp) (hl ▸ hr.1)).length_eq, hl]

/-- C59: for distinct step points, each grid point gets the value of the largest step point at or below
it, or `ival` if there is none. -/
theorem C59_step {xp : List (Flt K)} {yp : List β} {argsort : List (Flt K) → List Nat}
    {assumeSorted : Bool} (hl : xp.length = yp.length) (hr : StepsReady argsort assumeSorted xp)
    (hn : NoNaN xp) (hd : xp.Nodup) (xGrid : List (Flt K)) (ival : Option β) (skip : Bool)
    (hc : ival = none → Covered xp xGrid) :
    ∃ out, evalStepFunc argsort xGrid xp yp ival assumeSorted skip = .ok out ∧
      List.Forall₂ (IsStep xp yp ival) xGrid out := by
  obtain ⟨X, Y, h1, h2, h3, h4, h5⟩ := eval_ready hl hr
  have hX : X.Pairwise (· < ·) := by
    have := h1.and (h3.nodup_iff.2 hd)
    exact this.imp fun hab => lt_of_le_of_ne hab.1 hab.2
  obtain ⟨out, h6, h7⟩ := eval_sorted (argsort := argsort) (skip := skip) (ival := ival) hX
    (fun hm => hn (h3.mem_iff.1 hm)) h2 xGrid (fun e v hv => by
      obtain ⟨g1, x, hx, hxv⟩ := hc e v hv
      exact ⟨g1, x, h3.mem_iff.2 hx, hxv⟩)
  refine ⟨out, by rw [h5, h6], h7.imp fun v y => (isStep_perm h4 h3 ival v y).1⟩

/-- C59: a repeated step point raises AssertionError unless the check is switched off. -/
theorem C59_duplicate {xp : List (Flt K)} {yp : List β} {argsort : List (Flt K) → List Nat}
    {assumeSorted : Bool} (hl : xp.length = yp.length) (hr : StepsReady argsort assumeSorted xp)
    (hd : ¬ xp.Nodup) (xGrid : List (Flt K)) (ival : Option β) :
    evalStepFunc argsort xGrid xp yp ival assumeSorted false = .error .assertion := by
  obtain ⟨X, Y, h1, h2, h3, h4, h5⟩ := eval_ready hl hr
  rw [h5]
  have hs : (diff X).all (fun d => (Flt.fin 0).lt d) = false := by
    rw [← Bool.not_eq_true, diff_all]
    intro hc
    refine hd (h3.nodup_iff.1 ?_)
    have hlt : X.IsChain (· < ·) := hc.imp fun a b hab => (zero_lt_sub.1 hab).2.2
    exact (List.isChain_iff_pairwise.1 hlt).imp fun hab => hab.ne
  unfold evalStepFunc
  simp only [pyAssert_bind, h2, decide_true, if_true, pure_eq_ok, ok_bind, hs, Bool.or_false,
    Bool.false_eq_true, if_false]

/-- C59: without an initial value, a grid point before the first step (or NaN) raises AssertionError,
and IndexError when there are no steps at all. -/
theorem C59_before {xp : List (Flt K)} {yp : List β} {argsort : List (Flt K) → List Nat}
    {assumeSorted : Bool} (hl : xp.length = yp.length) (hr : StepsReady argsort assumeSorted xp)
    (hn : NoNaN xp) (hd : xp.Nodup) (xGrid : List (Flt K)) (skip : Bool) (hc : ¬ Covered xp xGrid) :
    evalStepFunc argsort xGrid xp yp none assumeSorted skip =
      .error (if xp = [] then .indexError else .assertion) := by
  obtain ⟨X, Y, h1, h2, h3, h4, h5⟩ := eval_ready hl hr
  rw [h5]
  have hX : X.Pairwise (· < ·) := by
    have := h1.and (h3.nodup_iff.2 hd)
    exact this.imp fun hab => lt_of_le_of_ne hab.1 hab.2
  have hs : (skip || (diff X).all fun d => (Flt.fin 0).lt d) = true := by
    rw [(strict_iff (fun hm => hn (h3.mem_iff.1 hm))).2 hX, Bool.or_true]
  have h0 : xGrid.length ≠ 0 := by
    intro e
    rw [List.eq_nil_of_length_eq_zero e] at hc
    exact hc (by simp [Covered])
  unfold evalStepFunc
  simp only [pyAssert_bind, h2, decide_true, if_true, pure_eq_ok, ok_bind, hs, if_neg h0]
  cases X with
  | nil =>
    rw [if_pos (List.nil_perm.1 h3)]; rfl
  | cons x0 X =>
    rw [if_neg (by rintro rfl; simp at h3), pyIdx_zero]
    have hall : (xGrid.all fun v => x0.le v) = false := by
      rw [← Bool.not_eq_true, List.all_eq_true]
      intro hall
      refine hc fun v hv => ?_
      have := Flt.le_iff.1 (hall v hv)
      exact ⟨this.1, x0, h3.mem_iff.1 (by simp), this.2⟩
    simp only [ok_bind, hall, Bool.false_eq_true, if_false, error_bind]

/-- C59: steps and values of different length raise AssertionError. -/
theorem C59_shape {xp : List (Flt K)} {yp : List β} (hl : xp.length ≠ yp.length)
    (argsort : List (Flt K) → List Nat) (xGrid : List (Flt K)) (ival : Option β) (a s : Bool) :
    evalStepFunc argsort xGrid xp yp ival a s = .error .assertion := by
  unfold evalStepFunc
  simp only [pyAssert_bind, hl, decide_false, Bool.false_eq_true, if_false]

/-- C59: listing the same steps in another order gives the same answer, error included. -/
theorem C59_order {xp xp' : List (Flt K)} {yp yp' : List β} {argsort argsort' : List (Flt K) → List Nat}
    (hl : xp.length = yp.length) (hl' : xp'.length = yp'.length) (hp : (xp.zip yp).Perm (xp'.zip yp'))
    (hs : SortsList (argsort xp) xp) (hs' : SortsList (argsort' xp') xp')
    (hn : NoNaN xp) (hd : xp.Nodup) (xGrid : List (Flt K)) (ival : Option β) (skip skip' : Bool) :
    evalStepFunc argsort xGrid xp yp ival false skip = evalStepFunc argsort' xGrid xp' yp' ival false skip' := by
  have hx : xp.Perm xp' := by
    have := hp.map Prod.fst
    rwa [List.map_fst_zip (by omega), List.map_fst_zip (by omega)] at this
  have hr : StepsReady argsort false xp := by simpa [StepsReady] using hs
  have hr' : StepsReady argsort' false xp' := by simpa [StepsReady] using hs'
  have hn' : NoNaN xp' := fun hm => hn (hx.mem_iff.2 hm)
  have hd' : xp'.Nodup := hx.nodup_iff.1 hd
  have hcov : Covered xp xGrid ↔ Covered xp' xGrid := by
    unfold Covered
    simp only [hx.mem_iff]
  have hok : (ival = none → Covered xp xGrid) →
      evalStepFunc argsort xGrid xp yp ival false skip =
        evalStepFunc argsort' xGrid xp' yp' ival false skip' := by
    intro hc
    obtain ⟨out, h1, h2⟩ := C59_step hl hr hn hd xGrid ival skip hc
    obtain ⟨out', h1', h2'⟩ := C59_step hl' hr' hn' hd' xGrid ival skip' (fun e => hcov.1 (hc e))
    rw [h1, h1']
    congr 1
    clear h1 h1' hc hcov
    induction h2 generalizing out' with
    | nil => cases h2'; rfl
    | cons hv _ ih =>
      cases h2' with
      | cons hv' h2' =>
        rw [isStep_unique hl hd hv ((isStep_perm hp hx _ _ _).2 hv'), ih _ h2']
  cases ival with
  | some i => exact hok (by simp)
  | none =>
    by_cases hc : Covered xp xGrid
    · exact hok fun _ => hc
    · rw [C59_before hl hr hn hd xGrid skip hc,
        C59_before hl' hr' hn' hd' xGrid skip' (fun h => hc (hcov.2 h))]
      congr 1
      by_cases e : xp = []
      · subst e
        rw [if_pos rfl, if_pos (List.nil_perm.1 hx)]
      · rw [if_neg e, if_neg (by rintro rfl; exact e (List.perm_nil.1 hx))]

end

example : SortsList [1, 0, 2] (finVec [3, 1, (4 : ℚ)]) := by
  unfold SortsList; decide +kernel
example : Covered (finVec [3, 1, (4 : ℚ)]) [.fin 1, .fin (7/2), .pinf] := by
  unfold Covered; decide +kernel
example : evalStepFunc (fun _ => [1, 0, 2]) [.fin 1, .fin (7/2), .pinf] (finVec [3, 1, (4 : ℚ)])
    ['a', 'b', 'c'] none false false = .ok ['b', 'a', 'c'] := by decide +kernel
example : evalStepFunc (fun _ => [1, 0, 2]) [.fin 0, .fin 1] (finVec [3, 1, (4 : ℚ)])
    ['a', 'b', 'c'] (some 'z') false false = .ok ['z', 'b'] := by decide +kernel
example : evalStepFunc (fun _ => [1, 0, 2]) [.fin 0, .fin 1] (finVec [3, 1, (4 : ℚ)])
    ['a', 'b', 'c'] none false false = .error .assertion := by decide +kernel

end Mlp.Props
