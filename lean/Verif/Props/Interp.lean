import Verif.Props.Step
import Verif.Props.Unique

/-! # C60: `interp1d` -/

set_option linter.unusedSectionVars false

namespace Mlp.Props
open Mlp.Util Mlp.Spec Mlp.Lemmas

section
variable {K : Type} [Field K] [LinearOrder K] [IsStrictOrderedRing K]
  (other : List (Flt K) → List (Flt K) → List (Flt K) → Py (List (Flt K)))

/-- `y` is the value at the last point of the curve at or before `v`. -/
def LastBefore (xs ys : List (Flt K)) (v y : Flt K) : Prop :=
  ∃ (i : Nat) (x : Flt K), xs[i]? = some x ∧ ys[i]? = some y ∧ x ≤ v ∧
    ∀ (j : Nat) (x' : Flt K), i < j → xs[j]? = some x' → ¬ x' ≤ v

theorem lastBefore_of_step {xs ys X Y : List (Flt K)} (hs : Sortable xs) (ht : TakesLast xs ys X Y)
    {v y : Flt K} (h : IsStep X Y none v y) : LastBefore xs ys v y := by
  rcases h with ⟨x, h1, h2, h3⟩ | ⟨-, h⟩
  · obtain ⟨k, hk, ek⟩ := List.getElem_of_mem h1
    rw [List.getElem_zip, Prod.mk.injEq] at ek
    have hz := hk
    rw [List.length_zip, lt_min_iff] at hz
    obtain ⟨i, h4, h5, h6⟩ := ht.last k x y (by rw [List.getElem?_eq_getElem hz.1, ek.1])
      (by rw [List.getElem?_eq_getElem hz.2, ek.2])
    refine ⟨i, x, h4, h5, h2, fun j x' hij hj hv => ?_⟩
    have hle : x ≤ x' := by
      obtain ⟨hi', e1⟩ := List.getElem?_eq_some_iff.1 h4
      obtain ⟨hj', e2⟩ := List.getElem?_eq_some_iff.1 hj
      have := List.pairwise_iff_getElem.1 hs.2 i j hi' hj' hij
      rw [e1, e2] at this
      exact this.1
    have hge : x' ≤ x := h3 x' ((ht.mem x').2 (List.mem_of_getElem? hj)) hv
    exact h6 j hij (by rw [hj, le_antisymm hge hle])
  · cases h

/-- The checks at the start of `interp1d` hold for a sorted curve. -/
theorem interp1d_start {xp yp : List (Flt K)} (hs : Sortable xp) (hl : xp.length = yp.length)
    (h2 : 2 ≤ xp.length) (xGrid : List (Flt K)) (kind : Kind) :
    interp1d other xGrid xp yp kind = (match kind with
      | .previous => do
        let r ← uniqueTakeLast xp (some yp)
        evalStepFunc (fun _ => []) xGrid r.1 (r.2.getD []) none true false
      | .next => .error .notImplemented
      | .linear => scipyLinear xGrid xp yp
      | .other => other xGrid xp yp) := by
  have hd := (sortable_iff.1 hs).2
  unfold interp1d
  simp only [pyAssert_bind, hl, decide_true, if_true, hd, hl ▸ h2]
  cases kind <;> rfl

/-- C60: with kind `'previous'`, each grid point gets the value of the last curve point at or before it,
however far beyond the end of the curve it is. -/
theorem C60_previous {xp yp : List (Flt K)} (hs : Sortable xp) (hl : xp.length = yp.length)
    (h2 : 2 ≤ xp.length) (xGrid : List (Flt K)) (hc : Covered xp xGrid) :
    ∃ out, interp1d other xGrid xp yp .previous = .ok out ∧
      List.Forall₂ (LastBefore xp yp) xGrid out := by
  rw [interp1d_start other hs hl h2]
  obtain ⟨X, Y, h1, -, ht⟩ := C57_take_last hs hl
  have hn : NoNaN X := fun hm => hs.1 ((ht.mem _).1 hm)
  obtain ⟨out, h3, h4⟩ := eval_sorted (argsort := fun _ => []) (skip := false) (ival := none) ht.sorted hn
    ht.length xGrid (fun _ v hv => by
      obtain ⟨g1, x, hx, hxv⟩ := hc v hv
      exact ⟨g1, x, (ht.mem x).2 hx, hxv⟩)
  refine ⟨out, ?_, h4.imp fun v y => lastBefore_of_step hs ht⟩
  simp only [h1, ok_bind, Option.getD_some, h3]

/-- C60: with kind `'previous'`, a grid point before the curve (or NaN) raises AssertionError. -/
theorem C60_previous_reject {xp yp : List (Flt K)} (hs : Sortable xp) (hl : xp.length = yp.length)
    (h2 : 2 ≤ xp.length) (xGrid : List (Flt K)) (hc : ¬ Covered xp xGrid) :
    interp1d other xGrid xp yp .previous = .error .assertion := by
  rw [interp1d_start other hs hl h2]
  obtain ⟨X, Y, h1, -, ht⟩ := C57_take_last hs hl
  have hn : NoNaN X := fun hm => hs.1 ((ht.mem _).1 hm)
  have hX : X ≠ [] := by
    rintro rfl
    obtain ⟨x, hx⟩ := List.exists_mem_of_length_pos (show 0 < xp.length by omega)
    have := (ht.mem x).2 hx
    simp at this
  have hr : StepsReady (fun _ => []) true X := by
    simpa [StepsReady] using ht.sorted.imp fun hab => hab.le
  have := C59_before (argsort := fun _ => []) ht.length hr hn (ht.sorted.imp fun hab => hab.ne) xGrid false
    (fun h => hc fun v hv => by
      obtain ⟨g1, x, hx, hxv⟩ := h v hv
      exact ⟨g1, x, (ht.mem x).1 hx, hxv⟩)
  rw [if_neg hX] at this
  simp only [h1, ok_bind, Option.getD_some, this]

/-- C60: kind `'next'` raises NotImplementedError. -/
theorem C60_next {xp yp : List (Flt K)} (hs : Sortable xp) (hl : xp.length = yp.length)
    (h2 : 2 ≤ xp.length) (xGrid : List (Flt K)) :
    interp1d other xGrid xp yp .next = .error .notImplemented := interp1d_start other hs hl h2 _ _

/-- C60: a curve with fewer than two points, lists of different length, or points out of order raise
AssertionError for every kind. -/
theorem C60_reject {xp yp : List (Flt K)} (h : xp.length ≠ yp.length ∨ xp.length < 2 ∨ ¬ Sortable xp)
    (xGrid : List (Flt K)) (kind : Kind) : interp1d other xGrid xp yp kind = .error .assertion := by
  unfold interp1d
  simp only [pyAssert_bind]
  by_cases h1 : xp.length = yp.length
  swap
  · simp only [h1, decide_false, Bool.false_eq_true, if_false]
  by_cases h2 : 2 ≤ xp.length
  swap
  · simp only [h2, decide_false, Bool.false_eq_true, if_false, ite_self]
  rcases h with h | h | h
  · exact absurd h1 h
  · omega
  · have hd : ¬ ((diff xp).all (fun d => (Flt.fin 0).le d) = true) := by
      intro hd
      refine h (sortable_iff.2 ⟨fun hm => ?_, hd⟩)
      rw [diff_all] at hd
      match xp, h2, hd, hm with
      | a :: b :: l, _, hd, hm =>
        have key : ∀ (l : List (Flt K)) (a b : Flt K),
            (a :: b :: l).IsChain (fun a b => (Flt.fin 0).le (b.sub a) = true) → Flt.nan ∉ a :: b :: l := by
          intro l
          induction l with
          | nil =>
            intro a b h hm
            rw [List.isChain_cons_cons] at h
            have := zero_le_sub.1 h.1
            simp only [List.mem_cons, List.not_mem_nil, or_false] at hm
            rcases hm with rfl | rfl
            · exact this.1 rfl
            · exact this.2.1 rfl
          | cons c l ih =>
            intro a b h hm
            rw [List.isChain_cons_cons] at h
            rcases List.mem_cons.1 hm with rfl | hm
            · exact (zero_le_sub.1 h.1).1 rfl
            · exact ih b c h.2 hm
        exact key _ _ _ hd hm
    simp only [hd, Bool.false_eq_true, if_false, ite_self]

/-! ## Linear interpolation -/

/-- `w` is the value at `v` of the broken line through the points `(xs, ys)`; where several points have
the same x, the last of them counts. -/
def OnLine (xs ys : List K) (v w : K) : Prop :=
  (∃ (j : Nat) (x : K), xs[j]? = some x ∧ ys[j]? = some w ∧ v = x ∧ j + 1 = xs.length) ∨
  (∃ (j : Nat) (x0 x1 y0 y1 : K), xs[j]? = some x0 ∧ xs[j + 1]? = some x1 ∧ ys[j]? = some y0 ∧
    ys[j + 1]? = some y1 ∧ x0 ≤ v ∧ v < x1 ∧ (w - y0) * (x1 - x0) = (y1 - y0) * (v - x0))

theorem finVec_getElem? (xs : List K) (i : Nat) : (finVec xs)[i]? = xs[i]?.map Flt.fin := by
  unfold finVec; rw [List.getElem?_map]

theorem npInterp_line {xs ys : List K} (hs : xs.Pairwise (· ≤ ·)) (hl : xs.length = ys.length)
    {v : K} (h0 : ∃ x ∈ xs, x ≤ v) (h1 : ∃ x ∈ xs, v ≤ x) :
    ∃ w : K, npInterp (finVec xs) (finVec ys) (.fin v) = .ok (.fin w) ∧ OnLine xs ys v w := by
  have hlF : (finVec xs).length = xs.length := by simp [finVec]
  have hlY : (finVec ys).length = ys.length := by simp [finVec]
  have hsr : searchRight (finVec xs) (.fin v) = xs.countP fun a => decide (a ≤ v) := by
    unfold searchRight finVec
    rw [List.countP_map]
    congr 1
    funext a
    simp
  have hpos : 0 < xs.countP fun a => decide (a ≤ v) := by
    obtain ⟨x, hx, hxv⟩ := h0
    exact List.countP_pos_iff.2 ⟨x, hx, by simpa using hxv⟩
  have hle : (xs.countP fun a => decide (a ≤ v)) ≤ xs.length := List.countP_le_length
  obtain ⟨m, hm⟩ : ∃ m, (xs.countP fun a => decide (a ≤ v)) = m + 1 := ⟨_, (Nat.succ_pred_eq_of_pos hpos).symm⟩
  have hmv : ∀ (k : Nat) (hk : k < xs.length), xs[k] ≤ v ↔ k < m + 1 := by
    intro k hk; rw [← hm]; exact count_prefix hs v k hk
  have hcast : (((m + 1 : Nat) : Int) - 1) = (m : Int) := by omega
  unfold npInterp
  simp only [Flt.isNaN, Bool.false_eq_true, if_false, hsr, hm, hlF, Nat.succ_ne_zero, hcast]
  by_cases hlast : m + 1 = xs.length
  · rw [if_pos hlast]
    have hmy : m < (finVec ys).length := by omega
    rw [pyIdx_nat _ _ hmy]
    refine ⟨ys[m]'(by omega), by simp [finVec], Or.inl ⟨m, xs[m], ?_, ?_, ?_, hlast⟩⟩
    · simp
    · exact List.getElem?_eq_getElem (by omega)
    · refine le_antisymm ?_ ((hmv m (by omega)).2 (by omega))
      obtain ⟨x, hx, hxv⟩ := h1
      obtain ⟨i, hi, rfl⟩ := List.getElem_of_mem hx
      refine hxv.trans ?_
      rcases Nat.lt_or_ge i m with him | him
      · exact List.pairwise_iff_getElem.1 hs i m hi (by omega) him
      · have : i = m := by omega
        subst this; exact le_rfl
  · rw [if_neg hlast]
    have hm1 : m + 1 < xs.length := by omega
    have hx0 := (hmv m (by omega)).2 (by omega)
    have hx1 : v < xs[m + 1] := by
      rw [← not_le, hmv (m + 1) hm1]; omega
    have hne : xs[m + 1] - xs[m] ≠ 0 := by
      have : xs[m] < xs[m + 1] := lt_of_le_of_lt hx0 hx1
      exact sub_ne_zero.2 this.ne'
    rw [pyIdx_nat (finVec xs) m (by omega), pyIdx_nat (finVec xs) (m + 1) (by omega),
      pyIdx_nat (finVec ys) m (by omega), pyIdx_nat (finVec ys) (m + 1) (by omega)]
    simp only [ok_bind]
    have e : ∀ (l : List K) (i : Nat) (h : i < (finVec l).length),
        (finVec l)[i] = Flt.fin (l[i]'(by simpa [finVec] using h)) := by
      intro l i h; simp [finVec]
    simp only [e]
    have hy1 : m + 1 < ys.length := by omega
    refine ⟨(ys[m + 1] - ys[m]) / (xs[m + 1] - xs[m]) * (v - xs[m]) + ys[m], ?_, Or.inr
      ⟨m, xs[m], xs[m + 1], ys[m], ys[m + 1], ?_, ?_, ?_, ?_, hx0, hx1, ?_⟩⟩
    · simp only [Flt.sub, Flt.neg, Flt.add_fin, ← sub_eq_add_neg, Flt.div_fin hne, Flt.mul_fin]
      rfl
    · exact List.getElem?_eq_getElem (by omega)
    · exact List.getElem?_eq_getElem (by omega)
    · exact List.getElem?_eq_getElem (by omega)
    · exact List.getElem?_eq_getElem (by omega)
    · field_simp
      ring

/-- C60: with kind `'linear'`, each grid point inside the curve gets its value on the broken line through
the points. -/
theorem C60_linear {xs ys : List K} (hs : xs.Pairwise (· ≤ ·)) (hl : xs.length = ys.length)
    (h2 : 2 ≤ xs.length) (grid : List K)
    (hg : ∀ v ∈ grid, (∃ x ∈ xs, x ≤ v) ∧ ∃ x ∈ xs, v ≤ x) :
    ∃ out : List K, interp1d other (finVec grid) (finVec xs) (finVec ys) .linear = .ok (finVec out) ∧
      List.Forall₂ (OnLine xs ys) grid out := by
  rw [interp1d_start other (sortable_finVec hs) (by simpa [finVec] using hl) (by simpa [finVec] using h2)]
  have hm : ∃ out : List K, (finVec grid).mapM (fun v => npInterp (finVec xs) (finVec ys) v) =
      .ok (finVec out) ∧ List.Forall₂ (OnLine xs ys) grid out := by
    induction grid with
    | nil => exact ⟨[], rfl, .nil⟩
    | cons v grid ih =>
      obtain ⟨h3, h4⟩ := hg v (by simp)
      obtain ⟨w, h5, h6⟩ := npInterp_line hs hl h3 h4
      obtain ⟨out, h7, h8⟩ := ih fun v hv => hg v (by simp [hv])
      refine ⟨w :: out, ?_, .cons h6 h8⟩
      show (Flt.fin v :: finVec grid).mapM _ = _
      rw [List.mapM_cons, h5, ok_bind, h7]; rfl
  obtain ⟨out, h3, h4⟩ := hm
  refine ⟨out, ?_, h4⟩
  match xs, h2 with
  | a :: b :: l, h2 =>
    have hx0 : pyIdx (finVec (a :: b :: l)) 0 = .ok (.fin a) := rfl
    have hxn : pyIdx (finVec (a :: b :: l)) (-1) = .ok (.fin ((a :: b :: l).getLast (by simp))) := by
      rw [pyIdx_last _ (by simp [finVec])]
      simp only [finVec, List.getLast_map]
    have g1 : ((finVec grid).any fun v => v.lt (.fin a)) = false := by
      rw [List.any_eq_false]
      intro v hv hlt
      obtain ⟨u, hu, rfl⟩ := List.mem_map.1 hv
      obtain ⟨⟨x, hx, hxu⟩, -⟩ := hg u hu
      have h5 := (Flt.lt_iff.1 hlt).2
      rw [Flt.fin_lt_fin] at h5
      have h6 : a ≤ x := by
        rcases List.mem_cons.1 hx with rfl | hx
        · exact le_rfl
        · exact (List.pairwise_cons.1 hs).1 x hx
      exact absurd (h6.trans hxu) (not_le.2 h5)
    have g2 : ((finVec grid).any fun v => (Flt.fin ((a :: b :: l).getLast (by simp))).lt v) = false := by
      rw [List.any_eq_false]
      intro v hv hlt
      obtain ⟨u, hu, rfl⟩ := List.mem_map.1 hv
      obtain ⟨-, ⟨x, hx, hxu⟩⟩ := hg u hu
      have h5 := (Flt.lt_iff.1 hlt).2
      rw [Flt.fin_lt_fin] at h5
      have h6 : x ≤ (a :: b :: l).getLast (by simp) := by
        obtain ⟨i, hi, rfl⟩ := List.getElem_of_mem hx
        rw [List.getLast_eq_getElem]
        rcases Nat.lt_or_ge i ((a :: b :: l).length - 1) with h | h
        · exact List.pairwise_iff_getElem.1 hs i _ hi _ h
        · have : i = (a :: b :: l).length - 1 := by omega
          subst this; exact le_rfl
      exact absurd (hxu.trans h6) (not_le.2 h5)
    show scipyLinear _ _ _ = _
    unfold scipyLinear
    rw [h3, ok_bind, hx0, ok_bind, hxn, ok_bind]
    simp only [g1, g2, Bool.false_eq_true, if_false]
    rfl

/-- C60: with kind `'linear'`, a grid point before the first or beyond the last curve point raises
ValueError. -/
theorem C60_linear_outside {xs ys : List K} (hs : xs.Pairwise (· ≤ ·)) (hl : xs.length = ys.length)
    (h2 : 2 ≤ xs.length) (grid : List K)
    (hg : ∃ v ∈ grid, (∀ x ∈ xs, v < x) ∨ ∀ x ∈ xs, x < v) :
    interp1d other (finVec grid) (finVec xs) (finVec ys) .linear = .error .valueError := by
  rw [interp1d_start other (sortable_finVec hs) (by simpa [finVec] using hl) (by simpa [finVec] using h2)]
  have hlF : (finVec xs).length = xs.length := by simp [finVec]
  have hlY : (finVec ys).length = ys.length := by simp [finVec]
  have hm : ∃ out, (finVec grid).mapM (fun v => npInterp (finVec xs) (finVec ys) v) = .ok out := by
    have : ∀ v ∈ finVec grid, ∃ b, npInterp (finVec xs) (finVec ys) v = .ok b ∧ True := by
      intro v _
      unfold npInterp
      have hle : searchRight (finVec xs) v ≤ xs.length := hlF ▸ List.countP_le_length
      split
      · exact ⟨_, rfl, trivial⟩
      · simp only
        by_cases h0 : searchRight (finVec xs) v = 0
        · rw [if_pos h0]
          exact ⟨_, pyIdx_nat _ 0 (by omega), trivial⟩
        rw [if_neg h0]
        have hc : ((searchRight (finVec xs) v : Int) - 1) = ((searchRight (finVec xs) v - 1 : Nat) : Int) := by
          omega
        rw [hc]
        by_cases h1 : searchRight (finVec xs) v = (finVec xs).length
        · rw [if_pos h1]
          exact ⟨_, pyIdx_nat _ _ (by omega), trivial⟩
        · rw [if_neg h1, pyIdx_nat _ _ (by omega), pyIdx_nat _ _ (by omega), pyIdx_nat _ _ (by omega),
            pyIdx_nat _ _ (by omega)]
          exact ⟨_, rfl, trivial⟩
    obtain ⟨out, h3, -⟩ := mapM_forall₂ this
    exact ⟨out, h3⟩
  obtain ⟨out, h3⟩ := hm
  match xs, h2 with
  | a :: b :: l, h2 =>
    have hx0 : pyIdx (finVec (a :: b :: l)) 0 = .ok (.fin a) := rfl
    have hxn : pyIdx (finVec (a :: b :: l)) (-1) = .ok (.fin ((a :: b :: l).getLast (by simp))) := by
      rw [pyIdx_last _ (by simp [finVec])]
      simp only [finVec, List.getLast_map]
    show scipyLinear _ _ _ = _
    unfold scipyLinear
    rw [h3, ok_bind, hx0, ok_bind, hxn, ok_bind]
    split
    · rfl
    · rename_i hn
      obtain ⟨v, hv, hlt | hgt⟩ := hg
      · refine absurd (List.any_eq_true.2 ⟨.fin v, List.mem_map_of_mem hv, ?_⟩) hn
        rw [Flt.lt_iff, Flt.fin_lt_fin]
        exact ⟨by simp, hlt a (by simp)⟩
      · rw [if_pos]
        refine List.any_eq_true.2 ⟨.fin v, List.mem_map_of_mem hv, ?_⟩
        rw [Flt.lt_iff, Flt.fin_lt_fin]
        exact ⟨by simp, hgt _ (List.getLast_mem _)⟩

/-- C60: at `v` the broken line lies between the values of two neighbouring points, one at or before `v` and one at or
after it (the same point twice at the end) … -/
theorem C60_between {xs ys : List K} {v w : K} (h : OnLine xs ys v w) :
    ∃ (i j : Nat) (x0 x1 y0 y1 : K), (j = i + 1 ∨ j = i) ∧ xs[i]? = some x0 ∧ xs[j]? = some x1 ∧
      ys[i]? = some y0 ∧ ys[j]? = some y1 ∧ x0 ≤ v ∧ v ≤ x1 ∧ min y0 y1 ≤ w ∧ w ≤ max y0 y1 := by
  rcases h with ⟨j, x, h1, h2, h3, h4⟩ | ⟨j, x0, x1, y0, y1, h1, h2, h3, h4, h5, h6, h7⟩
  · exact ⟨j, j, x, x, w, w, .inr rfl, h1, h1, h2, h2, h3.ge, h3.le, by simp, by simp⟩
  · refine ⟨j, j + 1, x0, x1, y0, y1, .inl rfl, h1, h2, h3, h4, h5, h6.le, ?_, ?_⟩
    · rcases le_total y0 y1 with h | h
      · rw [min_eq_left h]; nlinarith [mul_nonneg (sub_nonneg.2 h) (sub_nonneg.2 h5)]
      · rw [min_eq_right h]; nlinarith [mul_nonneg (sub_nonneg.2 h) (sub_nonneg.2 h6.le)]
    · rcases le_total y0 y1 with h | h
      · rw [max_eq_right h]; nlinarith [mul_nonneg (sub_nonneg.2 h) (sub_nonneg.2 h6.le)]
      · rw [max_eq_left h]; nlinarith [mul_nonneg (sub_nonneg.2 h) (sub_nonneg.2 h5)]

/-- … and passes through the points, the last one where several have the same x. -/
theorem C60_through {xs ys : List K} (hs : xs.Pairwise (· ≤ ·)) {j : Nat} {v y w : K}
    (hx : xs[j]? = some v) (hy : ys[j]? = some y)
    (hlast : ∀ (k : Nat) (x' : K), j < k → xs[k]? = some x' → x' ≠ v) (h : OnLine xs ys v w) : w = y := by
  have hmono : ∀ {i k : Nat} {a b : K}, i ≤ k → xs[i]? = some a → xs[k]? = some b → a ≤ b := by
    intro i k a b hik ha hb
    obtain ⟨hi', e1⟩ := List.getElem?_eq_some_iff.1 ha
    obtain ⟨hk', e2⟩ := List.getElem?_eq_some_iff.1 hb
    rcases Nat.lt_or_ge i k with h | h
    · have := List.pairwise_iff_getElem.1 hs i k hi' hk' h
      rwa [e1, e2] at this
    · have : i = k := by omega
      subst this
      rw [ha] at hb; cases hb; exact le_rfl
  rcases h with ⟨i, x, h1, h2, h3, h4⟩ | ⟨i, x0, x1, y0, y1, h1, h2, h3, h4, h5, h6, h7⟩
  · have hj : j < xs.length := (List.getElem?_eq_some_iff.1 hx).1
    rcases Nat.lt_or_ge j i with h | h
    · exact absurd h3.symm (hlast i x h h1)
    · have : i = j := by omega
      subst this
      rw [h2] at hy; cases hy; rfl
  · have hji : j ≤ i := by
      by_contra hc
      exact absurd (hmono (show i + 1 ≤ j by omega) h2 hx) (not_le.2 h6)
    have hx0 : x0 = v := le_antisymm h5 (hmono hji hx h1)
    have : i = j := by
      by_contra hc
      exact hlast i x0 (by omega) h1 hx0
    subst this
    rw [h3] at hy; cases hy
    rw [hx0, sub_self, mul_zero] at h7
    rcases mul_eq_zero.1 h7 with h8 | h8
    · exact sub_eq_zero.1 h8
    · exact absurd (sub_eq_zero.1 h8) h6.ne'

/-- The broken line has only one value at each x. -/
theorem onLine_unique {xs ys : List K} (hs : xs.Pairwise (· ≤ ·)) {v w w' : K}
    (h : OnLine xs ys v w) (h' : OnLine xs ys v w') : w = w' := by
  have hmono : ∀ {i k : Nat} {a b : K}, i ≤ k → xs[i]? = some a → xs[k]? = some b → a ≤ b := by
    intro i k a b hik ha hb
    obtain ⟨hi', e1⟩ := List.getElem?_eq_some_iff.1 ha
    obtain ⟨hk', e2⟩ := List.getElem?_eq_some_iff.1 hb
    rcases Nat.lt_or_ge i k with h | h
    · have := List.pairwise_iff_getElem.1 hs i k hi' hk' h
      rwa [e1, e2] at this
    · have : i = k := by omega
      subst this
      rw [ha] at hb; cases hb; exact le_rfl
  rcases h with ⟨i, x, h1, h2, h3, h4⟩ | ⟨i, x0, x1, y0, y1, h1, h2, h3, h4, h5, h6, h7⟩ <;>
  rcases h' with ⟨i', x', h1', h2', h3', h4'⟩ | ⟨i', x0', x1', y0', y1', h1', h2', h3', h4', h5', h6', h7'⟩
  · have : i = i' := by omega
    subst this; rw [h2] at h2'; exact Option.some.inj h2'
  · have := (List.getElem?_eq_some_iff.1 h2').1
    exact absurd (h3 ▸ hmono (show i' + 1 ≤ i by omega) h2' h1) (not_le.2 h6')
  · have := (List.getElem?_eq_some_iff.1 h2).1
    exact absurd (h3' ▸ hmono (show i + 1 ≤ i' by omega) h2 h1') (not_le.2 h6)
  · have : i = i' := by
      rcases Nat.lt_trichotomy i i' with h | h | h
      · exact absurd ((hmono (show i + 1 ≤ i' by omega) h2 h1').trans h5') (not_le.2 h6)
      · exact h
      · exact absurd ((hmono (show i' + 1 ≤ i by omega) h2' h1).trans h5) (not_le.2 h6')
    subst this
    rw [h1] at h1'; rw [h2] at h2'; rw [h3] at h3'; rw [h4] at h4'
    cases h1'; cases h2'; cases h3'; cases h4'
    have hne : x1 - x0 ≠ 0 := sub_ne_zero.2 (lt_of_le_of_lt h5 h6).ne'
    have : (w - y0) * (x1 - x0) = (w' - y0) * (x1 - x0) := h7.trans h7'.symm
    exact sub_left_injective (mul_right_cancel₀ hne this)

end

example : interp1d (fun _ _ _ => .ok []) (finVec [0, 1, (3 / 2), 2]) (finVec [0, 1, 1, (2 : ℚ)])
    (finVec [0, 1, 3, 5]) .linear = .ok (finVec [0, 3, 4, 5]) := by decide +kernel
example : interp1d (fun _ _ _ => .ok []) (finVec [0, 1, (3 / 2), 7]) (finVec [0, 1, 1, (2 : ℚ)])
    (finVec [0, 1, 3, 5]) .previous = .ok (finVec [0, 3, 3, 5]) := by decide +kernel
example : interp1d (fun _ _ _ => .ok []) (finVec [0, 7]) (finVec [0, 1, 1, (2 : ℚ)])
    (finVec [0, 1, 3, 5]) .linear = .error .valueError := by decide +kernel
example : OnLine [0, 1, 1, (2 : ℚ)] [0, 1, 3, 5] (3 / 2) 4 :=
  Or.inr ⟨2, 1, 2, 3, 5, rfl, rfl, rfl, rfl, by norm_num, by norm_num, by norm_num⟩

end Mlp.Props
