import Verif.Lemmas.Split
import Mathlib.Data.Rat.Floor

/-! # Properties C28, C29, C30, C34 (random part): random subsets, masks and splits -/

set_option linter.unusedSectionVars false

namespace Mlp.Props
open Mlp Mlp.Splitter Mlp.Spec Mlp.Lemmas

section
variable {K : Type} [Field K] [LinearOrder K] [IsStrictOrderedRing K] [FloorRing K]

theorem forall₂_filterMap_get {β : Type} (x : List β) (q : List Nat) (hq : ∀ i ∈ q, i < x.length) :
    List.Forall₂ (fun i v => x[i]? = some v) q (q.filterMap fun i => x[i]?) := by
  induction q with
  | nil => simp
  | cons i q ih =>
    have hi := hq i (by simp)
    rw [List.filterMap_cons_some (b := x[i]) (by simp [hi])]
    exact .cons (by simp [hi]) (ih fun j hj => hq j (by simp [hj]))

theorem perm_take_facts {p : List Nat} {n : Nat} (hp : IsPerm p n) {N : Nat} (hN : N ≤ n) :
    (p.take N).Nodup ∧ (∀ i ∈ p.take N, i < n) ∧ (p.take N).length = N := by
  have hl : p.length = n := by have := hp.length_eq; simpa using this
  refine ⟨(hp.nodup_iff.2 List.nodup_range).sublist (List.take_sublist _ _), fun i hi => ?_, ?_⟩
  · have := hp.mem_iff.1 (List.mem_of_mem_take hi)
    simpa using this
  · simp [hl, hN]

/-- C28: `rand_subset(x, frac)` never fails on a non-empty list and a fraction in `[0,1]`; the
result consists of the entries at distinct positions of `x`, and their number is `frac * len(x)`
(as computed, with any monotone rounding that is exact on integers) rounded up. -/
theorem C28_rand_subset {β : Type} {rnd : K → K} (h : IsRounding rnd) {perm : Nat → List Nat}
    {x : List β} (hx : x ≠ []) (hp : IsPerm (perm x.length) x.length) {frac : K} (h0 : 0 ≤ frac)
    (h1 : frac ≤ 1) :
    ∃ (r : List β) (pos : List Nat), randSubset rnd perm x frac = .ok r ∧ pos.Nodup ∧
      pos <+: perm x.length ∧
      List.Forall₂ (fun i v => x[i]? = some v) pos r ∧
      (r.length : Int) = ⌈rnd (frac * x.length)⌉ := by
  have hc := h.ceil_nat h0 h1 x.length
  have hf := perm_take_facts hp hc.2
  refine ⟨_, _, randSubset_ok h hx hp h0 h1, hf.1, List.take_prefix _ _,
    forall₂_filterMap_get _ _ hf.2.1, ?_⟩
  rw [take_filterMap_length x hp hc.2, hc.1]

/-- C28, exact arithmetic: the size is the least integer that is at least `frac * len(x)`. -/
theorem C28_rand_subset_size {β : Type} {perm : Nat → List Nat}
    {x : List β} (hx : x ≠ []) (hp : IsPerm (perm x.length) x.length) {frac : K} (h0 : 0 ≤ frac)
    (h1 : frac ≤ 1) :
    ∃ r, randSubset id perm x frac = .ok r ∧ frac * x.length ≤ r.length ∧
      ∀ m : Nat, frac * x.length ≤ m → r.length ≤ m := by
  obtain ⟨r, pos, hr, -, -, -, hl⟩ := C28_rand_subset isRounding_id hx hp h0 h1
  simp only [id] at hl
  refine ⟨r, hr, ?_, fun m hm => ?_⟩
  · have := Int.le_ceil (frac * (x.length : K))
    rw [← hl] at this; exact_mod_cast this
  · have : ⌈frac * (x.length : K)⌉ ≤ (m : Int) := Int.ceil_le.2 (by exact_mod_cast hm)
    omega

/-- C28: every choice of distinct positions of the right number is a possible outcome. -/
theorem C28_every_subset_possible {β : Type} {rnd : K → K} (h : IsRounding rnd)
    {x : List β} (hx : x ≠ []) {frac : K} (h0 : 0 ≤ frac) (h1 : frac ≤ 1) (pos : List Nat)
    (hnd : pos.Nodup) (hlt : ∀ i ∈ pos, i < x.length)
    (hlen : (pos.length : Int) = ⌈rnd (frac * x.length)⌉) :
    ∃ perm : Nat → List Nat, IsPerm (perm x.length) x.length ∧
      randSubset rnd perm x frac = .ok (pos.filterMap fun i => x[i]?) := by
  have hp : IsPerm (pos ++ (List.range x.length).filter fun i => decide (i ∉ pos)) x.length := by
    unfold IsPerm
    refine (List.perm_ext_iff_of_nodup ?_ List.nodup_range).2 fun i => ?_
    · refine hnd.append (List.nodup_range.filter _) ?_
      intro i hi hj
      simp only [List.mem_filter, decide_eq_true_eq] at hj
      exact hj.2 hi
    · simp only [List.mem_append, List.mem_filter, List.mem_range, decide_eq_true_eq]
      constructor
      · rintro (h | h)
        · exact hlt i h
        · exact h.1
      · intro hi
        by_cases hm : i ∈ pos
        · exact .inl hm
        · exact .inr ⟨hi, hm⟩
  refine ⟨fun _ => pos ++ (List.range x.length).filter fun i => decide (i ∉ pos), hp, ?_⟩
  have e : ⌈rnd (frac * x.length)⌉.toNat = pos.length := by omega
  rw [randSubset_ok h hx hp h0 h1, e, List.take_left]

/-- Number of positions marked by a list of distinct positions. -/
theorem count_mask {n : Nat} {pos : List Nat} (hnd : pos.Nodup) (hlt : ∀ i ∈ pos, i < n) :
    ((List.range n).map fun i => decide (i ∈ pos)).count true = pos.length := by
  rw [List.count, List.countP_map]
  rw [List.countP_eq_length_filter]
  apply List.Perm.length_eq
  refine (List.perm_ext_iff_of_nodup (List.nodup_range.filter _) hnd).2 fun i => ?_
  simp only [List.mem_filter, List.mem_range, Function.comp, beq_true, decide_eq_true_eq]
  exact ⟨fun h => h.2, fun h => ⟨hlt i h, h⟩⟩

theorem range_filterMap_get {n : Nat} {q : List Nat} (hq : ∀ i ∈ q, i < n) :
    (q.filterMap fun i => (List.range n)[i]?) = q := by
  induction q with
  | nil => rfl
  | cons i q ih =>
    have hi := hq i (by simp)
    rw [List.filterMap_cons_some (b := i) (by simp [hi]), ih fun j hj => hq j (by simp [hj])]

theorem randMask_ok {rnd : K → K} (h : IsRounding rnd) {perm : Nat → List Nat}
    {n : Nat} (hn : 0 < n) (hp : IsPerm (perm n) n) {frac : K} (h0 : 0 ≤ frac)
    (h1 : frac ≤ 1) :
    randMask rnd perm n frac =
      .ok ((List.range n).map fun i => decide (i ∈ (perm n).take ⌈rnd (frac * n)⌉.toNat)) := by
  have hc := h.ceil_nat h0 h1 n
  have hf := perm_take_facts hp hc.2
  have hr := randSubset_ok h (x := List.range n) (by simp; omega) (perm := perm)
    (by simpa using hp) h0 h1
  simp only [List.length_range] at hr
  rw [range_filterMap_get hf.2.1] at hr
  have hm := count_mask hf.1 hf.2.1
  rw [hf.2.2] at hm
  have e : ((⌈rnd (frac * n)⌉.toNat : Nat) : K) = (⌈rnd (frac * n)⌉ : K) := by
    rw [← Int.cast_natCast, hc.1]
  have c1 : rnd ((n : K) * frac) ≤ (⌈rnd (frac * n)⌉ : K) := by
    rw [mul_comm]; exact Int.le_ceil _
  have c2 : (⌈rnd (frac * n)⌉ : K) - 1 < rnd ((n : K) * frac) := by
    rw [mul_comm (n : K)]; linarith [Int.ceil_lt_add_one (rnd (frac * n))]
  unfold randMask
  rw [hr, ok_bind]
  simp only [hm, e, c1, c2, pyAssert_bind, decide_true, if_true, pure_eq_ok]

/-- C28: `rand_mask(n, frac)` never fails for `n > 0` and a fraction in `[0,1]`; it has `n` entries,
of which exactly `frac * n` rounded up are True, namely those drawn. -/
theorem C28_rand_mask {rnd : K → K} (h : IsRounding rnd) {perm : Nat → List Nat}
    {n : Nat} (hn : 0 < n) (hp : IsPerm (perm n) n) {frac : K} (h0 : 0 ≤ frac)
    (h1 : frac ≤ 1) :
    ∃ mask, randMask rnd perm n frac = .ok mask ∧ mask.length = n ∧
      (mask.count true : Int) = ⌈rnd (frac * n)⌉ ∧
      ∃ drawn, drawn <+: perm n ∧ (drawn.length : Int) = ⌈rnd (frac * n)⌉ ∧
        ∀ i < n, (mask[i]? = some true ↔ i ∈ drawn) := by
  have hc := h.ceil_nat h0 h1 n
  have hf := perm_take_facts hp hc.2
  refine ⟨_, randMask_ok h hn hp h0 h1, by simp, ?_,
    (perm n).take ⌈rnd (frac * n)⌉.toNat, List.take_prefix _ _, ?_, ?_⟩
  · rw [count_mask hf.1 hf.2.1, hf.2.2, hc.1]
  · rw [hf.2.2, hc.1]
  · intro i hi
    rw [List.getElem?_map, List.getElem?_range hi]
    simp

example : randMask (K := ℚ) id (fun _ => [2, 0, 3, 1, 4]) 5 (1/2) = .ok [true, false, true, true, false] := by
  decide +kernel

example : IsPerm [2, 0, 3, 1, 4] 5 := by unfold IsPerm; decide

/-- C34: a fraction outside `[0,1]` is rejected by `rand_subset` and `rand_mask`. -/
theorem C34_rand_bad_frac {β : Type} (rnd : K → K) (perm : Nat → List Nat) (x : List β) (n : Nat)
    {frac : K} (h : frac < 0 ∨ 1 < frac) :
    randSubset rnd perm x frac = .error .assertion ∧
      randMask rnd perm n frac = .error .assertion := by
  have hb : (decide (0 ≤ frac) && decide (frac ≤ 1)) = false := by
    rcases h with h | h <;> simp [h]
  constructor
  · unfold randSubset; rw [pyAssert_bind, hb]; rfl
  · unfold randMask randSubset; rw [pyAssert_bind, hb]; rfl

/-- C28: choosing from nothing raises `ValueError`. -/
theorem C28_empty {β : Type} {rnd : K → K} (hr : IsRounding rnd) (perm : Nat → List Nat)
    {frac : K} (h0 : 0 ≤ frac) (h1 : frac ≤ 1) :
    randSubset rnd perm ([] : List β) frac = .error .valueError ∧
      randMask rnd perm 0 frac = .error .valueError := by
  have hb := hr.ceil_bounds h0 h1 0
  have z : rnd 0 = 0 := by have := hr.nat 0; simpa using this
  have a : ∀ {β : Type}, randSubset rnd perm ([] : List β) frac = .error .valueError := by
    intro β
    unfold randSubset
    simp [pyAssert_bind, h0, h1, z, throw_eq_error, error_bind]
  refine ⟨a, ?_⟩
  unfold randMask
  rw [show List.range 0 = [] from rfl, a]; rfl

/-! ## Random splits -/

variable {α : Type} [DecidableEq α]

theorem mem_filterMap_get {β : Type} {x : List β} {q : List Nat} {v : β} :
    v ∈ (q.filterMap fun i => x[i]?) ↔ ∃ i ∈ q, x[i]? = some v := by simp

/-- C29: a random split without the uniqueness hint never fails on a non-empty series without nulls
and a fraction in `[0,1]`.  A set of `frac * u` (rounded up) of the `u` distinct values is train, and
a row is train exactly when its value is in that set. -/
theorem C29_random_split {rnd : K → K} (h : IsRounding rnd) {perm : Nat → List Nat}
    {vals : List α} (hv : vals ≠ []) (hp : IsPerm (perm vals.toFinset.card) vals.toFinset.card)
    {frac : K} (h0 : 0 ≤ frac) (h1 : frac ≤ 1) :
    ∃ T : Finset α, T ⊆ vals.toFinset ∧
      (T.card : Int) = ⌈rnd (frac * vals.toFinset.card)⌉ ∧
      randomSplit rnd perm (noNull vals) frac false = .ok (vals.map fun v => decide (v ∈ T)) := by
  have hu := uniqueFirst_length vals
  have hne : uniqueFirst vals ≠ [] := by
    cases vals with
    | nil => exact absurd rfl hv
    | cons a l => simp [uniqueFirst]
  rw [← hu] at hp
  obtain ⟨r, pos, hr, hnd, hpre, hf, hl⟩ := C28_rand_subset h hne hp h0 h1
  have hrnd : r.Nodup := by
    have : ∀ (pos : List Nat) (r : List α), pos.Nodup →
        List.Forall₂ (fun i v => (uniqueFirst vals)[i]? = some v) pos r → r.Nodup := by
      intro pos r hnd hf
      induction hf with
      | nil => simp
      | @cons i v pos r hi hf ih =>
        rw [List.nodup_cons] at hnd ⊢
        refine ⟨fun hm => ?_, ih hnd.2⟩
        have : ∃ j ∈ pos, (uniqueFirst vals)[j]? = some v := by
          clear ih hnd hi
          induction hf with
          | nil => simp at hm
          | @cons j w pos r hj hf ih =>
            rcases List.mem_cons.1 hm with rfl | hm
            · exact ⟨j, by simp, hj⟩
            · obtain ⟨k, hk, e⟩ := ih hm
              exact ⟨k, by simp [hk], e⟩
        obtain ⟨j, hj, e⟩ := this
        have hlt : i < (uniqueFirst vals).length := by
          by_contra hc
          rw [List.getElem?_eq_none (by omega)] at hi; cases hi
        have := List.getElem?_inj (i := i) (j := j) hlt (nodup_uniqueFirst vals)
        have := this.1 (hi.trans e.symm)
        exact hnd.1 (this ▸ hj)
    exact this pos r hnd hf
  refine ⟨r.toFinset, ?_, ?_, ?_⟩
  · intro v hv
    rw [← uniqueFirst_toFinset]
    simp only [List.mem_toFinset] at hv ⊢
    clear hl hr hrnd hpre hnd
    induction hf with
    | nil => simp at hv
    | cons hi hf ih =>
      rcases List.mem_cons.1 hv with rfl | hv
      · exact List.mem_of_getElem? hi
      · exact ih hv
  · rw [List.toFinset_card_of_nodup hrnd, hl, hu]
  · unfold randomSplit
    rw [noNull_any, noNull_filterMap, pyAssert_bind]
    simp [hr, ok_bind, pure_eq_ok]

/-- C29: equal values get the same side. -/
theorem C29_equal_values {rnd : K → K} {perm : Nat → List Nat} {S : List (Option α)} {frac : K}
    {mask : List Bool} (h : randomSplit rnd perm S frac false = .ok mask) :
    mask.length = S.length ∧ ∀ i j : Nat, i < S.length → S[i]? = S[j]? → mask[i]? = mask[j]? := by
  rcases noNull_or S with ⟨vals, rfl⟩ | hn
  · unfold randomSplit at h
    rw [noNull_any, noNull_filterMap, pyAssert_bind] at h
    simp only [Bool.not_false, if_true, Bool.false_eq_true, if_false, bind_ok_iff, pure_eq_ok,
      Except.ok.injEq] at h
    obtain ⟨T, -, rfl⟩ := h
    refine ⟨by simp [noNull], fun i j hi e => ?_⟩
    simp only [noNull, List.getElem?_map] at e ⊢
    have : vals[i]? = vals[j]? := by
      cases a : vals[i]? <;> cases b : vals[j]? <;> simp_all
    rw [this]
  · unfold randomSplit at h
    rw [pyAssert_bind, hn] at h
    cases h

example : randomSplit (K := ℚ) id (fun _ => [2, 0, 1]) (noNull [5, 7, 5, 9, 7]) (1/2) false =
    .ok [true, false, true, true, false] := by decide +kernel

/-- C30: on data without repeated values the uniqueness hint does not change the outcome, for any
fraction, including which error is raised. -/
theorem C30_assume_unique {rnd : K → K} (hr : IsRounding rnd) {perm : Nat → List Nat}
    {vals : List α} (hnd : vals.Nodup) (hp : IsPerm (perm vals.length) vals.length) (frac : K) :
    randomSplit rnd perm (noNull vals) frac true = randomSplit rnd perm (noNull vals) frac false := by
  by_cases hf : 0 ≤ frac ∧ frac ≤ 1
  · obtain ⟨h0, h1⟩ := hf
    unfold randomSplit
    rw [noNull_any, noNull_filterMap]
    simp only [uniqueFirst_of_nodup hnd, pyAssert_bind, Bool.not_false, if_true, Bool.false_eq_true, if_false]
    rcases vals with _ | ⟨a, l⟩
    · rw [(C28_empty hr perm h0 h1 (β := α)).1, List.length_nil, (C28_empty hr perm h0 h1 (β := α)).2]
      rfl
    · set vals := a :: l with hvals
      rw [randMask_ok hr (by simp [hvals]) hp h0 h1, randSubset_ok hr (by simp [hvals]) hp h0 h1,
        ok_bind, pure_eq_ok]
      congr 1
      apply List.ext_getElem?
      intro i
      rw [List.getElem?_map, List.getElem?_map]
      by_cases hi : i < vals.length
      · rw [List.getElem?_range hi, List.getElem?_eq_getElem hi]
        simp only [Option.map_some, Option.some.injEq, decide_eq_decide]
        rw [mem_filterMap_get]
        constructor
        · intro h
          exact ⟨i, h, by simp [hi]⟩
        · rintro ⟨j, hj, e⟩
          have hj' : j < vals.length := by
            by_contra hc
            rw [List.getElem?_eq_none (by omega)] at e; cases e
          have := (List.getElem?_inj (i := j) (j := i) hj' hnd).1 (by rw [e]; simp [hi])
          exact this ▸ hj
      · rw [List.getElem?_eq_none (by simpa using hi), List.getElem?_eq_none (by simpa using hi)]
        rfl
  · have hb : frac < 0 ∨ 1 < frac := by
      by_contra hc
      push Not at hc
      exact hf ⟨hc.1, hc.2⟩
    unfold randomSplit
    rw [noNull_any, noNull_filterMap]
    have e1 := (C34_rand_bad_frac rnd perm (uniqueFirst vals) vals.length hb).1
    have e2 := (C34_rand_bad_frac rnd perm (uniqueFirst vals) vals.length hb).2
    simp [pyAssert_bind, e1, e2]

example : randomSplit (K := ℚ) id (fun _ => [2, 0, 1, 3]) (noNull [5, 7, 6, 9]) (1/2) true =
    .ok [true, false, true, false] := by decide +kernel

/-- C34: `random_split_series` rejects nulls and fractions outside `[0,1]`. -/
theorem C34_random_split (rnd : K → K) (perm : Nat → List Nat) (S : List (Option α)) (frac : K)
    (assumeUnique : Bool) (h : none ∈ S ∨ frac < 0 ∨ 1 < frac) :
    randomSplit rnd perm S frac assumeUnique = .error .assertion := by
  rcases noNull_or S with ⟨vals, rfl⟩ | hn
  · have hb : frac < 0 ∨ 1 < frac := by
      rcases h with h | h
      · simp [noNull] at h
      · exact h
    unfold randomSplit
    rw [noNull_any, noNull_filterMap]
    have e1 := (C34_rand_bad_frac rnd perm (uniqueFirst vals) vals.length hb).1
    have e2 := (C34_rand_bad_frac rnd perm (uniqueFirst vals) vals.length hb).2
    cases assumeUnique <;> simp [pyAssert_bind, e1, e2]
  · unfold randomSplit
    rw [pyAssert_bind, hn]; rfl

end
end Mlp.Props
