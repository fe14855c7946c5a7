import Verif.Props.RandomSplit

/-! # Properties C31, C32, C34 (ordered part): ordered splits -/

set_option linter.unusedSectionVars false

namespace Mlp.Props
open Mlp Mlp.Splitter Mlp.Spec Mlp.Lemmas

section
variable {K : Type} [Field K] [LinearOrder K] [IsStrictOrderedRing K] [FloorRing K]
variable {α : Type} [LinearOrder α]

/-- In a strictly increasing list, `i + 1` entries are at most the `i`-th. -/
theorem countP_le_getElem {L : List α} (hL : L.Pairwise (· < ·)) {i : Nat} (hi : i < L.length) :
    (L.countP fun c => decide (c ≤ L[i])) = i + 1 := by
  have hget := List.pairwise_iff_getElem.1 hL
  have hsplit : ∀ p, L.countP p = (L.take (i + 1) ++ L.drop (i + 1)).countP p := by
    intro p; rw [List.take_append_drop]
  rw [hsplit, List.countP_append, List.countP_eq_length.2, List.countP_eq_zero.2]
  · simp; omega
  · intro c hc
    obtain ⟨j, hj, rfl⟩ := List.getElem_of_mem hc
    rw [List.length_drop] at hj
    simp only [List.getElem_drop, decide_eq_true_eq, not_le]
    simpa using hget i (i + 1 + j) hi (by omega) (by omega)
  · intro c hc
    obtain ⟨j, hj, rfl⟩ := List.getElem_of_mem hc
    rw [List.length_take] at hj
    simp only [List.getElem_take, decide_eq_true_eq]
    rcases Nat.lt_or_ge j i with h | h
    · simpa using (hget j i (by omega) hi h).le
    · have : j = i := by omega
      subst this; simp

/-- In a strictly increasing list, `i` entries are below the `i`-th. -/
theorem countP_lt_getElem {L : List α} (hL : L.Pairwise (· < ·)) {i : Nat} (hi : i < L.length) :
    (L.countP fun c => decide (c < L[i])) = i := by
  have hget := List.pairwise_iff_getElem.1 hL
  have hsplit : ∀ p, L.countP p = (L.take i ++ L.drop i).countP p := by
    intro p; rw [List.take_append_drop]
  rw [hsplit, List.countP_append, List.countP_eq_length.2, List.countP_eq_zero.2]
  · simp; omega
  · intro c hc
    obtain ⟨j, hj, rfl⟩ := List.getElem_of_mem hc
    rw [List.length_drop] at hj
    simp only [List.getElem_drop, decide_eq_true_eq, not_lt]
    rcases Nat.eq_zero_or_pos j with rfl | h
    · simp
    · simpa using (hget i (i + j) hi (by omega) (by omega)).le
  · intro c hc
    obtain ⟨j, hj, rfl⟩ := List.getElem_of_mem hc
    rw [List.length_take] at hj
    simp only [List.getElem_take, decide_eq_true_eq]
    simpa using hget j i (by omega) hi (by omega)

theorem countP_eq_card {L : List α} (hL : L.Nodup) (p : α → Prop) [DecidablePred p] :
    (L.countP fun c => decide (p c)) = (L.toFinset.filter p).card := by
  rw [List.countP_eq_length_filter, ← List.toFinset_card_of_nodup (hL.filter _)]
  congr 1
  ext a; simp

/-- The sorted distinct values. -/
theorem sorted_dedup (vals : List α) :
    let L := vals.dedup.insertionSort (· ≤ ·)
    L.Pairwise (· < ·) ∧ L.Nodup ∧ L.toFinset = vals.toFinset ∧ L.length = vals.toFinset.card := by
  intro L
  have hp : L.Perm vals.dedup := List.perm_insertionSort _ _
  have hnd : L.Nodup := hp.nodup_iff.2 (List.nodup_dedup _)
  have hs : L.Pairwise (· ≤ ·) := List.pairwise_insertionSort _ _
  have hf : L.toFinset = vals.toFinset := by
    ext a; simp [hp.mem_iff]
  refine ⟨?_, hnd, hf, ?_⟩
  · exact (hs.and hnd).imp fun ⟨a, b⟩ => lt_of_le_of_ne a b
  · rw [← hf, List.toFinset_card_of_nodup hnd]

/-- The position of the pivot. -/
def pivotIdx (rnd : K → K) (frac : K) (u : Nat) : Nat := (min ⌊rnd (frac * u)⌋ ((u : Int) - 1)).toNat

theorem pivotIdx_facts {rnd : K → K} (h : IsRounding rnd) {frac : K} (h0 : 0 ≤ frac) {u : Nat}
    (hu : 0 < u) : 0 ≤ min ⌊rnd (frac * u)⌋ ((u : Int) - 1) ∧ pivotIdx rnd frac u < u ∧
      ((pivotIdx rnd frac u : Nat) : Int) = min ⌊rnd (frac * u)⌋ ((u : Int) - 1) := by
  have hn : (0 : K) ≤ u := Nat.cast_nonneg u
  have a : rnd 0 ≤ rnd (frac * u) := h.mono (by positivity)
  have z := h.nat 0
  simp only [Nat.cast_zero] at z
  rw [z] at a
  have := Int.floor_nonneg.2 a
  unfold pivotIdx
  omega

/-- What the model computes once the cases are a strictly increasing list. -/
theorem orderedSplit_core {rnd : K → K} (h : IsRounding rnd) {vals L : List α}
    (hL : L.Pairwise (· < ·)) (hne : L ≠ []) {frac : K} (h0 : 0 ≤ frac) (h1 : frac ≤ 1)
    {s q : Bool}
    (hc : (if s && q then vals else if q then vals.insertionSort (· ≤ ·)
      else vals.dedup.insertionSort (· ≤ ·)) = L) :
    ∃ pivot, L[pivotIdx rnd frac L.length]? = some pivot ∧
    orderedSplit rnd (noNull vals) frac s q =
      if frac ≤ rnd ((pivotIdx rnd frac L.length + 1 : Nat) / (L.length : K)) ∧
          (pivotIdx rnd frac L.length = 0 ∨
            rnd ((pivotIdx rnd frac L.length : Nat) / (L.length : K)) < frac)
      then .ok (vals.map fun v => decide (v ≤ pivot)) else .error .assertion := by
  have hu : 0 < L.length := List.length_pos_iff.2 hne
  obtain ⟨f1, f2, f3⟩ := pivotIdx_facts h h0 hu
  refine ⟨L[pivotIdx rnd frac L.length], by simp [f2], ?_⟩
  unfold orderedSplit
  rw [noNull_any, noNull_filterMap]
  simp only [hc]
  simp only [← f3, pyAssert_bind, Bool.not_false, if_true, h0, h1, decide_true, Bool.and_self,
    Int.toNat_natCast, Int.natCast_nonneg, List.getElem?_eq_getElem f2]
  have e1 : fracLe rnd L L[pivotIdx rnd frac L.length] =
      rnd ((pivotIdx rnd frac L.length + 1 : Nat) / (L.length : K)) := by
    unfold fracLe; rw [countP_le_getElem hL f2]
  rw [e1]
  by_cases hz : pivotIdx rnd frac L.length = 0
  · simp only [hz]
    by_cases hc1 : frac ≤ rnd ((0 + 1 : Nat) / (L.length : K)) <;> simp [pure_eq_ok]
  · have f4 : pivotIdx rnd frac L.length - 1 < L.length := by omega
    have e2 : fracLe rnd L L[pivotIdx rnd frac L.length - 1] =
        rnd ((pivotIdx rnd frac L.length : Nat) / (L.length : K)) := by
      unfold fracLe; rw [countP_le_getElem hL f4]
      congr 3; omega
    rw [List.getElem?_eq_getElem f4]
    simp only [e2, Nat.cast_eq_zero, hz, decide_false, Bool.false_or, false_or]
    by_cases hc1 : frac ≤ rnd ((pivotIdx rnd frac L.length + 1 : Nat) / (L.length : K)) <;>
      by_cases hc2 : rnd ((pivotIdx rnd frac L.length : Nat) / (L.length : K)) < frac <;>
        simp [hc2, pure_eq_ok]

/-- C34: `ordered_split_series` rejects nulls and fractions outside `[0,1]`. -/
theorem C34_ordered_split (rnd : K → K) (S : List (Option α)) (frac : K) (s q : Bool)
    (h : none ∈ S ∨ frac < 0 ∨ 1 < frac) :
    orderedSplit rnd S frac s q = .error .assertion := by
  rcases noNull_or S with ⟨vals, rfl⟩ | hn
  · have hb : (decide (0 ≤ frac) && decide (frac ≤ 1)) = false := by
      rcases h with h | h | h
      · simp [noNull] at h
      · simp [h]
      · simp [h]
    unfold orderedSplit
    rw [noNull_any, noNull_filterMap, hb]
    rfl
  · unfold orderedSplit
    rw [pyAssert_bind, hn]; rfl

/-- C34: so is an empty series. -/
theorem C34_ordered_split_empty (rnd : K → K) (frac : K) (s q : Bool) :
    orderedSplit rnd ([] : List (Option α)) frac s q = .error .assertion := by
  unfold orderedSplit
  have hb : decide (0 ≤ min ⌊rnd (frac * ((0 : Nat) : K))⌋ (((0 : Nat) : Int) - 1)) = false := by
    simp
  by_cases hf : (decide (0 ≤ frac) && decide (frac ≤ 1)) = true
  · cases s <;> cases q <;> simp [pyAssert_bind]
  · simp only [Bool.not_eq_true] at hf
    rw [pyAssert_bind, pyAssert_bind, hf]; rfl

/-- C31: when `ordered_split_series` succeeds there is a value of the series such that train is
exactly the rows with at most that value.  The share of distinct values in train is at least `frac`;
without the largest train value it would be below `frac`; with `frac = 0` only the minimum is train.
(Shares are the rounded quotients the code computes; `rnd = id` gives exact shares.) -/
theorem C31_ordered_split {rnd : K → K} (h : IsRounding rnd) {vals : List α} {frac : K}
    {mask : List Bool} (hok : orderedSplit rnd (noNull vals) frac false false = .ok mask) :
    0 ≤ frac ∧ frac ≤ 1 ∧
    ∃ pivot ∈ vals, mask = vals.map (fun v => decide (v ≤ pivot)) ∧
      frac ≤ rnd ((vals.toFinset.filter (· ≤ pivot)).card / (vals.toFinset.card : K)) ∧
      (0 < frac → rnd ((vals.toFinset.filter (· < pivot)).card / (vals.toFinset.card : K)) < frac) ∧
      (frac = 0 → ∀ v ∈ vals, pivot ≤ v) := by
  have h0 : 0 ≤ frac := by
    by_contra hc
    rw [C34_ordered_split rnd _ frac _ _ (.inr (.inl (not_le.1 hc)))] at hok; cases hok
  have h1 : frac ≤ 1 := by
    by_contra hc
    rw [C34_ordered_split rnd _ frac _ _ (.inr (.inr (not_le.1 hc)))] at hok; cases hok
  obtain ⟨hL, hnd, hfs, hlen⟩ := sorted_dedup vals
  generalize hLdef : vals.dedup.insertionSort (· ≤ ·) = L at *
  have hne : L ≠ [] := by
    rintro rfl
    have : vals = [] := by
      have e : vals.toFinset = ∅ := by rw [← hfs]; rfl
      simpa using e
    subst this
    rw [show noNull ([] : List α) = [] from rfl, C34_ordered_split_empty] at hok; cases hok
  obtain ⟨pivot, hpv, hcore⟩ := orderedSplit_core h (vals := vals) hL hne h0 h1
    (s := false) (q := false) (by simpa using hLdef)
  have hu : 0 < L.length := List.length_pos_iff.2 hne
  obtain ⟨f1, f2, f3⟩ := pivotIdx_facts h h0 hu
  rw [hcore] at hok
  split_ifs at hok with hcond
  simp only [Except.ok.injEq] at hok
  have hpe : pivot = L[pivotIdx rnd frac L.length] := by
    rw [List.getElem?_eq_getElem f2] at hpv; exact (Option.some.inj hpv).symm
  have hmem : pivot ∈ vals := by
    have : pivot ∈ L := List.mem_of_getElem? hpv
    rw [← List.mem_toFinset, hfs] at this; simpa using this
  have c1 : (vals.toFinset.filter (· ≤ pivot)).card = pivotIdx rnd frac L.length + 1 := by
    rw [← hfs, ← countP_eq_card hnd, hpe, countP_le_getElem hL f2]
  have c2 : (vals.toFinset.filter (· < pivot)).card = pivotIdx rnd frac L.length := by
    rw [← hfs, ← countP_eq_card hnd, hpe, countP_lt_getElem hL f2]
  refine ⟨h0, h1, pivot, hmem, hok.symm, ?_, ?_, ?_⟩
  · rw [c1, ← hlen]; exact hcond.1
  · intro hpos
    rw [c2, ← hlen]
    rcases hcond.2 with hz | hlt
    · rw [hz]
      have z := h.nat 0
      simp only [Nat.cast_zero] at z
      simpa [z] using hpos
    · exact hlt
  · intro hz v hv
    have hk : pivotIdx rnd frac L.length = 0 := by
      have z := h.nat 0
      simp only [Nat.cast_zero] at z
      unfold pivotIdx
      rw [hz, zero_mul, z]
      simp
    rw [hk] at c2
    have := Finset.card_eq_zero.1 c2
    by_contra hc
    have hm : v ∈ vals.toFinset.filter (· < pivot) := by
      simp only [Finset.mem_filter, List.mem_toFinset]
      exact ⟨hv, not_le.1 hc⟩
    rw [this] at hm; simp at hm

/-- C31, exact arithmetic: the number of distinct values in train is `frac * u` rounded up, but at
least one. -/
theorem C31_exact_size {vals : List α} {frac : K}
    {mask : List Bool} (hok : orderedSplit id (noNull vals) frac false false = .ok mask) :
    ∃ pivot ∈ vals, mask = vals.map (fun v => decide (v ≤ pivot)) ∧
      ((vals.toFinset.filter (· ≤ pivot)).card : Int) = max 1 ⌈frac * vals.toFinset.card⌉ := by
  obtain ⟨h0, h1, pivot, hm, hmask, ha, hb, hc⟩ := C31_ordered_split isRounding_id hok
  refine ⟨pivot, hm, hmask, ?_⟩
  simp only [id] at ha hb
  have hu : 0 < vals.toFinset.card := Finset.card_pos.2 ⟨pivot, by simpa using hm⟩
  have huK : (0 : K) < vals.toFinset.card := by exact_mod_cast hu
  rw [le_div_iff₀ huK] at ha
  have hsplit : (vals.toFinset.filter (· ≤ pivot)).card =
      (vals.toFinset.filter (· < pivot)).card + 1 := by
    have : vals.toFinset.filter (· ≤ pivot) = insert pivot (vals.toFinset.filter (· < pivot)) := by
      ext a
      simp only [Finset.mem_filter, Finset.mem_insert, List.mem_toFinset, le_iff_lt_or_eq]
      constructor
      · rintro ⟨h, h' | h'⟩
        · exact .inr ⟨h, h'⟩
        · exact .inl h'
      · rintro (rfl | ⟨h, h'⟩)
        · exact ⟨hm, .inr rfl⟩
        · exact ⟨h, .inl h'⟩
    rw [this, Finset.card_insert_of_notMem (by simp)]
  rcases eq_or_lt_of_le h0 with hz | hpos
  · have : (vals.toFinset.filter (· < pivot)).card = 0 := by
      rw [Finset.card_eq_zero, Finset.filter_eq_empty_iff]
      intro a ha'
      exact not_lt.2 (hc hz.symm a (by simpa using ha'))
    rw [hsplit, this, ← hz]; simp
  · have hb := hb hpos
    rw [div_lt_iff₀ huK] at hb
    rw [hsplit] at ha ⊢
    have hceil : ⌈frac * vals.toFinset.card⌉ =
        (((vals.toFinset.filter (· < pivot)).card + 1 : Nat) : Int) := by
      rw [Int.ceil_eq_iff]
      push_cast at ha ⊢
      exact ⟨by linarith, by linarith⟩
    rw [hceil]; push_cast; omega

/-- C31: true hints do not change the result: uniqueness for data without repetitions, both hints
for strictly increasing data, and the sortedness hint alone never matters. -/
theorem C31_hints (rnd : K → K) (vals : List α) (frac : K) :
    (vals.Nodup → orderedSplit rnd (noNull vals) frac false true =
      orderedSplit rnd (noNull vals) frac false false) ∧
    (vals.Pairwise (· < ·) → orderedSplit rnd (noNull vals) frac true true =
      orderedSplit rnd (noNull vals) frac false false) ∧
    orderedSplit rnd (noNull vals) frac true false =
      orderedSplit rnd (noNull vals) frac false false := by
  refine ⟨fun hnd => ?_, fun hs => ?_, rfl⟩
  · have e : vals.insertionSort (· ≤ ·) = vals.dedup.insertionSort (· ≤ ·) := by
      rw [hnd.dedup]
    unfold orderedSplit
    rw [noNull_filterMap]
    simp only [Bool.false_and, Bool.false_eq_true, if_false, if_true, e]
  · have hnd : vals.Nodup := hs.imp fun h => h.ne
    have e : vals = vals.dedup.insertionSort (· ≤ ·) := by
      rw [hnd.dedup]
      exact (List.Pairwise.insertionSort_eq (hs.imp fun h => h.le)).symm
    have e' := e
    unfold orderedSplit
    rw [noNull_filterMap]
    simp only [Bool.and_self, Bool.false_eq_true, if_false, if_true]
    generalize hg : vals.dedup.insertionSort (· ≤ ·) = L at e'
    subst e'
    rfl

/-- C32, any rounding for which `frac` is representable: the split of a non-empty series fails
exactly when the pivot position `k = min(int(frac*u), u-1)` is positive and the share `k/u` of the
values before the pivot already reaches `frac`; otherwise a mask is returned. -/
theorem C32_ordered_fails_iff {rnd : K → K} (h : IsRounding rnd) {vals : List α} (hv : vals ≠ [])
    {frac : K} (hf : rnd frac = frac) (h0 : 0 ≤ frac) (h1 : frac ≤ 1) :
    (orderedSplit rnd (noNull vals) frac false false = .error .assertion ↔
      ∃ k : Nat, 0 < k ∧ (k : Int) = min ⌊rnd (frac * vals.toFinset.card)⌋ (vals.toFinset.card - 1) ∧
        frac ≤ rnd (k / (vals.toFinset.card : K))) ∧
    (orderedSplit rnd (noNull vals) frac false false ≠ .error .assertion →
      ∃ mask, orderedSplit rnd (noNull vals) frac false false = .ok mask) := by
  obtain ⟨hL, hnd, hfs, hlen⟩ := sorted_dedup vals
  generalize hLdef : vals.dedup.insertionSort (· ≤ ·) = L at *
  have hne : L ≠ [] := by
    rintro rfl
    apply hv
    have e : vals.toFinset = ∅ := by rw [← hfs]; rfl
    simpa using e
  obtain ⟨pivot, hpv, hcore⟩ := orderedSplit_core h (vals := vals) hL hne h0 h1
    (s := false) (q := false) (by simpa using hLdef)
  have hu : 0 < L.length := List.length_pos_iff.2 hne
  have huK : (0 : K) < L.length := by exact_mod_cast hu
  obtain ⟨f1, f2, f3⟩ := pivotIdx_facts h h0 hu
  have hfirst : frac ≤ rnd ((pivotIdx rnd frac L.length + 1 : Nat) / (L.length : K)) := by
    by_cases hlast : pivotIdx rnd frac L.length + 1 = L.length
    · rw [hlast, div_self huK.ne']
      have := h.nat 1
      simp only [Nat.cast_one] at this
      rw [this]; exact h1
    · have hk : ((pivotIdx rnd frac L.length : Nat) : Int) = ⌊rnd (frac * L.length)⌋ := by omega
      have hlt : rnd (frac * L.length) < (pivotIdx rnd frac L.length + 1 : Nat) := by
        have := Int.lt_floor_add_one (rnd (frac * L.length))
        rw [← hk] at this
        push_cast at this ⊢
        exact this
      have hlt2 : frac * L.length < (pivotIdx rnd frac L.length + 1 : Nat) := by
        by_contra hc
        have := h.mono (not_lt.1 hc)
        rw [h.nat] at this
        exact absurd hlt (not_lt.2 this)
      have : frac ≤ (pivotIdx rnd frac L.length + 1 : Nat) / (L.length : K) := by
        rw [le_div_iff₀ huK]; exact hlt2.le
      have := h.mono this
      rwa [hf] at this
  rw [hcore]
  simp only [hfirst, true_and]
  refine ⟨?_, ?_⟩
  · rw [← hlen, ← f3]
    constructor
    · intro hc
      split_ifs at hc with hd
      · push Not at hd
        exact ⟨_, Nat.pos_of_ne_zero hd.1, rfl, hd.2⟩
    · rintro ⟨k, hk, hk2, hle⟩
      have : k = pivotIdx rnd frac L.length := by omega
      subst this
      rw [if_neg]
      push Not
      exact ⟨by omega, hle⟩
  · intro hc
    split_ifs at hc ⊢ with hd
    · exact ⟨_, rfl⟩
    · exact absurd rfl hc

/-- C32: with exact arithmetic the split of a non-empty series with `u` distinct values raises
`AssertionError` exactly when `frac * u` is an integer strictly between `0` and `u`. -/
theorem C32_ordered_exact_hit {vals : List α} (hv : vals ≠ [])
    {frac : K} (h0 : 0 ≤ frac) (h1 : frac ≤ 1) :
    orderedSplit id (noNull vals) frac false false = .error .assertion ↔
      ∃ k : Nat, 0 < k ∧ k < vals.toFinset.card ∧ frac * vals.toFinset.card = k := by
  have hu : 0 < vals.toFinset.card := by
    rw [Finset.card_pos]
    obtain ⟨a, l, rfl⟩ := List.exists_cons_of_ne_nil hv
    exact ⟨a, by simp⟩
  have huK : (0 : K) < vals.toFinset.card := by exact_mod_cast hu
  rw [(C32_ordered_fails_iff isRounding_id hv rfl h0 h1).1]
  simp only [id]
  constructor
  · rintro ⟨k, hk, e, hle⟩
    rw [le_div_iff₀ huK] at hle
    refine ⟨k, hk, by omega, le_antisymm hle ?_⟩
    have : (k : Int) ≤ ⌊frac * vals.toFinset.card⌋ := by omega
    have := Int.le_floor.1 this
    exact_mod_cast this
  · rintro ⟨k, hk, hlt, e⟩
    refine ⟨k, hk, ?_, ?_⟩
    · rw [e, Int.floor_natCast]; omega
    · rw [le_div_iff₀ huK, e]

example : orderedSplit (K := ℚ) id (noNull [3, 1, 2, 4]) (1/2) false false = .error .assertion := by
  decide +kernel

example : orderedSplit (K := ℚ) id (noNull [3, 1, 2, 4, 1]) (3/5) false false =
    .ok [true, true, true, false, true] := by decide +kernel

end
end Mlp.Props
