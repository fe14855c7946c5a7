import Verif.Spec.Split
import Verif.Lemmas.PyLemmas
import Mathlib.Data.List.Sort
import Mathlib.Data.List.NodupEquivFin
import Mathlib.Tactic.Linarith
import Mathlib.Tactic.FieldSimp
import Mathlib.Tactic.Ring
import Mathlib.Tactic.Positivity

/-! # Lemmas for the data splitters -/

set_option linter.unusedSectionVars false

namespace Mlp.Lemmas
open Mlp Mlp.Splitter Mlp.Spec

section
variable {α : Type} [DecidableEq α]

theorem mem_uniqueFirst {l : List α} {a : α} : a ∈ uniqueFirst l ↔ a ∈ l := by
  induction l with
  | nil => simp [uniqueFirst]
  | cons b l ih =>
    simp only [uniqueFirst, List.mem_cons, List.mem_filter, ih, decide_eq_true_eq]
    by_cases h : a = b <;> simp [h]

theorem nodup_uniqueFirst (l : List α) : (uniqueFirst l).Nodup := by
  induction l with
  | nil => simp [uniqueFirst]
  | cons b l ih =>
    simp only [uniqueFirst, List.nodup_cons, List.mem_filter, decide_eq_true_eq]
    exact ⟨by simp, ih.filter _⟩

theorem uniqueFirst_of_nodup {l : List α} (h : l.Nodup) : uniqueFirst l = l := by
  induction l with
  | nil => rfl
  | cons b l ih =>
    rw [List.nodup_cons] at h
    simp only [uniqueFirst, ih h.2]
    congr 1
    rw [List.filter_eq_self]
    intro a ha
    simp only [decide_eq_true_eq]
    rintro rfl
    exact h.1 ha

theorem uniqueFirst_toFinset (l : List α) : (uniqueFirst l).toFinset = l.toFinset := by
  ext a; simp [mem_uniqueFirst]

theorem uniqueFirst_length (l : List α) : (uniqueFirst l).length = l.toFinset.card := by
  rw [← uniqueFirst_toFinset, List.toFinset_card_of_nodup (nodup_uniqueFirst l)]

end

theorem noNull_any {α : Type} (vals : List α) : (noNull vals).any (fun v => v.isNone) = false := by
  simp [noNull]

theorem noNull_filterMap {α : Type} (vals : List α) : (noNull vals).filterMap id = vals := by
  simp [noNull, List.filterMap_map]

/-- A series is either free of nulls or has one. -/
theorem noNull_or {α : Type} (S : List (Option α)) :
    (∃ vals, S = noNull vals) ∨ S.any (fun v => v.isNone) = true := by
  induction S with
  | nil => exact .inl ⟨[], rfl⟩
  | cons v S ih =>
    cases v with
    | none => right; simp
    | some v =>
      rcases ih with ⟨vals, rfl⟩ | h
      · exact .inl ⟨v :: vals, rfl⟩
      · right; simp only [List.any_cons, h]; simp

section
variable {K : Type} [Field K] [LinearOrder K] [IsStrictOrderedRing K] [FloorRing K]

theorem _root_.Mlp.Spec.IsRounding.nat {rnd : K → K} (h : IsRounding rnd) (n : Nat) : rnd n = n := by
  have := h.int n; simpa using this

theorem isRounding_id : IsRounding (id : K → K) := ⟨monotone_id, fun _ => rfl⟩

theorem _root_.Mlp.Spec.IsRounding.ceil_bounds {rnd : K → K} (h : IsRounding rnd) {frac : K} (h0 : 0 ≤ frac)
    (h1 : frac ≤ 1) (n : Nat) : 0 ≤ ⌈rnd (frac * n)⌉ ∧ ⌈rnd (frac * n)⌉ ≤ n := by
  have hn : (0 : K) ≤ n := Nat.cast_nonneg n
  have a : rnd 0 ≤ rnd (frac * n) := h.mono (by positivity)
  have b : rnd (frac * n) ≤ rnd n := h.mono (by nlinarith)
  have z := h.nat 0
  simp only [Nat.cast_zero] at z
  rw [z] at a
  rw [h.nat] at b
  exact ⟨Int.ceil_nonneg a, Int.ceil_le.2 (by exact_mod_cast b)⟩

/-- Number of elements a rounded-up fraction keeps. -/
theorem _root_.Mlp.Spec.IsRounding.ceil_nat {rnd : K → K} (h : IsRounding rnd) {frac : K} (h0 : 0 ≤ frac)
    (h1 : frac ≤ 1) (n : Nat) :
    ((⌈rnd (frac * n)⌉.toNat : Nat) : Int) = ⌈rnd (frac * n)⌉ ∧ ⌈rnd (frac * n)⌉.toNat ≤ n := by
  have := h.ceil_bounds h0 h1 n
  omega

theorem take_filterMap_length {β : Type} (x : List β) {p : List Nat} (hp : IsPerm p x.length)
    {N : Nat} (hN : N ≤ x.length) :
    ((p.take N).filterMap fun i => x[i]?).length = N := by
  have hl : p.length = x.length := by have := hp.length_eq; simpa using this
  have : ∀ q : List Nat, (∀ i ∈ q, i < x.length) → (q.filterMap fun i => x[i]?).length = q.length := by
    intro q hq
    induction q with
    | nil => rfl
    | cons i q ih =>
      have hi := hq i (by simp)
      rw [List.filterMap_cons_some (b := x[i]) (by simp [hi])]
      simp [ih (fun j hj => hq j (by simp [hj]))]
  rw [this]
  · simp [hl, hN]
  · intro i hi
    have := hp.mem_iff.1 (List.mem_of_mem_take hi)
    simpa using this

/-- What `rand_subset` returns on good input. -/
theorem randSubset_ok {β : Type} {rnd : K → K} (h : IsRounding rnd) {perm : Nat → List Nat}
    {x : List β} (hx : x ≠ []) (hp : IsPerm (perm x.length) x.length) {frac : K} (h0 : 0 ≤ frac)
    (h1 : frac ≤ 1) :
    randSubset rnd perm x frac =
      .ok (((perm x.length).take ⌈rnd (frac * x.length)⌉.toNat).filterMap fun i => x[i]?) := by
  have hb := h.ceil_bounds h0 h1 x.length
  have hc := h.ceil_nat h0 h1 x.length
  have hl := take_filterMap_length x hp hc.2
  have he : x.isEmpty = false := by cases x <;> simp_all
  have e : ((⌈rnd (frac * x.length)⌉.toNat : Nat) : K) = (⌈rnd (frac * x.length)⌉ : K) := by
    rw [← Int.cast_natCast, hc.1]
  have c1 : rnd ((x.length : K) * frac) ≤ (⌈rnd (frac * x.length)⌉ : K) := by
    rw [mul_comm]; exact Int.le_ceil _
  have c2 : (⌈rnd (frac * x.length)⌉ : K) - 1 < rnd ((x.length : K) * frac) := by
    rw [mul_comm (x.length : K)]; linarith [Int.ceil_lt_add_one (rnd (frac * x.length))]
  unfold randSubset
  simp only [h0, h1, hb.1, hb.2, hl, e, c1, c2, he, pyAssert_bind, decide_true, Bool.and_self,
    if_true, Bool.false_eq_true, if_false, pure_eq_ok]

theorem randSubset_map {β γ : Type} (f : β → γ) (rnd : K → K) (perm : Nat → List Nat)
    (x : List β) (frac : K) :
    randSubset rnd perm (x.map f) frac = (randSubset rnd perm x frac).map (List.map f) := by
  unfold randSubset
  have e : ∀ q : List Nat, (q.filterMap fun i => (x.map f)[i]?) =
      (q.filterMap fun i => x[i]?).map f := by
    intro q; simp [List.map_filterMap]
  simp only [List.length_map, e, List.isEmpty_map, pyAssert_bind]
  split_ifs <;> rfl

end

end Mlp.Lemmas
