import Verif.Model.Util
import Verif.Spec.Boot
import Verif.Lemmas.PyLemmas
import Verif.Lemmas.Clip
import Mathlib.Data.List.Chain
import Mathlib.Tactic.Linarith

/-! # Lemmas about curves -/

set_option linter.unusedSectionVars false

namespace Mlp.Lemmas
open Mlp.Util Mlp.Spec

section
variable {K : Type} [Field K] [LinearOrder K] [IsStrictOrderedRing K]

theorem zero_le_sub {a b : Flt K} : (Flt.fin 0).le (b.sub a) = true ↔
    a ≠ .nan ∧ b ≠ .nan ∧ a ≤ b ∧ (a = b → a.isFinite = true) := by
  rw [Flt.le_iff]
  cases a <;> cases b <;> simp [Flt.sub, Flt.add, Flt.neg, Flt.isFinite]

theorem zero_lt_sub {a b : Flt K} : (Flt.fin 0).lt (b.sub a) = true ↔
    a ≠ .nan ∧ b ≠ .nan ∧ a < b := by
  rw [Flt.lt_iff]
  cases a <;> cases b <;> simp [Flt.sub, Flt.add, Flt.neg, ← not_le]

theorem diff_cons_cons (a b : Flt K) (l : List (Flt K)) :
    diff (a :: b :: l) = b.sub a :: diff (b :: l) := rfl

theorem diff_all (q : Flt K → Bool) (l : List (Flt K)) :
    (diff l).all q = true ↔ l.IsChain fun a b => q (b.sub a) = true := by
  induction l with
  | nil => simp [diff]
  | cons a l ih =>
    cases l with
    | nil => simp [diff]
    | cons b l => rw [diff_cons_cons, List.all_cons, Bool.and_eq_true, ih, List.isChain_cons_cons]

/-- Sorted in the way the code accepts: no NaN, increasing, an infinity at most once. -/
def Sortable (l : List (Flt K)) : Prop :=
  NoNaN l ∧ l.Pairwise fun a b => a ≤ b ∧ (a = b → a.isFinite = true)

theorem sortable_iff {l : List (Flt K)} :
    Sortable l ↔ NoNaN l ∧ (diff l).all (fun d => (Flt.fin 0).le d) = true := by
  unfold Sortable
  refine and_congr_right fun hn => ?_
  rw [diff_all]
  have tr : IsTrans (Flt K) (fun a b : Flt K => a ≤ b ∧ (a = b → a.isFinite = true)) := by
    refine ⟨fun a b c h1 h2 => ⟨h1.1.trans h2.1, ?_⟩⟩
    rintro rfl
    exact h1.2 (le_antisymm h1.1 h2.1)
  rw [← List.isChain_iff_pairwise]
  constructor
  · intro h
    rw [List.isChain_iff_getElem] at h ⊢
    intro i hi
    refine zero_le_sub.2 ⟨?_, ?_, h i hi⟩
    · exact fun e => hn (e ▸ List.getElem_mem _)
    · exact fun e => hn (e ▸ List.getElem_mem _)
  · intro h
    exact h.imp fun a b hab => (zero_le_sub.1 hab).2.2

theorem strict_iff {l : List (Flt K)} (hn : NoNaN l) :
    (diff l).all (fun d => (Flt.fin 0).lt d) = true ↔ l.Pairwise (· < ·) := by
  rw [diff_all, ← List.isChain_iff_pairwise]
  constructor
  · intro h
    exact h.imp fun a b hab => (zero_lt_sub.1 hab).2.2
  · intro h
    rw [List.isChain_iff_getElem] at h ⊢
    intro i hi
    refine zero_lt_sub.2 ⟨?_, ?_, h i hi⟩
    · exact fun e => hn (e ▸ List.getElem_mem _)
    · exact fun e => hn (e ▸ List.getElem_mem _)

theorem noNaN_any' (l : List (Flt K)) : (!(l.any fun v => v.isNaN)) = true ↔ NoNaN l := by
  unfold NoNaN
  rw [Bool.not_eq_true', List.any_eq_false]
  constructor
  · intro h hc; exact absurd rfl (h _ hc)
  · intro h v hv he
    rw [Flt.isNaN_iff] at he
    exact h (he ▸ hv)

theorem sortable_finVec {xs : List K} (h : xs.Pairwise (· ≤ ·)) : Sortable (finVec xs) := by
  refine ⟨by simp [NoNaN, finVec], ?_⟩
  unfold finVec
  rw [List.pairwise_map]
  exact h.imp fun hab => ⟨by simpa using hab, fun _ => rfl⟩

theorem sortable_finVec_iff {xs : List K} : Sortable (finVec xs) ↔ xs.Pairwise (· ≤ ·) := by
  refine ⟨fun h => ?_, sortable_finVec⟩
  have := h.2
  unfold finVec at this
  rw [List.pairwise_map] at this
  exact this.imp fun hab => by simpa using hab.1

/-- Counting the entries of a sorted list up to a bound. -/
theorem count_prefix {α : Type} [LinearOrder α] {l : List α} (h : l.Pairwise (· ≤ ·)) (v : α) (k : Nat)
    (hk : k < l.length) : l[k] ≤ v ↔ k < l.countP fun a => decide (a ≤ v) := by
  induction l generalizing k with
  | nil => simp at hk
  | cons a l ih =>
    rw [List.pairwise_cons] at h
    rw [List.countP_cons]
    by_cases ha : a ≤ v
    · simp only [ha, decide_true, if_true]
      cases k with
      | zero => simp [ha]
      | succ k =>
        simp only [List.getElem_cons_succ]
        rw [ih h.2 k (by simpa using hk)]
        omega
    · have hz : l.countP (fun a => decide (a ≤ v)) = 0 := by
        rw [List.countP_eq_zero]
        intro b hb
        simp only [decide_eq_true_eq, not_le]
        exact lt_of_lt_of_le (not_le.1 ha) (h.1 b hb)
      rw [hz]
      simp only [ha, decide_false, Bool.false_eq_true, if_false, Nat.add_zero, Nat.not_lt_zero, iff_false,
        not_le]
      cases k with
      | zero => exact not_le.1 ha
      | succ k =>
        simp only [List.getElem_cons_succ]
        exact lt_of_lt_of_le (not_le.1 ha) (h.1 _ (List.getElem_mem _))

theorem pyIdx_nat {β : Type} (l : List β) (n : Nat) (h : n < l.length) :
    pyIdx l (n : Int) = .ok l[n] := by
  unfold pyIdx
  simp only [Int.toNat_natCast, show ¬ ((n : Int) < 0) by omega, if_false,
    List.getElem?_eq_getElem h]

theorem pyIdx_last {β : Type} (l : List β) (h : l ≠ []) : pyIdx l (-1) = .ok (l.getLast h) := by
  have hl : 0 < l.length := List.length_pos_iff.2 h
  unfold pyIdx
  have e1 : ¬ ((-1 : Int) + l.length < 0) := by omega
  have e2 : ((-1 : Int) + l.length).toNat = l.length - 1 := by omega
  simp only [show (-1 : Int) < 0 by norm_num, if_true, e1, if_false, e2]
  rw [List.getElem?_eq_getElem (by omega), List.getLast_eq_getElem]

theorem takeIdx_ok {β : Type} (l : List β) (p : List Nat) (h : ∀ i ∈ p, i < l.length) :
    takeIdx p l = .ok (p.filterMap fun i => l[i]?) := by
  unfold takeIdx
  induction p with
  | nil => rfl
  | cons i p ih =>
    rw [List.mapM_cons, pyIdx_nat l i (h i (by simp)), ok_bind, ih fun j hj => h j (by simp [hj]),
      List.filterMap_cons_some (b := l[i]'(h i (by simp))) (List.getElem?_eq_getElem _)]
    rfl

end
end Mlp.Lemmas
