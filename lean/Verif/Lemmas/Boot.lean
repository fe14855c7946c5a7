import Verif.Spec.Boot
import Verif.Model.BootUtil
import Verif.Lemmas.Flt
import Verif.Lemmas.PyLemmas
import Mathlib.Algebra.Order.Floor.Ring
import Mathlib.Data.Rat.Floor
import Mathlib.Tactic.Linarith
import Mathlib.Tactic.Ring
import Mathlib.Tactic.Positivity
import Mathlib.Tactic.FieldSimp

/-! # Lemmas for the bootstrap functions -/

set_option linter.unusedSectionVars false

namespace Mlp.Lemmas
open Mlp Mlp.Spec Mlp.Boot

theorem orderStat_of_sorted {α : Type} [LinearOrder α] {L : List α} (hL : L.Pairwise (· ≤ ·))
    {k : Nat} (hk : k < L.length) : IsOrderStat L k L[k] := by
  have hget := List.pairwise_iff_getElem.1 hL
  have hsplit : ∀ (j : Nat) p, L.countP p = (L.take j ++ L.drop j).countP p := by
    intro j p; rw [List.take_append_drop]
  refine ⟨List.getElem_mem hk, ?_, ?_⟩
  · rw [hsplit k, List.countP_append]
    have h1 := List.countP_le_length (p := fun a => decide (a < L[k])) (l := L.take k)
    have h2 : (L.drop k).countP (fun a => decide (a < L[k])) = 0 := by
      rw [List.countP_eq_zero]
      intro c hc
      obtain ⟨j, hj, rfl⟩ := List.getElem_of_mem hc
      rw [List.length_drop] at hj
      simp only [List.getElem_drop, decide_eq_true_eq, not_lt]
      rcases Nat.eq_zero_or_pos j with rfl | h
      · simp
      · exact hget k (k + j) hk (by omega) (by omega)
    rw [List.length_take] at h1
    omega
  · rw [hsplit (k + 1), List.countP_append]
    have h1 : (L.take (k + 1)).countP (fun a => decide (a ≤ L[k])) = (L.take (k + 1)).length := by
      rw [List.countP_eq_length]
      intro c hc
      obtain ⟨j, hj, rfl⟩ := List.getElem_of_mem hc
      rw [List.length_take] at hj
      simp only [List.getElem_take, decide_eq_true_eq]
      rcases Nat.lt_or_ge j k with h | h
      · exact hget j k (by omega) hk h
      · have : j = k := by omega
        subst this; exact le_rfl
    rw [h1, List.length_take]
    omega

theorem _root_.Mlp.Spec.IsOrderStat.perm {α : Type} [LinearOrder α] {l l' : List α} (h : l.Perm l')
    {k : Nat} {v : α} (hv : IsOrderStat l k v) : IsOrderStat l' k v := by
  obtain ⟨h1, h2, h3⟩ := hv
  exact ⟨h.mem_iff.1 h1, by rw [← h.countP_eq]; exact h2, by rw [← h.countP_eq]; exact h3⟩

theorem countP_mono_imp {α : Type} {l : List α} {p q : α → Bool} (h : ∀ a ∈ l, p a = true → q a = true) :
    l.countP p ≤ l.countP q := List.countP_mono_left h

theorem _root_.Mlp.Spec.IsOrderStat.mono {α : Type} [LinearOrder α] {l : List α}
    {k j : Nat} {v w : α} (hkj : k ≤ j) (hv : IsOrderStat l k v) (hw : IsOrderStat l j w) : v ≤ w := by
  by_contra hc
  rw [not_le] at hc
  have := countP_mono_imp (l := l) (p := fun a => decide (a ≤ w)) (q := fun a => decide (a < v))
    (by intro a _ ha; simp only [decide_eq_true_eq] at ha ⊢; exact lt_of_le_of_lt ha hc)
  have h1 := hv.2.1
  have h2 := hw.2.2
  omega

theorem _root_.Mlp.Spec.IsOrderStat.unique {α : Type} [LinearOrder α] {l : List α}
    {k : Nat} {v w : α} (hv : IsOrderStat l k v) (hw : IsOrderStat l k w) : v = w :=
  le_antisymm (hv.mono le_rfl hw) (hw.mono le_rfl hv)

theorem sorted_get_orderStat {α : Type} [LinearOrder α] (l : List α) {k : Nat} (hk : k < l.length) :
    ∃ v, (l.insertionSort (· ≤ ·))[k]? = some v ∧ IsOrderStat l k v := by
  have hlen : k < (l.insertionSort (· ≤ ·)).length := by rw [List.length_insertionSort]; exact hk
  refine ⟨_, List.getElem?_eq_getElem hlen, ?_⟩
  exact (orderStat_of_sorted (List.pairwise_insertionSort _ _) hlen).perm
    (List.perm_insertionSort _ _)

section
variable {K : Type} [Field K] [LinearOrder K] [IsStrictOrderedRing K] [FloorRing K]

/-- The position of the lower percentile. -/
def lowIdx (c : K) (n : Nat) : Nat := ⌊(1 - c) / 2 * ((n : K) - 1)⌋.toNat

theorem lowIdx_facts {c : K} (h0 : 0 < c) (h1 : c < 1) {n : Nat} (hn : 0 < n) :
    ((lowIdx c n : Nat) : Int) = ⌊(1 - c) / 2 * ((n : K) - 1)⌋ ∧ 2 * lowIdx c n ≤ n - 1 ∧
    ((lowIdx c n : Nat) : K) ≤ (1 - c) / 2 * ((n : K) - 1) ∧
    (1 - c) / 2 * ((n : K) - 1) < (lowIdx c n : Nat) + 1 := by
  have hnK : (1 : K) ≤ n := by exact_mod_cast hn
  have hnn : 0 ≤ (1 - c) / 2 * ((n : K) - 1) := by
    apply mul_nonneg <;> linarith
  have hf : ((lowIdx c n : Nat) : Int) = ⌊(1 - c) / 2 * ((n : K) - 1)⌋ := by
    unfold lowIdx
    have := Int.floor_nonneg.2 hnn
    omega
  have hle : ((lowIdx c n : Nat) : K) ≤ (1 - c) / 2 * ((n : K) - 1) := by
    have := Int.floor_le ((1 - c) / 2 * ((n : K) - 1))
    rw [← hf] at this
    exact_mod_cast this
  refine ⟨hf, ?_, hle, ?_⟩
  · have : (2 * lowIdx c n : Nat) < (n : K) := by
      push_cast
      nlinarith
    have : 2 * lowIdx c n < n := by exact_mod_cast this
    omega
  · have := Int.lt_floor_add_one ((1 - c) / 2 * ((n : K) - 1))
    rw [← hf] at this
    exact_mod_cast this

theorem highIdx_eq {c : K} (h0 : 0 < c) (h1 : c < 1) {n : Nat} (hn : 0 < n) :
    ⌈(1 - (1 - c) / 2) * ((n : K) - 1)⌉.toNat = n - 1 - lowIdx c n := by
  obtain ⟨hf, h2, -, -⟩ := lowIdx_facts h0 h1 hn
  have e : (1 - (1 - c) / 2) * ((n : K) - 1) = (((n : Int) - 1 : Int) : K) - (1 - c) / 2 * ((n : K) - 1) := by
    push_cast; ring
  have : ⌈(1 - (1 - c) / 2) * ((n : K) - 1)⌉ = ((n : Int) - 1) - ⌊(1 - c) / 2 * ((n : K) - 1)⌋ := by
    rw [e, sub_eq_add_neg, Int.ceil_intCast_add, Int.ceil_neg]; ring
  rw [this, ← hf]
  omega

theorem any_isNaN {l : List (Flt K)} : (l.any fun v => v.isNaN) = false ↔ NoNaN l := by
  unfold NoNaN
  rw [List.any_eq_false]
  constructor
  · intro h hm
    exact h _ hm rfl
  · intro h v hv hc
    rw [Flt.isNaN_iff] at hc
    exact h (hc ▸ hv)

/-- What `percentile` returns. -/
theorem percentile_ok {boot : List (Flt K)} (hne : boot ≠ []) (hnan : NoNaN boot) {c : K}
    (h0 : 0 < c) (h1 : c < 1) :
    ∃ LB UB, percentile boot (.fin c) = .ok (LB, UB) ∧
      IsOrderStat boot (lowIdx c boot.length) LB ∧
      IsOrderStat boot (boot.length - 1 - lowIdx c boot.length) UB := by
  have hn : 0 < boot.length := List.length_pos_iff.2 hne
  obtain ⟨hf, h2, -, -⟩ := lowIdx_facts h0 h1 hn
  obtain ⟨LB, hLB, sLB⟩ := sorted_get_orderStat boot (k := lowIdx c boot.length) (by omega)
  obtain ⟨UB, hUB, sUB⟩ := sorted_get_orderStat boot
    (k := boot.length - 1 - lowIdx c boot.length) (by omega)
  refine ⟨LB, UB, ?_, sLB, sUB⟩
  have e1 : (100 * (1 / 2 * (1 - c)) / 100 * ((boot.length : K) - 1)) =
      (1 - c) / 2 * ((boot.length : K) - 1) := by ring
  have e2 : (100 * (1 - 1 / 2 * (1 - c)) / 100 * ((boot.length : K) - 1)) =
      (1 - (1 - c) / 2) * ((boot.length : K) - 1) := by ring
  have p1 : percentileLower boot (100 * (1 / 2 * (1 - c))) = .ok LB := by
    unfold percentileLower
    rw [e1]
    change (match (boot.insertionSort (· ≤ ·))[lowIdx c boot.length]? with
      | some v => Except.ok v | none => Except.error PyErr.indexError) = _
    rw [hLB]
  have p2 : percentileHigher boot (100 * (1 - 1 / 2 * (1 - c))) = .ok UB := by
    unfold percentileHigher
    rw [e2, highIdx_eq h0 h1 hn, hUB]
  unfold percentile confidenceToPercentiles
  simp only [any_isNaN.2 hnan, pyAssert_bind, h0, h1, decide_true, Bool.and_self, Bool.not_false,
    if_true, pure_eq_ok, ok_bind, p1, p2]

end
end Mlp.Lemmas
