import Verif.Model.Decimal
import Mathlib.Data.Nat.Digits.Lemmas
import Mathlib.Tactic.Ring
import Mathlib.Tactic.Linarith

/-! # Digits of naturals, rounding of coefficients -/

namespace Mlp

theorem digitsBE_ne_nil (c : Nat) : digitsBE c ≠ [] := by
  unfold digitsBE; split
  · simp
  · simpa using Nat.digits_ne_nil_iff_ne_zero.mpr ‹_›

theorem digitsBE_lt (c d : Nat) (h : d ∈ digitsBE c) : d < 10 := by
  unfold digitsBE at h; split at h
  · simp at h; omega
  · exact Nat.digits_lt_base (by norm_num) (by simpa using h)

theorem ndig_pos (c : Nat) : 0 < ndig c := by
  unfold ndig; exact List.length_pos_iff.mpr (digitsBE_ne_nil c)

theorem ndig_zero : ndig 0 = 1 := rfl

theorem ndig_eq (c : Nat) (h : c ≠ 0) : ndig c = (Nat.digits 10 c).length := by
  simp [ndig, digitsBE, h]

theorem lt_pow_ndig (c : Nat) : c < 10 ^ ndig c := by
  by_cases h : c = 0
  · subst h; simp [ndig_zero]
  · rw [ndig_eq c h]; exact Nat.lt_base_pow_length_digits (by norm_num)

theorem pow_ndig_le (c : Nat) (h : c ≠ 0) : 10 ^ (ndig c - 1) ≤ c := by
  have h1 := Nat.base_pow_length_digits_le 10 c (by norm_num) h
  rw [← ndig_eq c h] at h1
  have h2 := ndig_pos c
  obtain ⟨k, hk⟩ : ∃ k, ndig c = k + 1 := ⟨ndig c - 1, by omega⟩
  rw [hk] at h1 ⊢
  rw [pow_succ] at h1
  simp at h1 ⊢; omega

/-- `ndig c ≤ k` means `c < 10^k` (for `k ≥ 1`). -/
theorem ndig_le_iff (c k : Nat) (hk : 1 ≤ k) : ndig c ≤ k ↔ c < 10 ^ k := by
  constructor
  · intro h
    exact lt_of_lt_of_le (lt_pow_ndig c) (Nat.pow_le_pow_right (by norm_num) h)
  · intro h
    by_contra hc
    by_cases h0 : c = 0
    · subst h0; simp [ndig_zero] at hc; omega
    · have h1 := pow_ndig_le c h0
      have h2 : 10 ^ k ≤ 10 ^ (ndig c - 1) := Nat.pow_le_pow_right (by norm_num) (by omega)
      omega

theorem lt_ndig_iff (c k : Nat) (hk : 1 ≤ k) : k < ndig c ↔ 10 ^ k ≤ c := by
  have := ndig_le_iff c k hk
  constructor
  · intro h; by_contra hc; have := this.mpr (by omega); omega
  · intro h; by_contra hc; have := this.mp (by omega); omega

/-- Reading the digits back. -/
theorem foldl_digitsBE (c : Nat) : (digitsBE c).foldl (fun a d => 10 * a + d) 0 = c := by
  have key : ∀ l : List Nat, l.foldr (fun d a => 10 * a + d) 0 = Nat.ofDigits 10 l := by
    intro l; induction l with
    | nil => simp
    | cons x xs ih => simp [Nat.ofDigits_cons, ih]; ring
  unfold digitsBE; split
  · simp_all
  · rw [List.foldl_reverse, key, Nat.ofDigits_digits]

end Mlp
