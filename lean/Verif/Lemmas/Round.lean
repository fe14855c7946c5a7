import Verif.Lemmas.Digits
import Verif.Spec.DecVal
import Mathlib.Tactic.FieldSimp
import Mathlib.Tactic.Positivity
import Mathlib.Tactic.Push
import Mathlib.Algebra.Order.Group.Unbundled.Abs

/-! # Rounding lemmas for the decimal model -/

namespace Mlp
open Spec

theorem roundOff_zero (m : Rounding) (neg : Bool) (c : Nat) : roundOff m neg c 0 = c := by
  cases m <;> simp [roundOff, Nat.mod_one]

theorem div_decomp (c d : Nat) :
    (c : ℚ) / 10 ^ d = (c / 10 ^ d : Nat) + ((c % 10 ^ d : Nat) : ℚ) / 10 ^ d := by
  have h : (0 : ℚ) < 10 ^ d := by positivity
  rw [eq_comm, ← sub_eq_zero]
  field_simp
  have := Nat.div_add_mod c (10 ^ d)
  have h2 : ((10 ^ d * (c / 10 ^ d) + c % 10 ^ d : Nat) : ℚ) = c := by exact_mod_cast this
  push_cast at h2 ⊢
  linarith

theorem roundOff_ceil_pos (c d : Nat) :
    (c : ℚ) / 10 ^ d ≤ roundOff .ceiling false c d ∧
      (roundOff .ceiling false c d : ℚ) < (c : ℚ) / 10 ^ d + 1 := by
  rw [div_decomp]
  have h : (0 : ℚ) < 10 ^ d := by positivity
  have hr : c % 10 ^ d < 10 ^ d := Nat.mod_lt _ (by positivity)
  have hr' : ((c % 10 ^ d : Nat) : ℚ) < 10 ^ d := by exact_mod_cast hr
  have hfrac : ((c % 10 ^ d : Nat) : ℚ) / 10 ^ d < 1 := by rw [div_lt_one h]; exact hr'
  simp only [roundOff]
  split
  · rename_i hh; simp at hh
  split
  · rename_i h0; simp [h0]
  · rename_i h0
    have : (0 : ℚ) < ((c % 10 ^ d : Nat) : ℚ) / 10 ^ d := by
      apply div_pos _ h; exact_mod_cast Nat.pos_of_ne_zero h0
    push_cast at *
    constructor <;> linarith

theorem roundOff_ceil_neg (c d : Nat) :
    (roundOff .ceiling true c d : ℚ) ≤ (c : ℚ) / 10 ^ d ∧
      (c : ℚ) / 10 ^ d < roundOff .ceiling true c d + 1 := by
  rw [div_decomp]
  have h : (0 : ℚ) < 10 ^ d := by positivity
  have hr : c % 10 ^ d < 10 ^ d := Nat.mod_lt _ (by positivity)
  have hr' : ((c % 10 ^ d : Nat) : ℚ) < 10 ^ d := by exact_mod_cast hr
  have hfrac : ((c % 10 ^ d : Nat) : ℚ) / 10 ^ d < 1 := by rw [div_lt_one h]; exact hr'
  have hnn : (0 : ℚ) ≤ ((c % 10 ^ d : Nat) : ℚ) / 10 ^ d := by positivity
  simp only [roundOff, if_true]
  constructor <;> linarith

/-- `ROUND_HALF_UP` on magnitudes is `⌊t + 1/2⌋`. -/
theorem roundOff_halfUp (neg : Bool) (c d : Nat) :
    (roundOff .halfUp neg c d : ℚ) ≤ (c : ℚ) / 10 ^ d + 1 / 2 ∧
      (c : ℚ) / 10 ^ d + 1 / 2 < roundOff .halfUp neg c d + 1 := by
  rw [div_decomp]
  have h : (0 : ℚ) < 10 ^ d := by positivity
  have hr : c % 10 ^ d < 10 ^ d := Nat.mod_lt _ (by positivity)
  have hr' : ((c % 10 ^ d : Nat) : ℚ) < 10 ^ d := by exact_mod_cast hr
  have hfrac : ((c % 10 ^ d : Nat) : ℚ) / 10 ^ d < 1 := by rw [div_lt_one h]; exact hr'
  have hnn : (0 : ℚ) ≤ ((c % 10 ^ d : Nat) : ℚ) / 10 ^ d := by positivity
  simp only [roundOff]
  split
  · rename_i h2
    have h2' : ((10 ^ d : Nat) : ℚ) ≤ 2 * ((c % 10 ^ d : Nat) : ℚ) := by exact_mod_cast h2
    have : (1 : ℚ) / 2 ≤ ((c % 10 ^ d : Nat) : ℚ) / 10 ^ d := by
      rw [le_div_iff₀ h]; push_cast at h2' ⊢; linarith
    push_cast at *
    constructor <;> linarith
  · rename_i h2
    have h2' : 2 * ((c % 10 ^ d : Nat) : ℚ) < ((10 ^ d : Nat) : ℚ) := by
      exact_mod_cast (not_le.mp h2)
    have : ((c % 10 ^ d : Nat) : ℚ) / 10 ^ d < 1 / 2 := by
      rw [div_lt_iff₀ h]; push_cast at h2' ⊢; linarith
    push_cast at *
    constructor <;> linarith

theorem roundOff_halfEven (neg : Bool) (c d : Nat) :
    (roundOff .halfEven neg c d : ℚ) ≤ (c : ℚ) / 10 ^ d + 1 / 2 ∧
      (c : ℚ) / 10 ^ d ≤ roundOff .halfEven neg c d + 1 / 2 := by
  rw [div_decomp]
  have h : (0 : ℚ) < 10 ^ d := by positivity
  have hr : c % 10 ^ d < 10 ^ d := Nat.mod_lt _ (by positivity)
  have hr' : ((c % 10 ^ d : Nat) : ℚ) < 10 ^ d := by exact_mod_cast hr
  have hfrac : ((c % 10 ^ d : Nat) : ℚ) / 10 ^ d < 1 := by rw [div_lt_one h]; exact hr'
  have hnn : (0 : ℚ) ≤ ((c % 10 ^ d : Nat) : ℚ) / 10 ^ d := by positivity
  simp only [roundOff]
  split
  · rename_i h2
    have h2' : ((10 ^ d : Nat) : ℚ) < 2 * ((c % 10 ^ d : Nat) : ℚ) := by exact_mod_cast h2
    have : (1 : ℚ) / 2 < ((c % 10 ^ d : Nat) : ℚ) / 10 ^ d := by
      rw [lt_div_iff₀ h]; push_cast at h2' ⊢; linarith
    push_cast at *
    constructor <;> linarith
  · rename_i h2
    have h2' : 2 * ((c % 10 ^ d : Nat) : ℚ) ≤ ((10 ^ d : Nat) : ℚ) := by
      exact_mod_cast (not_lt.mp h2)
    have h4 : ((c % 10 ^ d : Nat) : ℚ) / 10 ^ d ≤ 1 / 2 := by
      rw [div_le_iff₀ h]; push_cast at h2' ⊢; linarith
    split
    · rename_i h3
      have h3' : 2 * ((c % 10 ^ d : Nat) : ℚ) = ((10 ^ d : Nat) : ℚ) := by exact_mod_cast h3
      have h5 : ((c % 10 ^ d : Nat) : ℚ) / 10 ^ d = 1 / 2 := by
        rw [div_eq_iff (ne_of_gt h)]; push_cast at h3' ⊢; linarith
      split
      · push_cast at *; constructor <;> linarith
      · push_cast at *; constructor <;> linarith
    · push_cast at *; constructor <;> linarith

/-- Rounding never goes beyond the next integer. -/
theorem roundOff_le_succ (m : Rounding) (neg : Bool) (c d : Nat) :
    c / 10 ^ d ≤ roundOff m neg c d ∧ roundOff m neg c d ≤ c / 10 ^ d + 1 := by
  cases m <;> simp only [roundOff]
  · split
    · omega
    · split <;> omega
  · split <;> omega
  · split
    · omega
    · split
      · split <;> omega
      · omega

theorem sval_mul_pow (neg : Bool) (c : Nat) (e : Int) (k : Nat) :
    sval neg (c * 10 ^ k) e = sval neg c (e + k) := by
  unfold sval
  rw [zpow_add₀ (by norm_num)]
  push_cast
  rw [zpow_natCast]; ring

theorem sval_div_pow (neg : Bool) (c d : Nat) (e : Int) :
    sval neg c e = (if neg then -1 else 1) * ((c : ℚ) / 10 ^ d) * (10 : ℚ) ^ (e + d) := by
  unfold sval
  rw [zpow_add₀ (by norm_num), zpow_natCast]
  have h : (0 : ℚ) < 10 ^ d := by positivity
  field_simp

theorem sval_scale (neg : Bool) (c : Nat) (e k : Int) :
    sval neg c (e + k) = sval neg c e * (10 : ℚ) ^ k := by
  unfold sval
  rw [zpow_add₀ (by norm_num)]; ring

/-- The number of digits dropped by `fix`. -/
def dropped (prec c : Nat) : Nat := ndig c - prec

/-- `fix` keeps at most `prec` digits and its value is the rounded one. -/
theorem fix_spec (prec : Nat) (hp : 1 ≤ prec) (m : Rounding) (neg : Bool) (c : Nat) (e : Int) :
    ∃ c' e', Dec.fix prec m (.fin neg c e) = .fin neg c' e' ∧ c' < 10 ^ prec ∧
      sval neg c' e' = sval neg (roundOff m neg c (dropped prec c)) (e + dropped prec c) ∧
      e + dropped prec c ≤ e' ∧ e' ≤ e + dropped prec c + 1 ∧
      (dropped prec c = 0 → c' = c ∧ e' = e) := by
  unfold dropped
  simp only [Dec.fix]
  by_cases h : ndig c ≤ prec
  · simp only [h, if_true]
    have h0 : ndig c - prec = 0 := by omega
    refine ⟨c, e, rfl, (ndig_le_iff c prec hp).mp h, ?_, ?_⟩
    · simp [h0, roundOff_zero]
    · simp [h0]
  · simp only [h, if_false]
    have hd : ndig c - prec ≠ 0 := by omega
    set d := ndig c - prec with hdd
    set q := roundOff m neg c d with hq
    have hc : c < 10 ^ prec * 10 ^ d := by
      rw [← pow_add]; have := lt_pow_ndig c
      have h2 : prec + d = ndig c := by omega
      rw [h2]; exact this
    have hq0 : c / 10 ^ d < 10 ^ prec := by
      rw [Nat.div_lt_iff_lt_mul (by positivity)]; exact hc
    have hq1 := roundOff_le_succ m neg c d
    rw [← hq] at hq1
    by_cases h2 : prec < ndig q
    · simp only [h2, if_true]
      have h3 := (lt_ndig_iff q prec hp).mp h2
      have h4 : q = 10 ^ prec := by omega
      obtain ⟨k, hk⟩ : ∃ k, prec = k + 1 := ⟨prec - 1, by omega⟩
      have h5 : q / 10 = 10 ^ k := by rw [h4, hk, pow_succ]; simp
      refine ⟨q / 10, e + d + 1, rfl, ?_, ?_, by omega, by omega, fun h => absurd h hd⟩
      · rw [h5, hk]; exact Nat.pow_lt_pow_right (by norm_num) (by omega)
      · have : q = q / 10 * 10 ^ 1 := by rw [h5, h4, hk, pow_succ]; simp
        conv_rhs => rw [this]
        rw [sval_mul_pow]; simp
    · simp only [h2, if_false]
      exact ⟨q, e + d, rfl, (ndig_le_iff q prec hp).mp (by omega), rfl, by omega, by omega,
        fun h => absurd h hd⟩

end Mlp
