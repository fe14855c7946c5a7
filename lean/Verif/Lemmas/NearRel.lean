import Mathlib.Analysis.SpecialFunctions.Log.Basic
import Mathlib.Analysis.SpecialFunctions.Pow.NNReal
import Verif.Lemmas.PerfRound

/-! # Relative errors of chains of operations -/

namespace Mlp.Lemmas
open Mlp.Round

/-- `a` is `b` up to the relative error of `k` roundings. -/
def Near (u : ℝ) (k : ℕ) (a b : ℝ) : Prop := |a - b| ≤ ((1 + u) ^ k - 1) * b

section
variable {u : ℝ} (hu : 0 ≤ u) {k l : ℕ} {a b c d : ℝ}

theorem Near.refl (b : ℝ) (u : ℝ) : Near u 0 b b := by simp [Near]

include hu

theorem one_le_pow_u (k : ℕ) : 1 ≤ (1 + u) ^ k := one_le_pow₀ (by linarith)

theorem Near.abs_bound (hb : 0 ≤ b) (h : Near u k a b) : |a| ≤ (1 + u) ^ k * b := by
  have h1 : |a| ≤ |a - b| + |b| := by simpa using abs_add_le (a - b) b
  rw [abs_of_nonneg hb] at h1
  have : |a - b| ≤ ((1 + u) ^ k - 1) * b := h
  linarith

theorem Near.mono (hb : 0 ≤ b) (h : Near u k a b) (hkl : k ≤ l) : Near u l a b := by
  refine h.trans (mul_le_mul_of_nonneg_right ?_ hb)
  have := pow_le_pow_right₀ (by linarith : 1 ≤ 1 + u) hkl
  linarith

/-- Errors of successive steps. -/
theorem Near.trans (hc : 0 ≤ c) (h : Near u k a b) (h' : Near u l b c) : Near u (k + l) a c := by
  have h1 := h'.abs_bound hu hc
  have h2 : b ≤ (1 + u) ^ l * c := (le_abs_self b).trans h1
  have hk := one_le_pow_u hu k
  have h3 : |a - c| ≤ |a - b| + |b - c| := abs_sub_le a b c
  have h4 : |a - b| ≤ ((1 + u) ^ k - 1) * b := h
  have h5 : |b - c| ≤ ((1 + u) ^ l - 1) * c := h'
  have h6 : ((1 + u) ^ k - 1) * b ≤ ((1 + u) ^ k - 1) * ((1 + u) ^ l * c) := mul_le_mul_of_nonneg_left h2 (by linarith)
  unfold Near
  rw [pow_add]
  nlinarith

theorem Near.mul (hb : 0 ≤ b) (hd : 0 ≤ d) (h : Near u k a b) (h' : Near u l c d) : Near u (k + l) (a * c) (b * d) := by
  have h1 := h.abs_bound hu hb
  have e : a * c - b * d = a * (c - d) + (a - b) * d := by ring
  have h2 : |a * c - b * d| ≤ |a| * |c - d| + |a - b| * d := by
    rw [e]
    refine (abs_add_le _ _).trans ?_
    rw [abs_mul, abs_mul, abs_of_nonneg hd]
  have h3 : |c - d| ≤ ((1 + u) ^ l - 1) * d := h'
  have h4 : |a - b| ≤ ((1 + u) ^ k - 1) * b := h
  have h5 : |a| * |c - d| ≤ ((1 + u) ^ k * b) * (((1 + u) ^ l - 1) * d) :=
    mul_le_mul h1 h3 (abs_nonneg _) (by have := one_le_pow_u hu k; positivity)
  have h6 : |a - b| * d ≤ (((1 + u) ^ k - 1) * b) * d := mul_le_mul_of_nonneg_right h4 hd
  unfold Near
  rw [pow_add]
  nlinarith

omit hu in
theorem Near.scale (hd : 0 ≤ d) (h : Near u k a b) : Near u k (a * d) (b * d) := by
  unfold Near at *
  rw [← sub_mul, abs_mul, abs_of_nonneg hd, ← mul_assoc]
  exact mul_le_mul_of_nonneg_right h hd

omit hu in
theorem Near.add (h : Near u k a b) (h' : Near u k c d) : Near u k (a + c) (b + d) := by
  unfold Near at *
  have e : a + c - (b + d) = (a - b) + (c - d) := by ring
  rw [e]
  refine (abs_add_le _ _).trans ?_
  linarith

omit hu in
theorem near_rnd {rnd : ℝ → ℝ} (he : RelError u rnd) (hb : 0 ≤ b) : Near u 1 (rnd b) b := by
  have := he b
  rw [abs_of_nonneg hb] at this
  unfold Near
  rw [pow_one, add_sub_cancel_left]
  exact this

theorem Near.rnd {rnd : ℝ → ℝ} (he : RelError u rnd) (ha : 0 ≤ a) (hb : 0 ≤ b) (h : Near u k a b) :
    Near u (k + 1) (rnd a) b := by
  have := (near_rnd he ha).trans hu hb h
  rwa [add_comm]

omit hu in
theorem Near.sqrt (hb : 0 ≤ b) (ha : 0 ≤ a) (h : Near u k a b) : Near u k (Real.sqrt a) (Real.sqrt b) := by
  unfold Near at *
  rcases hb.eq_or_lt with rfl | hb'
  · rw [mul_zero] at h
    have : a = 0 := by simpa using abs_nonpos_iff.1 h
    simp [this]
  have hs := Real.sqrt_pos.2 hb'
  have e : |Real.sqrt a - Real.sqrt b| * (Real.sqrt a + Real.sqrt b) = |a - b| := by
    rw [← abs_of_nonneg (add_nonneg (Real.sqrt_nonneg a) (Real.sqrt_nonneg b)), ← abs_mul]
    congr 1
    nlinarith [Real.sq_sqrt ha, Real.sq_sqrt hb]
  have h1 : |Real.sqrt a - Real.sqrt b| * Real.sqrt b ≤ |a - b| := by
    rw [← e]
    exact mul_le_mul_of_nonneg_left (by linarith [Real.sqrt_nonneg a]) (abs_nonneg _)
  have h2 : ((1 + u) ^ k - 1) * b = (((1 + u) ^ k - 1) * Real.sqrt b) * Real.sqrt b := by
    rw [mul_assoc, Real.mul_self_sqrt hb]
  rw [h2] at h
  exact le_of_mul_le_mul_right (h1.trans h) hs

theorem Near.inv (hb : 0 < b) (hs : (1 + u) ^ k - 1 ≤ 1 / 2) (h : Near u k a b) : 0 < a ∧ Near u (2 * k) a⁻¹ b⁻¹ := by
  unfold Near at *
  have hk := one_le_pow_u hu k
  have h1 := (abs_le.1 h).1
  have ha : (1 - ((1 + u) ^ k - 1)) * b ≤ a := by linarith
  have ha0 : 0 < a := lt_of_lt_of_le (mul_pos (by linarith) hb) ha
  refine ⟨ha0, ?_⟩
  have e : a⁻¹ - b⁻¹ = (b - a) * (a⁻¹ * b⁻¹) := by field_simp
  rw [e, abs_mul, abs_of_pos (mul_pos (inv_pos.2 ha0) (inv_pos.2 hb)), abs_sub_comm]
  rw [two_mul, pow_add]
  set q := (1 + u) ^ k
  have h2 : |a - b| * (a⁻¹ * b⁻¹) ≤ ((q - 1) * b) * (a⁻¹ * b⁻¹) := mul_le_mul_of_nonneg_right h (by positivity)
  refine h2.trans ?_
  have e2 : (q - 1) * b * (a⁻¹ * b⁻¹) = (q - 1) * a⁻¹ := by field_simp
  rw [e2]
  have h3 : (q - 1) * b ≤ (q * q - 1) * a := by
    have : (q * q - 1) * ((1 - (q - 1)) * b) ≤ (q * q - 1) * a := mul_le_mul_of_nonneg_left ha (by nlinarith)
    have h5 : 0 ≤ (q - 1) * b * ((q + 1) * (2 - q) - 1) := by
      refine mul_nonneg (mul_nonneg (by linarith) hb.le) ?_
      nlinarith
    nlinarith
  rw [← div_eq_mul_inv, ← div_eq_mul_inv, div_le_div_iff₀ ha0 hb]
  linarith

omit hu in
theorem Near.nonneg (hb : 0 ≤ b) (hk : (1 + u) ^ k ≤ 2) (h : Near u k a b) : 0 ≤ a := by
  have h1 := (_root_.abs_le.1 h).1
  have : ((1 + u) ^ k - 1) * b ≤ 1 * b := mul_le_mul_of_nonneg_right (by linarith) hb
  linarith

theorem Near.bound (hb : 0 ≤ b) (hk : k * u ≤ 1 / 2) (h : Near u k a b) : |a - b| ≤ 2 * (k * u) * b :=
  le_trans h (mul_le_mul_of_nonneg_right (pow_one_add_le hu hk) hb)

end
end Mlp.Lemmas
