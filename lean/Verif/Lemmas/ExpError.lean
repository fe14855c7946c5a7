import Mathlib.Analysis.SpecialFunctions.Log.Basic
import Mathlib.Analysis.SpecialFunctions.Exp
import Mathlib.Tactic.Linarith
import Mathlib.Tactic.LinearCombination
import Mathlib.Tactic.Positivity

/-! # How errors pass through `exp` and `log` -/

namespace Mlp.Lemmas

/-- The increments of `exp`. -/
theorem exp_sub_le (a b : ℝ) : Real.exp a - Real.exp b ≤ (a - b) * Real.exp a := by
  have h := Real.add_one_le_exp (b - a)
  have e : Real.exp b = Real.exp a * Real.exp (b - a) := by rw [← Real.exp_add]; congr 1; ring
  have := mul_le_mul_of_nonneg_left h (Real.exp_pos a).le
  rw [e]; nlinarith

/-- `|exp (d + t) - exp d|` in terms of a bound of `|t|`. -/
theorem exp_add_error {d t s : ℝ} (h : |t| ≤ s) : |Real.exp (d + t) - Real.exp d| ≤ s * (Real.exp s * Real.exp d) := by
  have hs : 0 ≤ s := le_trans (abs_nonneg _) h
  have ht := abs_le.1 h
  have h1 : 1 ≤ Real.exp s := Real.one_le_exp hs
  have hd := Real.exp_pos d
  rw [abs_le]
  constructor
  · have := exp_sub_le d (d + t)
    have h2 : s * Real.exp d ≤ s * (Real.exp s * Real.exp d) :=
      mul_le_mul_of_nonneg_left (by nlinarith) hs
    have h3 : (d - (d + t)) * Real.exp d ≤ s * Real.exp d := mul_le_mul_of_nonneg_right (by linarith) hd.le
    linarith
  · have := exp_sub_le (d + t) d
    have h2 : Real.exp (d + t) ≤ Real.exp s * Real.exp d := by
      rw [← Real.exp_add]; exact Real.exp_le_exp.2 (by linarith)
    have h3 : (d + t - d) * Real.exp (d + t) ≤ s * Real.exp (d + t) :=
      mul_le_mul_of_nonneg_right (by linarith) (Real.exp_pos _).le
    have h4 := mul_le_mul_of_nonneg_left h2 hs
    linarith

/-- `x * exp (-x)` is at most 1/2. -/
theorem mul_exp_neg_le (x : ℝ) : x * Real.exp (-x) ≤ 1 / 2 := by
  have h := Real.add_one_le_exp (x - 1)
  have e : Real.exp (x - 1) * Real.exp (-x) = Real.exp (-1) := by rw [← Real.exp_add]; congr 1; ring
  have h1 : x * Real.exp (-x) ≤ Real.exp (x - 1) * Real.exp (-x) :=
    mul_le_mul_of_nonneg_right (by linarith) (Real.exp_pos _).le
  have h2 : Real.exp (-1) ≤ 1 / 2 := by
    rw [Real.exp_neg, ← one_div]
    exact one_div_le_one_div_of_le (by norm_num) (by have := Real.add_one_le_exp (1 : ℝ); linarith)
  linarith

theorem exp_quarter : Real.exp (1 / 4) ≤ 4 / 3 := by
  have h := Real.add_one_le_exp (-(1 / 4 : ℝ))
  rw [Real.exp_neg] at h
  have hp := Real.exp_pos (1 / 4)
  have : (3 / 4 : ℝ) * Real.exp (1 / 4) ≤ (Real.exp (1 / 4))⁻¹ * Real.exp (1 / 4) :=
    mul_le_mul_of_nonneg_right (by linarith) hp.le
  rw [inv_mul_cancel₀ hp.ne'] at this
  linarith

/-- An argument that is not positive, with an absolute error `a` and a relative error `u`. -/
theorem exp_mixed_error {d t a u : ℝ} (hd : d ≤ 0) (ha : 0 ≤ a) (ha1 : a ≤ 1 / 4) (hu : 0 ≤ u) (hu1 : u ≤ 1 / 4)
    (h : |t| ≤ a + u * |d|) : |Real.exp (d + t) - Real.exp d| ≤ 4 / 3 * (a + u) := by
  refine le_trans (exp_add_error h) ?_
  rw [abs_of_nonpos hd]
  have e : Real.exp (a + u * -d) * Real.exp d = Real.exp a * Real.exp (-((1 - u) * -d)) := by
    rw [← Real.exp_add, ← Real.exp_add]; congr 1; ring
  rw [e]
  have h1 : Real.exp a ≤ 4 / 3 := le_trans (Real.exp_le_exp.2 ha1) exp_quarter
  have h2 := mul_exp_neg_le ((1 - u) * -d)
  have h3 : Real.exp (-((1 - u) * -d)) ≤ 1 := by
    rw [Real.exp_le_one_iff]; nlinarith
  have h4 := Real.exp_pos (-((1 - u) * -d))
  set E := Real.exp (-((1 - u) * -d)) with hE
  have h5 : -d * E ≤ 1 := by
    have h6 : 0 ≤ -d * E := mul_nonneg (by linarith) h4.le
    nlinarith
  have h6 : (a + u * -d) * E ≤ a + u := by
    have : a * E ≤ a := by nlinarith
    have : u * (-d * E) ≤ u := by nlinarith
    nlinarith
  have h7 : 0 ≤ (a + u * -d) * E := by
    apply mul_nonneg _ h4.le
    have : 0 ≤ u * -d := mul_nonneg hu (by linarith)
    linarith
  have : (a + u * -d) * (Real.exp a * E) = Real.exp a * ((a + u * -d) * E) := by ring
  rw [this]
  calc Real.exp a * ((a + u * -d) * E) ≤ 4 / 3 * ((a + u * -d) * E) := mul_le_mul_of_nonneg_right h1 h7
    _ ≤ 4 / 3 * (a + u) := by linarith

/-- A relative error alone. -/
theorem exp_rel_error {d t u : ℝ} (hd : d ≤ 0) (hu : 0 ≤ u) (hu1 : u ≤ 1 / 4) (h : |t| ≤ u * |d|) :
    |Real.exp (d + t) - Real.exp d| ≤ u := by
  refine le_trans (exp_add_error h) ?_
  rw [abs_of_nonpos hd]
  have e : Real.exp (u * -d) * Real.exp d = Real.exp (-((1 - u) * -d)) := by
    rw [← Real.exp_add]; congr 1; ring
  rw [e]
  have h2 := mul_exp_neg_le ((1 - u) * -d)
  have h4 := Real.exp_pos (-((1 - u) * -d))
  set E := Real.exp (-((1 - u) * -d)) with hE
  have h5 : -d * E ≤ 1 := by
    have h6 : 0 ≤ -d * E := mul_nonneg (by linarith) h4.le
    nlinarith
  nlinarith

/-- `log` of a positive number with a small relative error. -/
theorem log_rel_error {a b r : ℝ} (hb : 0 < b) (hr : r ≤ 1 / 20) (h : |a - b| ≤ r * b) :
    0 < a ∧ |Real.log a - Real.log b| ≤ 20 / 19 * r := by
  have hr0 : 0 ≤ r := by
    by_contra hn
    have : r * b < 0 := mul_neg_of_neg_of_pos (by linarith) hb
    linarith [abs_nonneg (a - b)]
  have h' := abs_le.1 h
  have ha : 0 < a := by nlinarith
  refine ⟨ha, ?_⟩
  have h1 : Real.log (a / b) ≤ a / b - 1 := Real.log_le_sub_one_of_pos (div_pos ha hb)
  have h2 : Real.log (b / a) ≤ b / a - 1 := Real.log_le_sub_one_of_pos (div_pos hb ha)
  rw [Real.log_div ha.ne' hb.ne'] at h1
  rw [Real.log_div hb.ne' ha.ne'] at h2
  have h3 : a / b - 1 ≤ 20 / 19 * r := by
    rw [sub_le_iff_le_add, div_le_iff₀ hb]; nlinarith
  have h4 : b / a - 1 ≤ 20 / 19 * r := by
    rw [sub_le_iff_le_add, div_le_iff₀ ha]
    nlinarith
  rw [abs_le]
  constructor <;> linarith

end Mlp.Lemmas
