import Verif.Model.MlpaperRound
import Verif.Spec.FloatSum

/-!
# What the theorems on `mlpaper.py` in floating point arithmetic ask of the libraries

None of this says how accurate numpy and scipy are, only that they get signs and ranges right.
-/

namespace Mlp.Spec
open Mlp.PaperR Mlp.Round

/-- Signs and ranges of the library functions. -/
structure SignLib (L : Lib ℝ) : Prop where
  /-- `np.sum` adds in some order, rounding after each addition -/
  sum : AddsAlongTrees L.rnd L.sum
  sqrt_zero : L.sqrt 0 = 0
  sqrt_nonneg : ∀ x, 0 ≤ x → 0 ≤ L.sqrt x
  /-- square roots of floats do not underflow -/
  sqrt_pos : ∀ x, L.rnd x = x → 0 < x → 0 < L.sqrt x
  log_pos : ∀ x, 2 ≤ x → 1 / 2 ≤ L.log x
  exp_nonneg : ∀ x, 0 ≤ L.exp x
  /-- a quadratic polynomial with these signs has one root on either side of 0 -/
  roots : ∀ a b c, 0 < a → 0 ≤ b → c ≤ 0 → ∃ r₁ r₂, L.roots a b c = some (r₁, r₂) ∧
    (r₁ ≤ 0 ∨ r₂ ≤ 0) ∧ (0 ≤ r₁ ∨ 0 ≤ r₂)
  tInterval : ∀ n c, 0 < c → c < 1 → (L.tInterval n c).1 ≤ (L.tInterval n c).2
  tSf : ∀ n t, 0 ≤ t → ∃ p, L.tSf n (.fin t) = .fin p ∧ 0 ≤ p ∧ p ≤ 1 / 2
  tSf_inf : ∀ n, ∃ p, L.tSf n .pinf = .fin p ∧ 0 ≤ p ∧ p ≤ 1 / 2
  tSf_nan : ∀ n, L.tSf n .nan = .nan

/-- The same with elementary operations that do not underflow. -/
structure GoodLib (L : Lib ℝ) : Prop extends SignLib L where
  /-- elementary operations are rounded by a monotone, odd function that keeps 0 and 1 -/
  rnd : FloatRounding L.rnd
  /-- doubling is exact -/
  double : ∀ x, L.rnd (2 * x) = 2 * L.rnd x

/-- Rounding with gradual underflow.  `G` are the numbers that the operands come from, such as the floats; the relative error is at
most `u`, plus an absolute error of at most `tiny` for results near 0.  Sums of floats have no such absolute error, and differences
of floats that are near 0 are exact. -/
structure GradualRounding (u tiny : ℝ) (G : ℝ → Prop) (rnd : ℝ → ℝ) : Prop extends MonoRounding rnd where
  unit_nonneg : 0 ≤ u
  tiny_nonneg : 0 ≤ tiny
  tiny_le : tiny ≤ u / 10 ^ 101
  error : ∀ x, |rnd x - x| ≤ u * |x| + tiny
  add_error : ∀ x y, G x → G y → |rnd (x + y) - (x + y)| ≤ u * |x + y|
  sub_small : ∀ x y, G x → G y → |x - y| ≤ 2 * tiny → rnd (x - y) = x - y
  double : ∀ x, tiny < |x| → rnd (2 * x) = 2 * rnd x
  double_float : ∀ x, rnd x = x → rnd (2 * x) = 2 * x
  float : ∀ x, G (rnd x)

/-- Limits for `n` losses that are floats (or infinite) and either equal or not extremely close to each other. -/
def SafeLimits (tiny : ℝ) (G : ℝ → Prop) (n : Nat) (lower upper : Flt ℝ) : Prop :=
  (∀ l, lower = .fin l → G l) ∧ (∀ h, upper = .fin h → G h) ∧
    ∀ l h, lower = .fin l → upper = .fin h → l = h ∨ 8 * n * tiny < h - l

/-- A limit that is infinite or whose first `n` multiples are floats, such as 0, 1 or any other small integer. -/
def GridLimit (rnd : ℝ → ℝ) (n : Nat) : Flt ℝ → Prop
  | .fin v => ∀ k : Nat, k ≤ n → rnd (k * v) = k * v
  | _ => True

end Mlp.Spec
