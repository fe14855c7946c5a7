import Verif.Spec.DecVal
import Mathlib.Algebra.Order.Group.Unbundled.Abs
import Mathlib.Order.Bounds.Basic

/-! # Specification: rounding to significant digits -/

namespace Mlp.Spec

/-- The numbers that can be written with at most `digits` significant decimal digits. -/
def SigGrid (digits : Nat) (z : ℚ) : Prop := ∃ n c e, c < 10 ^ digits ∧ z = sval n c e

/-- `y` is `x` rounded up to `digits` significant digits: the least representable number
that is not below `x`. -/
def RoundsUp (digits : Nat) (x y : ℚ) : Prop := IsLeast {z | SigGrid digits z ∧ x ≤ z} y

/-- `y` is a nearest number to `x` with `digits` significant digits, ties away from zero. -/
def RoundsHalfUp (digits : Nat) (x y : ℚ) : Prop :=
  SigGrid digits y ∧
    ∀ z, SigGrid digits z → |y - x| ≤ |z - x| ∧ (|z - x| = |y - x| → |z| ≤ |y|)

/-- `y` is `x` rounded half-up (ties away from zero) to a multiple of the unit `u`. -/
def RoundsToUnit (u x y : ℚ) : Prop :=
  (∃ k : ℤ, y = k * u) ∧ ∀ k : ℤ, |y - x| ≤ |k * u - x| ∧ (|k * u - x| = |y - x| → |k * u| ≤ |y|)

/-- `y` is `x` rounded to a multiple of the unit `u`, a tie going to the even multiple. -/
def RoundsEvenToUnit (u x y : ℚ) : Prop :=
  ∃ k : ℤ, y = k * u ∧ |y - x| ≤ u / 2 ∧ (|y - x| = u / 2 → Even k)

/-- `y` is the least multiple of the unit `u` that is not below `x`. -/
def CeilsToUnit (u x y : ℚ) : Prop := IsLeast {z | (∃ k : ℤ, z = k * u) ∧ x ≤ z} y

end Mlp.Spec
