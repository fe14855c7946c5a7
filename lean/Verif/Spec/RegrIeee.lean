import Verif.Spec.Double
import Verif.Model.Regression

/-! # Specification of the losses of regressors in double precision -/

namespace Mlp.Spec
open Mlp.Regr

/-- `v` is the double for the number `x`: the nearest one, the one with last bit 0 in a tie, and an infinity from half a unit in the last place
beyond the largest double. -/
def RoundsTo (x : ℝ) (v : Flt ℝ) : Prop :=
  (v = .pinf ∧ 2 ^ 1024 - 2 ^ 970 ≤ x) ∨ (v = .ninf ∧ x ≤ -(2 ^ 1024 - 2 ^ 970)) ∨
    ∃ w, v = .fin w ∧ |x| < 2 ^ 1024 - 2 ^ 970 ∧ IsBinary64 w ∧
      ∀ z, IsBinary64 z → |x - w| ≤ |x - z| ∧ (z ≠ w → |x - z| = |x - w| → LastBitZero w)

/-- The result has one float for each sample, related to its target, its mean and its standard deviation. -/
def PerPointI (R : ℝ → ℝ → ℝ → Flt ℝ → Prop) (y mu std : Arr) (l : List (Flt ℝ)) : Prop :=
  l.length = y.data.length ∧ ∀ (i : Nat) (a m s : ℝ), y.data[i]? = some (.fin a) → mu.data[i]? = some (.fin m) →
    std.data[i]? = some (.fin s) → ∃ v, l[i]? = some v ∧ R a m s v

/-- All numbers in the array are doubles. -/
def Doubles (a : Arr) : Prop := ∀ x : ℝ, Flt.fin x ∈ a.data → IsBinary64 x

/-- The parts of a sample are doubles of moderate size, and so is the difference of the mean from the target if it is not 0. -/
structure Moderate (a m s : ℝ) : Prop where
  target : IsBinary64 a ∧ |a| ≤ 2 ^ 250
  mean : IsBinary64 m ∧ |m| ≤ 2 ^ 250
  std : (2 ^ 250)⁻¹ ≤ s ∧ s ≤ 2 ^ 250
  difference : a = m ∨ (2 ^ 250)⁻¹ ≤ |a - m|

end Mlp.Spec
