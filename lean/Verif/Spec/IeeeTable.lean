import Verif.Model.Ieee
import Mathlib.Data.Real.Archimedean

/-! # Specification of limits for losses in IEEE double precision -/

namespace Mlp.Spec
open Mlp.Round

/-- The limits of a metric are doubles or infinite.  If both are finite they are equal or at least `2 ^ -985` (about `3e-297`) apart. -/
def IeeeLimits (lower upper : Flt ℝ) : Prop :=
  (∀ l, lower = .fin l → ieeeRound l = l) ∧ (∀ h, upper = .fin h → ieeeRound h = h) ∧
    ∀ l h, lower = .fin l → upper = .fin h → l = h ∨ 1 / 2 ^ 985 ≤ h - l

end Mlp.Spec
