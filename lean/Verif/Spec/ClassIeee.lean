import Verif.Model.MlpaperRound
import Verif.Spec.FloatSum
import Verif.Spec.Double
import Verif.Model.Ieee

/-! # What the theorems on log-probabilities in double precision ask of the library -/

namespace Mlp.Spec
open Mlp.PaperR Mlp.Round

/-- Sums are rounded to doubles after each addition; the exponential of a number up to 0 is between 0 and 1 and may be rounded to 0;
the logarithm of a number from 1 to 2 ^ 53 is between 0 and 1024. -/
structure IeeeExpLog (L : Lib ℝ) : Prop where
  rnd : L.rnd = ieeeRound
  sum : AddsAlongTrees L.rnd L.sum
  exp_zero : L.exp 0 = 1
  exp_nonneg : ∀ x, 0 ≤ L.exp x
  exp_le_one : ∀ x, x ≤ 0 → L.exp x ≤ 1
  log_range : ∀ x, 1 ≤ x → x ≤ 2 ^ 53 → 0 ≤ L.log x ∧ L.log x ≤ 2 ^ 10

/-- The numbers in the row are doubles. -/
def DoubleRow (r : List (Flt ℝ)) : Prop := ∀ x : ℝ, Flt.fin x ∈ r → IsBinary64 x

end Mlp.Spec
