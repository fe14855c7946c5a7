import Verif.Model.MlpaperRound

/-!
# Exchanging the method and the reference: what is asked of the libraries
-/

namespace Mlp.Spec
open Mlp.PaperR

section
variable {K : Type} [Field K] [LinearOrder K] [FloorRing K]

/-- Rounding and `np.sum` treat positive and negative numbers alike, as in round to nearest even with an order of summation that
does not depend on the numbers. -/
structure OddLib (L : Lib K) : Prop where
  rnd : ∀ x, L.rnd (-x) = -L.rnd x
  sum : ∀ l : List K, L.sum (l.map fun x => -x) = -L.sum l

/-- The positions of the lower and upper percentile in a sorted sample of size `n`, computed with the rounding `rnd`, are at the same
distance from the ends of the sample. -/
def MirrorPositions (rnd : K → K) (n : Nat) (c : K) : Prop :=
  ∃ k : Nat, k < n ∧
    ⌊rnd (rnd (rnd (100 * rnd ((1 / 2) * rnd (1 - c))) / 100) * ((n : K) - 1))⌋ = k ∧
    ⌈rnd (rnd (rnd (100 * rnd (1 - rnd ((1 / 2) * rnd (1 - c)))) / 100) * ((n : K) - 1))⌉ = ((n - 1 - k : Nat) : Int)

end
end Mlp.Spec
