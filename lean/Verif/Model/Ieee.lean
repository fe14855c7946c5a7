import Verif.Model.Flt
import Verif.Model.Round

/-!
# IEEE 754 double precision with its range of exponents

`binary64` of `Verif/Model/Round.lean` rounds to 53 bits and has no smallest and no largest exponent.  The doubles of numpy
have both: results below `2 ^ -1022` in magnitude are rounded to multiples of `2 ^ -1074` (gradual underflow), and results that
would be `2 ^ 1024` or more in magnitude after rounding become an infinity.
-/

namespace Mlp.Round

section
variable {K : Type} [Field K] [LinearOrder K] [FloorRing K]

/-- The double that an operation of numpy returns when the exact result is `x`, before the check for overflow. -/
def ieeeRound (x : K) : K :=
  if |x| < (2 ^ 1022)⁻¹ then roundEven (x * 2 ^ 1074) * (2 ^ 1074)⁻¹ else binary64 x

/-- The double that an operation of numpy returns when the exact result is `x`. -/
def ieee64 (x : K) : Flt K :=
  if |ieeeRound x| < 2 ^ 1024 then .fin (ieeeRound x) else if 0 < x then .pinf else .ninf

/-- `x` is one of numpy's finite doubles. -/
def IsDouble (x : K) : Prop := ieee64 x = .fin x

/-- `rnd` gives the result of numpy's operations as long as they do not overflow; nothing is known about `rnd` where they do.
A function that does not depend on the choice of such a `rnd` computes without overflow. -/
def FollowsIeee (rnd : K → K) : Prop := ∀ x y, ieee64 x = .fin y → rnd x = y

end
end Mlp.Round
