import Mathlib.Data.Int.Log
import Mathlib.Algebra.Order.Floor.Defs
import Mathlib.Algebra.Order.Archimedean.Basic
import Mathlib.Algebra.Order.Floor.Ring

/-!
# Rounding of binary floating point arithmetic

The other model files compute with exact numbers.  The files ending in `Round` model the same code with
every arithmetic operation rounded: the result of `a + b` is `rnd (a + b)` for a rounding function `rnd`.
The theorems hold for every function with the properties `FloatRounding`; `binary64` is the one of IEEE 754
double precision, round to nearest even, without overflow and underflow (the range of exponents is
unbounded here; `Verif/Model/Ieee.lean` has the one with limits).
-/

namespace Mlp.Round

section
variable {K : Type} [Field K] [LinearOrder K]

/-- A rounding function that is monotone, keeps 0, 1 and the sign, and keeps what is already rounded.  Numbers near 0
may be rounded to 0. -/
structure MonoRounding (rnd : K → K) : Prop where
  mono : Monotone rnd
  zero : rnd 0 = 0
  one : rnd 1 = 1
  neg : ∀ x, rnd (-x) = -rnd x
  idem : ∀ x, rnd (rnd x) = rnd x

/-- What most theorems need of a rounding function: it is monotone, keeps 0, 1 and the sign, keeps what is
already rounded, and does not underflow. -/
structure FloatRounding (rnd : K → K) : Prop extends MonoRounding rnd where
  pos : ∀ x, 0 < x → 0 < rnd x

instance (rnd : K → K) : Coe (FloatRounding rnd) (MonoRounding rnd) := ⟨FloatRounding.toMonoRounding⟩

/-- The relative error of every rounding is at most `u`. -/
def RelError (u : K) (rnd : K → K) : Prop := ∀ x, |rnd x - x| ≤ u * |x|

variable [FloorRing K]

/-- The nearest integer, the even one in a tie. -/
def roundEven (x : K) : Int :=
  if x - ⌊x⌋ < 1 / 2 then ⌊x⌋
  else if 1 / 2 < x - ⌊x⌋ then ⌊x⌋ + 1
  else if ⌊x⌋ % 2 = 0 then ⌊x⌋ else ⌊x⌋ + 1

/-- The unit in the last place of a positive number with a significand of `p` bits. -/
def ulp (p : Nat) (x : K) : K := (2 : K) ^ (Int.log 2 x - p + 1)

/-- Round a positive number to `p` bits. -/
def rnPos (p : Nat) (x : K) : K := roundEven (x / ulp p x) * ulp p x

/-- Round to `p` bits, to nearest even. -/
def rn (p : Nat) (x : K) : K := if 0 < x then rnPos p x else if x < 0 then -rnPos p (-x) else 0

/-- The rounding of numpy's float64 operations. -/
def binary64 (x : K) : K := rn 53 x

end
end Mlp.Round
