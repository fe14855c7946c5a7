import Mathlib.Algebra.Order.Field.Basic
import Mathlib.Algebra.Order.Group.Int
import Mathlib.Algebra.Group.Int.Even

/-! # Specification of the double precision numbers of IEEE 754 -/

namespace Mlp.Spec

section
variable {K : Type} [Field K] [LinearOrder K]

/-- A finite double: an integer of 53 bits and a sign, times a power of two with exponent from -1074 to 971. -/
def IsBinary64 (x : K) : Prop := ∃ m e : Int, |m| < 2 ^ 53 ∧ -1074 ≤ e ∧ e ≤ 971 ∧ x = m * 2 ^ e

/-- A double whose last bit is 0: the integer is even, where the exponent is the smallest possible or the integer uses all of the
53 bits. -/
def LastBitZero (x : K) : Prop :=
  ∃ m e : Int, Even m ∧ |m| < 2 ^ 53 ∧ (e = -1074 ∨ -1074 ≤ e ∧ 2 ^ 52 ≤ |m|) ∧ x = m * 2 ^ e

end
end Mlp.Spec
