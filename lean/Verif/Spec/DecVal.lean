import Verif.Model.Decimal
import Mathlib.Data.Rat.Defs
import Mathlib.Algebra.Order.Field.Rat

/-!
# Specification: the numbers that decimals and floats stand for

Independent of the arithmetic in the model: plain rational numbers.
-/

namespace Mlp.Spec

/-- Value of sign, coefficient, exponent: `± c * 10^e`. -/
def sval (neg : Bool) (c : Nat) (e : Int) : ℚ := (if neg then -1 else 1) * (c : ℚ) * (10 : ℚ) ^ e

/-- Value of a finite float `± m * 2^e`. -/
def fval (neg : Bool) (m : Nat) (e : Int) : ℚ := (if neg then -1 else 1) * (m : ℚ) * (2 : ℚ) ^ e

/-- `a ≤ b` on the extended number line; false if one of them is NaN. -/
def DLe : Dec → Dec → Prop
  | .nan, _ => False
  | _, .nan => False
  | .inf true, _ => True
  | _, .inf false => True
  | .inf false, _ => False
  | _, .inf true => False
  | .fin n₁ c₁ e₁, .fin n₂ c₂ e₂ => sval n₁ c₁ e₁ ≤ sval n₂ c₂ e₂

/-- `a < b` on the extended number line; false if one of them is NaN. -/
def DLt : Dec → Dec → Prop
  | .nan, _ => False
  | _, .nan => False
  | _, .inf true => False
  | .inf true, _ => True
  | .inf false, _ => False
  | _, .inf false => True
  | .fin n₁ c₁ e₁, .fin n₂ c₂ e₂ => sval n₁ c₁ e₁ < sval n₂ c₂ e₂

/-- The decimal is finite and has value `v`. -/
def HasVal (d : Dec) (v : ℚ) : Prop := ∃ n c e, d = .fin n c e ∧ sval n c e = v

/-- The decimal is finite, has value `v` and its last place is `10^e`. -/
def HasValAt (d : Dec) (v : ℚ) (e : Int) : Prop := ∃ n c, d = .fin n c e ∧ sval n c e = v

/-- Value of a float, `none` for the non-finite ones. -/
def floatVal : PyFloat → Option ℚ
  | .fin n m e => some (fval n m e)
  | _ => none

end Mlp.Spec
