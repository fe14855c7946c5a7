import Verif.Model.DecimalLimits
import Verif.Spec.Shift

/-! # Specification: numbers far from the limits of decimal arithmetic -/

namespace Mlp.Spec
open Mlp.Sciprint

/-- A float of Python: an integer of 53 bits times a power of two with exponent from -1074 to 971, with sign; or infinite or NaN. -/
def IsDoubleFloat : PyFloat → Prop
  | .fin _ m e => m < 2 ^ 53 ∧ -1074 ≤ e ∧ e ≤ 971
  | _ => True

/-- All digits of a decimal are at places between `10^-B` and `10^(B-1)`. -/
def Within (B : Int) : Dec → Prop
  | .fin _ c e => -B ≤ e ∧ e + ndig c ≤ B
  | _ => True

/-- A table of floats of Python. -/
def DoubleTable {κ : Type} (t : Table κ FpCell) : Prop :=
  ∀ m k, IsDoubleFloat (t.cell m k).mean ∧ IsDoubleFloat (t.cell m k).err ∧ IsDoubleFloat (t.cell m k).pval

/-- A limit given as an exponent is absent or at most 300000 in magnitude. -/
def LimitWithin : Option Int → Prop
  | some k => |k| ≤ 300000
  | none => True

end Mlp.Spec
