import Verif.Model.Sciprint
import Verif.Spec.Reader

/-! # Specification: decimal point shifts, widths, alignment -/

namespace Mlp.Spec
open Mlp.Sciprint

/-- Number of characters other than `,` and `.`. -/
def inkWidth (s : Str) : Nat := s.countP fun c => decide (c ≠ ',' ∧ c ≠ '.')

/-- After moving the point `s` places, the last kept digit is at or right of the units place. -/
def ToDot (s : Int) : Dec → Prop
  | .fin _ _ e => e + s ≤ 0
  | _ => False

/-- After moving the point `s` places the value is at least one in magnitude.  A zero counts by
its exponent: it is "large" when its only digit is at or left of the units place. -/
def Lead (s : Int) : Dec → Prop
  | .fin n c e => if c = 0 then 0 ≤ e + s else 1 ≤ |shifted (sval n c e) s|
  | _ => False

/-- A mean/error pair that `print_estimate` can print: finite mean of at most 28 digits, error
non-finite, zero, or positive with the same last place. -/
def PairOk : Dec × Dec → Prop
  | (.fin _ c e, .fin nb cb eb) => c < 10 ^ 28 ∧ (cb = 0 ∨ (nb = false ∧ eb = e))
  | (.fin _ c _, _) => c < 10 ^ 28
  | _ => False

/-- `w` is the width of the longest printed estimate at shift `s`. -/
def IsWidth (pairs : List (Dec × Dec)) (s : Int) (w : Nat) : Prop :=
  (∀ p ∈ pairs, ∃ t, printEstimate p.1 p.2 s = .ok t ∧ inkWidth t ≤ w) ∧
  ∃ p ∈ pairs, ∃ t, printEstimate p.1 p.2 s = .ok t ∧ inkWidth t = w

/-- A reordering by absolute value, with any order among equal absolute values. -/
def SortsByAbs (f : List Int → List Int) : Prop :=
  ∀ l, (f l).Perm l ∧ (f l).Pairwise fun a b => |a| ≤ |b|

/-- Number of characters up to and including the units digit: everything before the first `.`,
or else before the first `(`, or else the whole string. -/
def unitsLen (s : Str) : Nat :=
  if '.' ∈ s then (splitAt '.' s).1.length else (splitAt '(' s).1.length

end Mlp.Spec
