import Verif.Model.Py
import Mathlib.Algebra.Order.Field.Basic
import Mathlib.Algebra.BigOperators.Group.List.Defs
import Mathlib.Order.WithBot
import Mathlib.Order.Lattice

/-!
# Floating point numbers

A numpy float is a finite number of an ordered field `K`, one of the infinities, or NaN.  The special
values follow IEEE 754 (with a single zero); arithmetic on finite numbers is exact, which is a
simplification of this model unless a rounding function is passed explicitly.

The linear order `≤` of this type is the order numpy *sorts* by: `-inf`, numbers, `+inf`, NaN.  The
comparison operators of Python are the Boolean functions `Flt.le`, `Flt.lt` and `Flt.eq`, which are
False as soon as one side is NaN.
-/

namespace Mlp

/-- A float. -/
inductive Flt (K : Type) where
  | fin (x : K)
  | pinf
  | ninf
  | nan
  deriving DecidableEq, Repr

namespace Flt

section order
variable {K : Type}

/-- Position of a float in numpy's sorting order. -/
def key : Flt K → WithTop (WithTop (WithBot K))
  | .fin x => some (some (some x))
  | .ninf => some (some none)
  | .pinf => some none
  | .nan => none

theorem key_injective : Function.Injective (key (K := K)) := by
  intro a b h
  cases a <;> cases b <;> cases h <;> rfl

variable [LinearOrder K]

/-- The sorting order. -/
instance : LinearOrder (Flt K) := LinearOrder.lift' key key_injective

/-- `np.isnan`. -/
def isNaN : Flt K → Bool
  | .nan => true
  | _ => false

/-- `np.isfinite`. -/
def isFinite : Flt K → Bool
  | .fin _ => true
  | _ => false

/-- Python `a <= b`. -/
def le (a b : Flt K) : Bool := !a.isNaN && !b.isNaN && decide (a ≤ b)

/-- Python `a < b`. -/
def lt (a b : Flt K) : Bool := !a.isNaN && !b.isNaN && decide (a < b)

/-- Python `a == b`. -/
def eq (a b : Flt K) : Bool := !a.isNaN && decide (a = b)

/-- `np.fmax`: ignores a NaN. -/
def fmax (a b : Flt K) : Flt K :=
  if a.isNaN then b else if b.isNaN then a else max a b

/-- `np.maximum`: propagates NaN (NaN is the top of the sorting order). -/
def maximum (a b : Flt K) : Flt K := max a b

/-- `np.minimum`: propagates NaN. -/
def minimum (a b : Flt K) : Flt K :=
  if a.isNaN || b.isNaN then .nan else min a b

/-- `np.clip` with scalar bounds (numpy 1.15: a NaN bound does not clip). -/
def clip (a lo hi : Flt K) : Flt K :=
  if a.lt lo then lo else if hi.lt a then hi else a

end order

section arith
variable {K : Type} [Field K] [LinearOrder K]

/-- Unary minus. -/
def neg : Flt K → Flt K
  | .fin x => .fin (-x)
  | .pinf => .ninf
  | .ninf => .pinf
  | .nan => .nan

/-- Addition. -/
def add : Flt K → Flt K → Flt K
  | .fin x, .fin y => .fin (x + y)
  | .nan, _ => .nan
  | _, .nan => .nan
  | .pinf, .ninf => .nan
  | .ninf, .pinf => .nan
  | .pinf, _ => .pinf
  | _, .pinf => .pinf
  | .ninf, _ => .ninf
  | _, .ninf => .ninf

/-- Subtraction. -/
def sub (a b : Flt K) : Flt K := add a (neg b)

/-- The infinity with the sign of `x`, NaN for zero: `x * inf`. -/
def signInf (x : K) : Flt K := if 0 < x then .pinf else if x < 0 then .ninf else .nan

/-- Multiplication. -/
def mul : Flt K → Flt K → Flt K
  | .fin x, .fin y => .fin (x * y)
  | .nan, _ => .nan
  | _, .nan => .nan
  | .fin x, .pinf => signInf x
  | .fin x, .ninf => signInf (-x)
  | .pinf, .fin y => signInf y
  | .ninf, .fin y => signInf (-y)
  | .pinf, .pinf => .pinf
  | .ninf, .ninf => .pinf
  | .pinf, .ninf => .ninf
  | .ninf, .pinf => .ninf

/-- Division (a zero divisor counts as `+0`). -/
def div : Flt K → Flt K → Flt K
  | .fin x, .fin y => if y = 0 then signInf x else .fin (x / y)
  | .nan, _ => .nan
  | _, .nan => .nan
  | .fin _, _ => .fin 0
  | .pinf, .fin y => if y < 0 then .ninf else .pinf
  | .ninf, .fin y => if y < 0 then .pinf else .ninf
  | _, _ => .nan

/-- `np.sum` of a vector. -/
def sum (l : List (Flt K)) : Flt K := l.foldl add (.fin 0)

/-- `np.mean` of a vector (NaN for the empty vector). -/
def mean (l : List (Flt K)) : Flt K := div (sum l) (.fin (l.length : K))

end arith

end Flt
end Mlp
