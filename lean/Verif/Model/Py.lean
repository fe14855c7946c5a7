/-!
# Python basics: exceptions as values

Conventions used by every model file.  A Python function that may raise is modelled as a
function into `Py α = Except PyErr α`; the constructor records the *class* of the exception
(messages are dropped).  `assert` statements are assumed to be enabled (no `python -O`).
-/

namespace Mlp

/-- Classes of the Python exceptions that the modelled code can raise. -/
inductive PyErr where
  | assertion          -- AssertionError (a failed `assert`)
  | valueError         -- ValueError
  | typeError          -- TypeError
  | keyError           -- KeyError
  | indexError         -- IndexError
  | notImplemented     -- NotImplementedError
  | invalidOperation   -- decimal.InvalidOperation
  | decimalOverflow    -- decimal.Overflow (only in Model/DecimalLimits.lean)
  deriving DecidableEq, Repr, BEq

/-- Result of a Python call: a value or a raised exception. -/
abbrev Py (α : Type) := Except PyErr α

deriving instance DecidableEq for Except

/-- The statement `assert b`. -/
def pyAssert (b : Bool) : Py Unit := if b then .ok () else .error .assertion

/-- Python strings as lists of code points. -/
abbrev Str := List Char

end Mlp
