import Verif.Model.Py
import Mathlib.Data.Nat.Digits.Defs

/-!
# Python's `decimal.Decimal`

The part of the `decimal` module that `mlpaper/sciprint.py` uses, written from the
General Decimal Arithmetic rules as implemented by CPython (`Lib/_pydecimal.py`).

Simplifications, for every definition in this file: `Emax`/`Emin` (±999999) are not modelled
(exponents are unbounded integers; Model/DecimalLimits.lean has them, and C144 proves that they are not reached), NaN has no sign, payload or signalling flag, flags and
warnings are dropped, and only the rounding modes used by the repository are present.
-/

namespace Mlp

/-- A `Decimal`: `fin neg c e` is `(-1)^neg * c * 10^e` (zeros keep sign and exponent). -/
inductive Dec where
  | fin (neg : Bool) (coeff : Nat) (exp : Int)
  | inf (neg : Bool)
  | nan
  deriving DecidableEq, Repr

/-- The rounding modes that occur in `sciprint.py` (lines 354, 361, 364, 369) and the
default context mode `ROUND_HALF_EVEN` (used by `scaleb` at lines 433, 436, 444). -/
inductive Rounding where
  | ceiling | halfUp | halfEven
  deriving DecidableEq, Repr

/-- Decimal digits, most significant first; `0` has the single digit `0`
(`Decimal.as_tuple().digits`). -/
def digitsBE (c : Nat) : List Nat := if c = 0 then [0] else (Nat.digits 10 c).reverse

/-- Number of digits of a coefficient (`len(self._int)`). -/
def ndig (c : Nat) : Nat := (digitsBE c).length

/-- Drop the last `d` digits of the coefficient `c` of a number of sign `neg`, rounding
(`_round_ceiling`, `_round_half_up`, `_round_half_even` of the decimal module). -/
def roundOff (m : Rounding) (neg : Bool) (c d : Nat) : Nat :=
  let q := c / 10 ^ d
  let r := c % 10 ^ d
  match m with
  | .ceiling => if neg then q else if r = 0 then q else q + 1
  | .halfUp => if 10 ^ d ≤ 2 * r then q + 1 else q
  | .halfEven =>
    if 10 ^ d < 2 * r then q + 1
    else if 2 * r = 10 ^ d then (if q % 2 = 0 then q else q + 1)
    else q

namespace Dec

/-- `Decimal.is_nan()`. -/
def isNan : Dec → Bool
  | nan => true
  | _ => false

/-- `Decimal.is_finite()`. -/
def isFinite : Dec → Bool
  | fin _ _ _ => true
  | _ => false

/-- `Decimal.is_zero()`. -/
def isZero : Dec → Bool
  | fin _ c _ => c == 0
  | _ => false

/-- `Decimal._fix`: round to `prec` significant digits; if rounding carries into a new digit,
drop the (zero) last digit. -/
def fix (prec : Nat) (m : Rounding) : Dec → Dec
  | fin neg c e =>
    if ndig c ≤ prec then fin neg c e
    else
      let d := ndig c - prec
      let q := roundOff m neg c d
      if prec < ndig q then fin neg (q / 10) (e + d + 1) else fin neg q (e + d)
  | x => x

/-- `Decimal.__pos__` in a context with precision `prec` and rounding `m` (none of the modelled
modes is ROUND_FLOOR, so a negative zero becomes positive). -/
def pos (prec : Nat) (m : Rounding) : Dec → Dec
  | fin neg c e => fix prec m (fin (if c = 0 then false else neg) c e)
  | x => x

/-- `Decimal._rescale` of a finite value to exponent `e'`. -/
def rescale (m : Rounding) (neg : Bool) (c : Nat) (e e' : Int) : Dec :=
  if c = 0 then fin neg 0 e'
  else if e' ≤ e then fin neg (c * 10 ^ (e - e').toNat) e'
  else fin neg (roundOff m neg c (e' - e).toNat) e'

/-- Digits of the default context (`decimal.getcontext().prec`). -/
def ctxPrec : Nat := 28

/-- `self.quantize(exp, rounding=m)` in the default context: NaN in, NaN out; infinities only
together; otherwise `_rescale`, with InvalidOperation when more than 28 digits are needed. -/
def quantize (m : Rounding) : Dec → Dec → Py Dec
  | nan, _ => .ok nan
  | _, nan => .ok nan
  | inf n, inf _ => .ok (inf n)
  | inf _, fin _ _ _ => .error .invalidOperation
  | fin _ _ _, inf _ => .error .invalidOperation
  | fin neg c e, fin _ _ e' =>
    if c = 0 then .ok (fin neg 0 e')
    else if (ctxPrec : Int) < (e + ndig c - 1) - e' + 1 then .error .invalidOperation
    else
      match rescale m neg c e e' with
      | fin n' c' e'' => if ctxPrec < ndig c' then .error .invalidOperation else .ok (fin n' c' e'')
      | x => .ok x

/-- `self.scaleb(k)` in the default context (28 digits, ROUND_HALF_EVEN). -/
def scaleb (k : Int) : Dec → Dec
  | fin neg c e => fix ctxPrec .halfEven (fin neg c (e + k))
  | x => x

/-- `Decimal.adjusted()`: exponent of the most significant digit (0 for specials). -/
def adjusted : Dec → Int
  | fin _ c e => e + ndig c - 1
  | _ => 0

/-- Signed integer value after scaling by `10^(-m)`, for an exponent `m` not above the own
exponent: the common-exponent form used for comparison. -/
def aligned (neg : Bool) (c : Nat) (e m : Int) : Int :=
  let v : Int := (c * 10 ^ (e - m).toNat : Nat)
  if neg then -v else v

/-- `Decimal._cmp` of two non-NaN values as `self <= other`. -/
def leNum : Dec → Dec → Bool
  | nan, _ => false
  | _, nan => false
  | inf true, _ => true
  | inf false, inf false => true
  | inf false, _ => false
  | fin _ _ _, inf n => !n
  | fin n₁ c₁ e₁, fin n₂ c₂ e₂ =>
    let m := min e₁ e₂
    decide (aligned n₁ c₁ e₁ m ≤ aligned n₂ c₂ e₂ m)

/-- `a <= b`; an ordering comparison with a NaN raises InvalidOperation. -/
def le (a b : Dec) : Py Bool :=
  if a.isNan || b.isNan then .error .invalidOperation else .ok (leNum a b)

/-- `a < b`; an ordering comparison with a NaN raises InvalidOperation. -/
def lt (a b : Dec) : Py Bool :=
  if a.isNan || b.isNan then .error .invalidOperation else .ok (!leNum b a)

/-- Integer constants such as `0`, `0.0` and `1` used in comparisons. -/
def ofNat (n : Nat) : Dec := fin false n 0

end Dec

/-- The character of a digit. -/
def digitChar (d : Nat) : Char := Char.ofNat (48 + d)

/-- A coefficient as a string of digits (`self._int`). -/
def digitsStr (c : Nat) : Str := (digitsBE c).map digitChar

/-- Thousands separators on a reversed digit string (`_insert_thousands_sep` with grouping 3). -/
def commasRev : Str → Str
  | a :: b :: c :: d :: rest => a :: b :: c :: ',' :: commasRev (d :: rest)
  | l => l

/-- Thousands separators on the integer part of a number. -/
def group3 (s : Str) : Str := (commasRev s.reverse).reverse

/-- `"{0:,f}".format(x)` (`constants.GEN_FMT`, constants.py:22; `Decimal.__format__`). -/
def genFmt : Dec → Str
  | .nan => "NaN".toList
  | .inf neg => (if neg then ['-'] else []) ++ "Infinity".toList
  | .fin neg c e =>
    let e := if c = 0 ∧ 0 < e then 0 else e
    let ds := digitsStr c
    let dot : Int := e + ds.length
    let (ip, fp) :=
      if dot < 0 then (['0'], List.replicate (-dot).toNat '0' ++ ds)
      else if (ds.length : Int) < dot then (ds ++ List.replicate (dot.toNat - ds.length) '0', [])
      else (if ds.take dot.toNat = [] then ['0'] else ds.take dot.toNat, ds.drop dot.toNat)
    (if neg then ['-'] else []) ++ group3 ip ++ (if fp = [] then [] else '.' :: fp)

/-- A Python float as seen by `Decimal(x)`: `fin neg m e` is `(-1)^neg * m * 2^e`.
Unlike IEEE doubles, `m` and `e` are unbounded. -/
inductive PyFloat where
  | fin (neg : Bool) (m : Nat) (e : Int)
  | inf (neg : Bool)
  | nan
  deriving DecidableEq, Repr

/-- Cancel common factors of two: `as_integer_ratio` of `m / 2^k` as `(n, k')` with value
`n / 2^k'` in lowest terms. -/
def reduceDyadic : Nat → Nat → Nat × Nat
  | m, 0 => (m, 0)
  | m, k + 1 => if m % 2 = 0 then reduceDyadic (m / 2) k else (m, k + 1)

/-- `Decimal(x)` for a float `x`: exact conversion (`Decimal.from_float`: coefficient
`n * 5**k`, exponent `-k` for `x = n / 2**k`). -/
def Dec.ofFloat : PyFloat → Dec
  | .nan => .nan
  | .inf n => .inf n
  | .fin neg m e =>
    if 0 ≤ e then .fin neg (m * 2 ^ e.toNat) 0
    else
      let (n, k) := reduceDyadic m (-e).toNat
      .fin neg (n * 5 ^ k) (-(k : Int))

end Mlp
