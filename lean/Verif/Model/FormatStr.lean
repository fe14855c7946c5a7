import Verif.Model.Sciprint

/-! # Format strings: the arguments `below_fmt` and `above_fmt` of `print_estimate` and `print_pval`

`Model/Sciprint.lean` models these functions with the default format strings, the only ones used in the
repository.  Here the format strings are arguments, as in mlpaper/sciprint.py lines 381-496, and
`str.format` with one positional argument is modelled. -/

namespace Mlp.Sciprint

/-- How the fields seen so far were numbered. -/
inductive Numbering where
  | unset
  | manual
  | auto (next : Nat)
  deriving DecidableEq, Repr

/-- The position in the argument list a field name stands for, and the numbering state afterwards: `{}`
counts, `{0}` is explicit, and the two cannot be mixed (ValueError).  Any other name is a keyword, which is
missing (KeyError). -/
def fieldIndex (num : Numbering) (name : Str) : Py (Nat × Numbering) :=
  if name = [] then
    match num with
    | .unset => .ok (0, .auto 1)
    | .auto n => .ok (n, .auto (n + 1))
    | .manual => .error .valueError
  else if name.all Char.isDigit then
    match num with
    | .auto _ => .error .valueError
    | _ => .ok (name.foldl (fun n c => 10 * n + (c.toNat - 48)) 0, .manual)
  else .error .keyError

/-- One replacement field with text `body` between the braces, when the only argument is `d`. -/
def formatField (spec : Str → Dec → Py Str) (d : Dec) (num : Numbering) (body : Str) :
    Py (Str × Numbering) := do
  let (i, num) ← fieldIndex num (body.takeWhile (· ≠ ':'))
  if i ≠ 0 then throw .indexError
  let s ← spec ((body.dropWhile (· ≠ ':')).drop 1) d
  return (s, num)

/-- `str.format` of the rest of a format string; `field` is the text of the open field in reverse, if any.
Simplified: conversions (`!r`), attributes (`0.real`), items, nested fields and field numbers too large for a
machine word are not modelled. -/
def formatGo (spec : Str → Dec → Py Str) (d : Dec) (num : Numbering) : Option Str → Str → Py Str
  | none, [] => .ok []
  | some _, [] => .error .valueError                       -- expected '}' before end of string
  | none, c :: l =>
    if c = '{' then
      match l with
      | '{' :: l => do
        let r ← formatGo spec d num none l
        return '{' :: r
      | l => formatGo spec d num (some []) l
    else if c = '}' then
      match l with
      | '}' :: l => do
        let r ← formatGo spec d num none l
        return '}' :: r
      | _ => .error .valueError                            -- Single '}' encountered in format string
    else do
      let r ← formatGo spec d num none l
      return c :: r
  | some acc, c :: l =>
    if c = '}' then do
      let (s, num) ← formatField spec d num acc.reverse
      let r ← formatGo spec d num none l
      return s ++ r
    else formatGo spec d num (some (c :: acc)) l

/-- `fmt.format(d)` for a decimal `d`.  `spec s d` is `Decimal.__format__(d, s)`. -/
def strFormat (spec : Str → Dec → Py Str) (fmt : Str) (d : Dec) : Py Str :=
  formatGo spec d .unset none fmt

/-- `GEN_FMT` (constants.py:22). -/
def genFmtStr : Str := "{0:,f}".toList

/-- `ABOVE_FMT` (constants.py:23). -/
def aboveFmtStr : Str := '>' :: genFmtStr

/-- `BELOW_FMT` (constants.py:24). -/
def belowFmtStr : Str := '<' :: genFmtStr

/-- `print_estimate` (sciprint.py lines 381-456) with all its arguments. -/
def printEstimateWith (spec : Str → Dec → Py Str) (mu EB : Dec) (shift : Int) (minClip maxClip : Dec)
    (belowFmt aboveFmt : Str) (nff : NonFiniteFmt) : Py Str := do
  pyAssert (minClip == .inf true || minClip.isFinite)                   -- line 424
  pyAssert (maxClip == .inf false || maxClip.isFinite)                  -- line 425
  pyAssert (!(Dec.leNum maxClip minClip))                               -- line 426
  if !mu.isNan && !(Dec.leNum mu maxClip) then                          -- line 431
    pyAssert maxClip.isFinite
    return ← strFormat spec aboveFmt (Dec.scaleb shift maxClip)         -- line 433
  if !mu.isNan && !(Dec.leNum minClip mu) then                          -- line 434
    pyAssert minClip.isFinite
    return ← strFormat spec belowFmt (Dec.scaleb shift minClip)         -- line 436
  match mu with
  | .nan => return (nff "nan".toList).getD "nan".toList                 -- lines 439-442
  | .inf neg =>
    let s := if neg then "-inf".toList else "inf".toList
    return (nff s).getD s
  | .fin neg c e =>
    let muShifted := Dec.scaleb shift (.fin neg c e)                    -- line 444
    if !decimalToDot muShifted then throw .valueError
    let stdStr ← strFormat spec genFmtStr muShifted                     -- line 448
    let stdStr ←
      (if EB.isFinite then (do
        pyAssert (EB.isZero || decide (Expo.int e = exponentOf EB))
        pyAssert (Dec.leNum (.ofNat 0) EB)
        let ebStr ← digitStr EB
        pure (stdStr ++ ['('] ++ ebStr ++ [')']))
      else pure stdStr : Py Str)
    pyAssert (!(stdStr.contains 'E'))                                   -- line 455
    return stdStr

/-- `print_pval` (sciprint.py lines 459-496) with all its arguments. -/
def printPvalWith (spec : Str → Dec → Py Str) (pval : Dec) (belowFmt : Str) (nff : NonFiniteFmt) :
    Py Str := do
  let eps := decimalEps pval                                            -- line 480
  if pval.isNan then return (nff "nan".toList).getD "nan".toList
  if Dec.leNum pval eps then
    pyAssert (Dec.leNum (.ofNat 0) pval && Dec.leNum pval eps)
    return ← strFormat spec belowFmt eps                                -- line 489
  else
    pyAssert (!(Dec.leNum pval eps) && Dec.leNum pval (.ofNat 1))
    return ← strFormat spec genFmtStr pval                              -- line 495

end Mlp.Sciprint
