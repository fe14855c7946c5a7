import Verif.Model.Sciprint

/-!
# `decimal.Decimal` with its limits on exponents, and `sciprint.py` on top of it

`Model/Decimal.lean` has unbounded exponents.  Here the three operations of the decimal module that look at the
limits of the context (`_fix`, `quantize`, `scaleb` of CPython's `Lib/_pydecimal.py`) are modelled with them, for the
default context: `Emax = 999999`, `Emin = -999999`, `clamp = 0`, traps for InvalidOperation and Overflow, none
for Underflow, Subnormal, Clamped, Inexact and Rounded.  The functions of `/repo/mlpaper/sciprint.py` that use them follow again, with
the same line numbers as in `Model/Sciprint.lean`; the other functions do not do arithmetic on decimals.
-/

namespace Mlp

namespace Dec

/-- `context.Emax`, and minus `context.Emin`. -/
def emax : Int := 999999

/-- `context.Etiny()`: the smallest exponent of a number with `prec` digits. -/
def etiny (prec : Nat) : Int := -emax - prec + 1

/-- `context.Etop()`: the largest exponent of a number with `prec` digits. -/
def etop (prec : Nat) : Int := emax - prec + 1

/-- `Decimal._fix` with the limits of the context. -/
def fixL (prec : Nat) (m : Rounding) : Dec → Py Dec
  | fin neg c e =>
    if c = 0 then .ok (fin neg 0 (min (max e (etiny prec)) emax))
    else
      let expMin := ndig c + e - prec
      if etop prec < expMin then .error .decimalOverflow
      else
        let expMin := if expMin < etiny prec then etiny prec else expMin
        if e < expMin then
          -- too few digits for one to remain: the number becomes `1E(expMin-1)` before rounding
          let q := if ndig c + e - expMin < 0 then roundOff m neg 1 1 else roundOff m neg c (expMin - e).toNat
          let (q, expMin) := if prec < ndig q then (q / 10, expMin + 1) else (q, expMin)
          if etop prec < expMin then .error .decimalOverflow else .ok (fin neg q expMin)
        else .ok (fin neg c e)
  | x => .ok x

/-- `Decimal.__pos__` with the limits of the context. -/
def posL (prec : Nat) (m : Rounding) : Dec → Py Dec
  | fin neg c e => fixL prec m (fin (if c = 0 then false else neg) c e)
  | x => .ok x

/-- `self.quantize(exp, rounding=m)` in the default context with its limits: as `quantize`, but the target exponent must
lie between `Etiny` and `Emax`, the result must not exceed `Emax`, and is passed through `_fix`. -/
def quantizeL (m : Rounding) : Dec → Dec → Py Dec
  | nan, _ => .ok nan
  | _, nan => .ok nan
  | inf n, inf _ => .ok (inf n)
  | inf _, fin _ _ _ => .error .invalidOperation
  | fin _ _ _, inf _ => .error .invalidOperation
  | fin neg c e, fin _ _ e' =>
    if e' < etiny ctxPrec ∨ emax < e' then .error .invalidOperation
    else if c = 0 then fixL ctxPrec m (fin neg 0 e')
    else if emax < e + ndig c - 1 then .error .invalidOperation
    else if (ctxPrec : Int) < (e + ndig c - 1) - e' + 1 then .error .invalidOperation
    else
      match rescale m neg c e e' with
      | fin n' c' e'' =>
        if emax < adjusted (fin n' c' e'') then .error .invalidOperation
        else if ctxPrec < ndig c' then .error .invalidOperation
        else fixL ctxPrec m (fin n' c' e'')
      | x => .ok x

/-- `self.scaleb(k)` in the default context with its limits: `k` must lie between `±2·(Emax + prec)`. -/
def scalebL (k : Int) : Dec → Py Dec
  | nan => .ok nan
  | inf neg => if k < -(2 * (emax + ctxPrec)) ∨ 2 * (emax + ctxPrec) < k then .error .invalidOperation else .ok (inf neg)
  | fin neg c e =>
    if k < -(2 * (emax + ctxPrec)) ∨ 2 * (emax + ctxPrec) < k then .error .invalidOperation
    else fixL ctxPrec .halfEven (fin neg c (e + k))

end Dec

namespace Sciprint
open Mlp Dec

/-- `create_decimal` (lines 251-274). -/
def createDecimalL (x : PyFloat) (digits : Nat) (m : Rounding := .halfUp) : Py Dec := do
  pyAssert (decide (1 ≤ digits))
  Dec.posL digits m (Dec.ofFloat x)

/-- Body of the inner loop of `decimalize` (lines 354-372). -/
def decimalizeCellL (o : DecimalizeOpts) (ebLimit : Option Int) (x : FpCell) : Py DecCell := do
  let ebClip := decimal1ek (match ebLimit with | some k => .int k | none => .F)
  let EB ← createDecimalL x.err o.errDigits .ceiling
  pyAssert (EB.isNan || Dec.leNum (.ofNat 0) EB)
  let EB := if EB.isNan || Dec.leNum EB ebClip then EB else .inf false
  let mu ←
    (if EB.isFinite && !EB.isZero then Dec.quantizeL .halfUp (Dec.ofFloat x.mean) EB
      else createDecimalL x.mean o.defaultDigits .halfUp : Py Dec)
  let pval ← Dec.quantizeL .ceiling (Dec.ofFloat x.pval) (decimal1ek (.int (-(o.pvalDigits : Int))))
  pyAssert (pval.isNan || (Dec.leNum (.ofNat 0) pval && Dec.leNum pval (.ofNat 1)))
  return ⟨mu, EB, pval⟩

/-- `decimalize` (lines 300-373). -/
def decimalizeL {κ : Type} [LinearOrder κ] (o : DecimalizeOpts) (ebLimit : κ → Option Int)
    (t : Table κ FpCell) : Py (List (κ × List (κ × DecCell))) := do
  pyAssert (decide (1 ≤ o.pvalDigits))
  (levels t.metrics).mapM fun metric => do
    let col ← t.methods.mapM fun method => do
      let c ← decimalizeCellL o (ebLimit metric) (t.cell method metric)
      return (method, c)
    return (metric, col)

/-- `print_estimate` (lines 381-456). -/
def printEstimateL (mu EB : Dec) (shift : Int) (minClip : Dec := .inf true)
    (maxClip : Dec := .inf false) (nff : NonFiniteFmt := fun _ => none) : Py Str := do
  pyAssert (minClip == .inf true || minClip.isFinite)
  pyAssert (maxClip == .inf false || maxClip.isFinite)
  pyAssert (!(Dec.leNum maxClip minClip))
  if !mu.isNan && !(Dec.leNum mu maxClip) then
    pyAssert maxClip.isFinite
    return '>' :: genFmt (← Dec.scalebL shift maxClip)
  if !mu.isNan && !(Dec.leNum minClip mu) then
    pyAssert minClip.isFinite
    return '<' :: genFmt (← Dec.scalebL shift minClip)
  match mu with
  | .nan => return (nff "nan".toList).getD "nan".toList
  | .inf neg =>
    let s := if neg then "-inf".toList else "inf".toList
    return (nff s).getD s
  | .fin neg c e =>
    let muShifted ← Dec.scalebL shift (.fin neg c e)
    if !decimalToDot muShifted then throw .valueError
    let stdStr := genFmt muShifted
    let stdStr ←
      (if EB.isFinite then (do
        pyAssert (EB.isZero || decide (Expo.int e = exponentOf EB))
        pyAssert (Dec.leNum (.ofNat 0) EB)
        let ebStr ← digitStr EB
        pure (stdStr ++ ['('] ++ ebStr ++ [')']))
      else pure stdStr : Py Str)
    pyAssert (!(stdStr.contains 'E'))
    return stdStr

/-- Body of the search loop of `find_shift` (lines 616-624). -/
def findShiftStepL (pairs : List (Dec × Dec)) (shiftMod : Int) (best : Option (Int × Nat))
    (shift : Int) : Py (Option (Int × Nat)) :=
  if shift.fmod shiftMod ≠ 0 then pure best
  else do
    let lens ← pairs.mapM fun p => do return strPrintLen (← printEstimateL p.1 p.2 shift)
    let maxLen ← pyMax lens
    match best with
    | none => pure (some (shift, maxLen))
    | some (_, bestLen) => if maxLen < bestLen then pure (some (shift, maxLen)) else pure best

/-- `find_shift` (lines 557-626). -/
def findShiftL (sortAbs : List Int → List Int) (means errs : List Dec) (shiftMod : Int) :
    Py Int := do
  pyAssert (decide (means.length = errs.length))
  pyAssert (means.all Dec.isFinite)
  pyAssert (decide (1 ≤ shiftMod))
  if means.length = 0 then return 0
  let (minShift, maxShift, _) ← getShiftRange means shiftMod
  let L := sortAbs (pyRangeIncl minShift maxShift)
  let best ← L.foldlM (findShiftStepL (means.zip errs) shiftMod) none
  match best with
  | none => throw .assertion
  | some (shift, _) => return shift

/-- One column of `format_table` (lines 759-799). -/
def formatColumnL {κ : Type} (sortAbs : List Int → List Int) (o : FormatOpts κ) (metric : κ)
    (col : List DecCell) : Py (Int × List (Str × Str)) := do
  pyAssert (allSame ((col.filter fun x => x.pval.isFinite).map fun x => expOf x.pval))
  let minClip := decimal1ek (expoOfLimit (o.crapMin metric)) true
  let maxClip := decimal1ek (expoOfLimit (o.crapMax metric)) false
  let idx ← col.mapM fun x => do
    let a ← Dec.le minClip x.mean
    let b ← Dec.le x.mean maxClip
    return (a && b)
  let kept := ((col.zip idx).filter fun p => p.2).map fun p => p.1
  pyAssert (decimalAllFinite (kept.map fun x => x.mean))
  let shift ←
    (match o.shiftMod with
      | none => pure 0
      | some m => findShiftL sortAbs (kept.map fun x => x.mean) (kept.map fun x => x.err) m : Py Int)
  let rows ← col.mapM fun x => do
    let est ← printEstimateL x.mean x.err shift minClip maxClip o.nff
    let p ← printPval x.pval o.nff
    return (est, p)
  if o.pad then
    let padded ← padNumStr (rows.map fun r => r.1)
    return (shift, padded.zip (rows.map fun r => r.2))
  else return (shift, rows)

/-- Main loop of `format_table` (lines 756-799) over the columns. -/
def formatColsL {κ : Type} (sortAbs : List Int → List Int) (o : FormatOpts κ)
    (cols : List (κ × List DecCell)) : Py (List (κ × Int × List (Str × Str))) :=
  cols.mapM fun mc => do
    let r ← formatColumnL sortAbs o mc.1 mc.2
    return (mc.1, r.1, r.2)

/-- `just_format_it` (lines 964-1035) up to the final pandas export. -/
def justFormatItL (sortAbs : List Int → List Int) (ebLimit : Str → Option Int) (o : FormatOpts Str)
    (unitDict : Str → Option Str) (usePrefix useTex : Bool) (t : Table Str FpCell) :
    Py (StrTable Str) := do
  let d ← decimalizeL {} ebLimit t
  pyAssert (decide (0 < t.methods.length))
  pyAssert (decide (0 < t.metrics.length))
  let cols ← formatColsL sortAbs { o with pad := true }
    (d.map fun mc => (mc.1, mc.2.map fun x => x.2))
  tableToStr cols unitDict usePrefix useTex

end Sciprint
end Mlp
