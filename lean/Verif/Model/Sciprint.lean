import Verif.Model.Decimal
import Verif.Model.Constants
import Mathlib.Data.List.Lex
import Mathlib.Data.Char
import Mathlib.Data.List.Sort
import Mathlib.Data.List.Dedup

/-!
# `mlpaper/sciprint.py`

Function by function; line numbers refer to `/repo/mlpaper/sciprint.py` unless stated.
-/

namespace Mlp.Sciprint

open Mlp Dec

/-! ## General utils -/

/-- `all_same` (lines 39-53). -/
def allSame {α : Type} [DecidableEq α] (L : List α) : Bool :=
  match L with
  | [] => true
  | a :: _ => L.all fun x => decide (x = a)

/-- `floor_mod` (lines 56-72): Python `//` is floor division. -/
def floorMod (x mod : Int) : Int := (x.fdiv mod) * mod

/-- `ceil_mod` (lines 75-91). -/
def ceilMod (x mod : Int) : Int := floorMod x (-mod)

/-- `remove_chars` on Python 3 (`util.py` lines 117-144, `_remove_chars_py3`):
`str.translate` with a table that deletes the listed characters. -/
def removeChars (x : Str) (chars : Str) : Str := x.filter fun c => !(chars.contains c)

/-- `str_print_len` (lines 94-110). -/
def strPrintLen (x : Str) : Nat := (removeChars x [',', '.']).length

/-! ## Decimal utils -/

/-- `decimal_all_finite` (lines 126-140). -/
def decimalAllFinite (l : List Dec) : Bool := l.all Dec.isFinite

/-- The exponent argument of `decimal_1ek`: an integer, or `'F'` for infinity
(the only letter the code passes on purpose: lines 352, 767, 768) or `'n'` for NaN
(through `decimal_eps` of a NaN, line 220). -/
inductive Expo where
  | int (k : Int) | F | n
  deriving DecidableEq, Repr

/-- `decimal_1ek` (lines 188-204) through `decimal_from_tuple` (lines 143-166). -/
def decimal1ek (k : Expo) (signed : Bool := false) : Dec :=
  match k with
  | .int k => .fin signed 1 k
  | .F => .inf signed
  | .n => .nan

/-- `x.as_tuple().exponent`. -/
def exponentOf : Dec → Expo
  | .fin _ _ e => .int e
  | .inf _ => .F
  | .nan => .n

/-- `as_tuple_chk` (lines 169-185): (sign, digits, exponent) of a finite value. -/
def asTupleChk : Dec → Py (Bool × List Nat × Int)
  | .fin neg c e => .ok (neg, digitsBE c, e)
  | _ => .error .valueError

/-- `decimal_from_tuple` (lines 143-166) for an integer exponent: the digits are read as a
base-10 numeral (leading zeros are dropped by `Decimal`). -/
def decimalFromTuple (signed : Bool) (digits : List Nat) (expo : Int) : Dec :=
  .fin signed (digits.foldl (fun a d => 10 * a + d) 0) expo

/-- `decimal_eps` (lines 207-221). -/
def decimalEps (x : Dec) : Dec := decimal1ek (exponentOf x)

/-- `decimal_to_dot` (lines 224-248). -/
def decimalToDot : Dec → Bool
  | .fin _ _ e => decide (e ≤ 0)
  | _ => false

/-- `create_decimal` (lines 251-274): `+Decimal(x)` in a context of `digits` digits. -/
def createDecimal (x : PyFloat) (digits : Nat) (m : Rounding := .halfUp) : Py Dec := do
  pyAssert (decide (1 ≤ digits))
  return Dec.pos digits m (Dec.ofFloat x)

/-- `digit_str` (lines 277-292). -/
def digitStr (x : Dec) : Py Str := do
  let t ← asTupleChk x
  return t.2.1.map digitChar

/-! ## Convert into decimal -/

/-- One `(mean, error, p)` cell of a float table. -/
structure FpCell where
  mean : PyFloat
  err : PyFloat
  pval : PyFloat
  deriving DecidableEq, Repr

/-- One `(mean, error, p)` cell of a `Decimal` table. -/
structure DecCell where
  mean : Dec
  err : Dec
  pval : Dec
  deriving DecidableEq, Repr

/-- Options of `decimalize` (line 300). -/
structure DecimalizeOpts where
  errDigits : Nat := 2
  pvalDigits : Nat := 4
  defaultDigits : Nat := 5
  deriving Repr

/-- Body of the inner loop of `decimalize` (lines 354-372) for one cell, with
`ebClip = decimal_1ek(EB_limit.get(metric, "F"))` (line 352).  The comparisons are guarded by
`is_nan()`, so they never raise. -/
def decimalizeCell (o : DecimalizeOpts) (ebLimit : Option Int) (x : FpCell) : Py DecCell := do
  let ebClip := decimal1ek (match ebLimit with | some k => .int k | none => .F)
  let EB ← createDecimal x.err o.errDigits .ceiling
  pyAssert (EB.isNan || Dec.leNum (.ofNat 0) EB)               -- line 355
  let EB := if EB.isNan || Dec.leNum EB ebClip then EB else .inf false   -- line 357
  let mu ←
    (if EB.isFinite && !EB.isZero then Dec.quantize .halfUp (Dec.ofFloat x.mean) EB
      else createDecimal x.mean o.defaultDigits .halfUp : Py Dec)
  let pval ← Dec.quantize .ceiling (Dec.ofFloat x.pval) (decimal1ek (.int (-(o.pvalDigits : Int))))
  pyAssert (pval.isNan || (Dec.leNum (.ofNat 0) pval && Dec.leNum pval (.ofNat 1)))  -- line 370
  return ⟨mu, EB, pval⟩

/-- A performance table (pandas DataFrame with METHOD rows and METRIC × STAT columns) as row
labels, column labels and a cell function.  Simplified: label lists are assumed to be free of
duplicates where it matters, and the shape checks on `columns.names`/`index.name`
(lines 338-342, 743-747) are taken as true. -/
structure Table (κ α : Type) where
  methods : List κ
  metrics : List κ
  cell : κ → κ → α   -- method, then metric

/-- `columns.levels[0]` (lines 339, 744): distinct metrics in sorted order. -/
def levels {κ : Type} [LinearOrder κ] (l : List κ) : List κ :=
  l.dedup.insertionSort (· ≤ ·)

/-- `decimalize` (lines 300-373): `(method, metric) ↦ cell`, in loop order metric-outer.
The result lists, for every metric in level order, the converted cells in row order. -/
def decimalize {κ : Type} [LinearOrder κ] (o : DecimalizeOpts) (ebLimit : κ → Option Int)
    (t : Table κ FpCell) : Py (List (κ × List (κ × DecCell))) := do
  pyAssert (decide (1 ≤ o.pvalDigits))
  (levels t.metrics).mapM fun metric => do
    let col ← t.methods.mapM fun method => do
      let c ← decimalizeCell o (ebLimit metric) (t.cell method metric)
      return (method, c)
    return (metric, col)

/-! ## Decimal to string -/

/-- A `non_finite_fmt` dictionary. -/
abbrev NonFiniteFmt := Str → Option Str

/-- `print_estimate` (lines 381-456), with the default `below_fmt`/`above_fmt`
(`BELOW_FMT`/`ABOVE_FMT`, constants.py:23-24), which are the only ones the repository uses; with others
in Model/FormatStr.lean. -/
def printEstimate (mu EB : Dec) (shift : Int) (minClip : Dec := .inf true)
    (maxClip : Dec := .inf false) (nff : NonFiniteFmt := fun _ => none) : Py Str := do
  pyAssert (minClip == .inf true || minClip.isFinite)
  pyAssert (maxClip == .inf false || maxClip.isFinite)
  pyAssert (!(Dec.leNum maxClip minClip))            -- min_clip < max_clip (no NaN here)
  if !mu.isNan && !(Dec.leNum mu maxClip) then       -- max_clip < mu
    pyAssert maxClip.isFinite
    return '>' :: genFmt (Dec.scaleb shift maxClip)
  if !mu.isNan && !(Dec.leNum minClip mu) then       -- mu < min_clip
    pyAssert minClip.isFinite
    return '<' :: genFmt (Dec.scaleb shift minClip)
  match mu with
  | .nan => return (nff "nan".toList).getD "nan".toList
  | .inf neg =>
    let s := if neg then "-inf".toList else "inf".toList
    return (nff s).getD s
  | .fin neg c e =>
    let muShifted := Dec.scaleb shift (.fin neg c e)
    if !decimalToDot muShifted then throw .valueError
    let stdStr := genFmt muShifted
    let stdStr ←
      (if EB.isFinite then (do
        pyAssert (EB.isZero || decide (Expo.int e = exponentOf EB))
        pyAssert (Dec.leNum (.ofNat 0) EB)
        let ebStr ← digitStr EB
        pure (stdStr ++ ['('] ++ ebStr ++ [')']))
      else pure stdStr : Py Str)
    pyAssert (!(stdStr.contains 'E'))
    return stdStr

/-- `print_pval` (lines 459-496) with the default `below_fmt` (with others in Model/FormatStr.lean). -/
def printPval (pval : Dec) (nff : NonFiniteFmt := fun _ => none) : Py Str := do
  let eps := decimalEps pval
  if pval.isNan then return (nff "nan".toList).getD "nan".toList
  if Dec.leNum pval eps then
    pyAssert (Dec.leNum (.ofNat 0) pval && Dec.leNum pval eps)
    return '<' :: genFmt eps
  else
    pyAssert (!(Dec.leNum pval eps) && Dec.leNum pval (.ofNat 1))   -- eps < pval and pval <= 1
    return genFmt pval

/-- Python `min` of a non-empty list of integers. -/
def pyMin : List Int → Py Int
  | [] => .error .valueError
  | a :: l => .ok (l.foldl min a)

/-- Python `max` of a non-empty list of naturals. -/
def pyMax : List Nat → Py Nat
  | [] => .error .valueError
  | a :: l => .ok (l.foldl max a)

/-- The exponent of a finite decimal (used after the finiteness assertion). -/
def expOf : Dec → Int
  | .fin _ _ e => e
  | _ => 0

/-- `range(a, b + 1)`. -/
def pyRangeIncl (a b : Int) : List Int := (List.range (b + 1 - a).toNat).map fun (i : Nat) => a + (i : Int)

/-- `get_shift_range` (lines 499-554). -/
def getShiftRange (xs : List Dec) (shiftMod : Int) : Py (Int × Int × Bool) := do
  pyAssert (decide (1 ≤ xs.length))
  pyAssert (decide (1 ≤ shiftMod))
  pyAssert (xs.all Dec.isFinite)
  let max0 ← pyMin (xs.map fun mu => -(expOf mu))
  let maxShift := floorMod max0 shiftMod
  pyAssert (decide (maxShift.fmod shiftMod = 0) && decide (maxShift ≤ max0))
  let min0 ← pyMin (xs.map fun mu => -(Dec.adjusted mu))
  let minShift := ceilMod min0 shiftMod
  pyAssert (decide (minShift.fmod shiftMod = 0) && decide (min0 ≤ minShift))
  let allSmall := decide (maxShift < minShift)
  let minShift := if allSmall then maxShift else minShift
  pyAssert (decide (minShift ≤ maxShift))
  pyAssert ((pyRangeIncl minShift maxShift).any fun k => decide (k.fmod shiftMod = 0))
  return (minShift, maxShift, allSmall)

/-- Body of the search loop of `find_shift` (lines 616-624). -/
def findShiftStep (pairs : List (Dec × Dec)) (shiftMod : Int) (best : Option (Int × Nat))
    (shift : Int) : Py (Option (Int × Nat)) :=
  if shift.fmod shiftMod ≠ 0 then pure best
  else do
    let lens ← pairs.mapM fun p => do return strPrintLen (← printEstimate p.1 p.2 shift)
    let maxLen ← pyMax lens
    match best with
    | none => pure (some (shift, maxLen))
    | some (_, bestLen) => if maxLen < bestLen then pure (some (shift, maxLen)) else pure best

/-- `find_shift` (lines 557-626).  `sortAbs` is the reordering of the candidate list by
`np.argsort(np.abs(L))` (lines 609-610); numpy's default sort is not stable, so theorems
quantify over every `sortAbs` that returns a permutation sorted by absolute value. -/
def findShift (sortAbs : List Int → List Int) (means errs : List Dec) (shiftMod : Int) :
    Py Int := do
  pyAssert (decide (means.length = errs.length))
  pyAssert (means.all Dec.isFinite)
  pyAssert (decide (1 ≤ shiftMod))
  if means.length = 0 then return 0
  let (minShift, maxShift, _) ← getShiftRange means shiftMod
  let L := sortAbs (pyRangeIncl minShift maxShift)
  let best ← L.foldlM (findShiftStep (means.zip errs) shiftMod) none
  match best with
  | none => throw .assertion
  | some (shift, _) => return shift

/-- `str.find` of a single character. -/
def strFind (s : Str) (c : Char) : Option Nat :=
  if s.contains c then some (s.idxOf c) else none

/-- `find_last_dig` (lines 629-668). -/
def findLastDig (s : Str) : Py Nat := do
  match strFind s '.' with
  | some pos => pyAssert (decide (pos ≠ 0)); return pos - 1
  | none =>
    match strFind s '(' with
    | some pos => pyAssert (decide (pos ≠ 0)); return pos - 1
    | none => pyAssert (decide (s.length ≠ 0)); return s.length - 1

/-- `pad_num_str` (lines 671-695). -/
def padNumStr (l : List Str) (pad : Char := ' ') : Py (List Str) := do
  let rights ← l.mapM fun s => do return s.length - (← findLastDig s)
  let maxRight ← pyMax rights
  l.mapM fun s => do
    return s ++ List.replicate (maxRight - (s.length - (← findLastDig s))) pad

/-! ## Tables to strings -/

/-- Options of `format_table` (line 698); dictionaries are partial functions. -/
structure FormatOpts (κ : Type) where
  shiftMod : Option Int := none
  pad : Bool := true
  crapMax : κ → Option Int := fun _ => none
  crapMin : κ → Option Int := fun _ => none
  nff : NonFiniteFmt := fun _ => none

/-- A `crap_limit` lookup `d.get(metric, "F")` (lines 767-768). -/
def expoOfLimit : Option Int → Expo
  | some k => .int k
  | none => .F

/-- One column of `format_table` (lines 759-799): returns the shift and the rows
`(estimate, p)`.  Simplified: pandas' element-wise comparison of an object column with a
`Decimal` (line 770) is taken to propagate the `InvalidOperation` raised for a NaN mean. -/
def formatColumn {κ : Type} (sortAbs : List Int → List Int) (o : FormatOpts κ) (metric : κ)
    (col : List DecCell) : Py (Int × List (Str × Str)) := do
  pyAssert (allSame ((col.filter fun x => x.pval.isFinite).map fun x => expOf x.pval))
  let minClip := decimal1ek (expoOfLimit (o.crapMin metric)) true
  let maxClip := decimal1ek (expoOfLimit (o.crapMax metric)) false
  let idx ← col.mapM fun x => do
    let a ← Dec.le minClip x.mean
    let b ← Dec.le x.mean maxClip
    return (a && b)
  let kept := ((col.zip idx).filter fun p => p.2).map fun p => p.1
  pyAssert (decimalAllFinite (kept.map fun x => x.mean))
  let shift ←
    (match o.shiftMod with
      | none => pure 0     -- line 782 builds a ValueError but does not raise it
      | some m => findShift sortAbs (kept.map fun x => x.mean) (kept.map fun x => x.err) m : Py Int)
  let rows ← col.mapM fun x => do
    let est ← printEstimate x.mean x.err shift minClip maxClip o.nff
    let p ← printPval x.pval o.nff
    return (est, p)
  if o.pad then
    let padded ← padNumStr (rows.map fun r => r.1)
    return (shift, padded.zip (rows.map fun r => r.2))
  else return (shift, rows)

/-- Main loop of `format_table` (lines 756-799) over the columns: metric ↦ (shift, rows). -/
def formatCols {κ : Type} (sortAbs : List Int → List Int) (o : FormatOpts κ)
    (cols : List (κ × List DecCell)) : Py (List (κ × Int × List (Str × Str))) :=
  cols.mapM fun mc => do
    let r ← formatColumn sortAbs o mc.1 mc.2
    return (mc.1, r.1, r.2)

/-- `format_table` (lines 698-800): metric ↦ (shift, rows), metrics in level (sorted) order. -/
def formatTable {κ : Type} [LinearOrder κ] (sortAbs : List Int → List Int) (o : FormatOpts κ)
    (t : Table κ DecCell) : Py (List (κ × Int × List (Str × Str))) := do
  pyAssert (decide (0 < t.methods.length))
  pyAssert (decide (0 < t.metrics.length))
  formatCols sortAbs o ((levels t.metrics).map fun metric =>
    (metric, t.methods.map fun method => t.cell method metric))

/-- `"%d" % k`. -/
def intStr (k : Int) : Str := (if k < 0 then ['-'] else []) ++ digitsStr k.natAbs

/-- `fmt_shift % (metric_str, shift)` (line 833).  The TeX format is not a raw string, so
`\t` is a tab character: `"%s $\times 10^{%d}$"` is `%s $<TAB>imes 10^{%d}$`. -/
def fmtShift (useTex : Bool) (metricStr : Str) (shift : Int) : Str :=
  if useTex then metricStr ++ " $\times 10^{".toList ++ intStr shift ++ "}$".toList
  else metricStr ++ " x 1e".toList ++ intStr shift

/-- `metric.replace("_", " ")` (line 846). -/
def underscoreToSpace (s : Str) : Str := s.map fun c => if c = '_' then ' ' else c

/-- Dictionary lookup in an association list with distinct keys. -/
def lookupInt (d : List (Int × Str)) (k : Int) : Option Str :=
  (d.find? fun kv => decide (kv.1 = k)).map fun kv => kv.2

/-- Loop body of `adjust_headers` (lines 839-867).  `shifts` and `unit` are the dictionary
lookups for this metric. -/
def adjustHeader (shifts : Str → Option Int) (unitDict : Str → Option Str)
    (usePrefix useTex : Bool) (el : Str × FmtStat) : Py Str := do
  let prefixDict := if useTex then siPrefixTex else siPrefix
  let (metric, stat) := el
  match shifts metric with
  | none => throw .assertion
  | some shift =>
    let metricStr := underscoreToSpace metric
    let h :=
      match stat with
      | .pval => "p".toList
      | .est =>
        match unitDict metric with
        | none => if shift ≠ 0 then fmtShift useTex metricStr shift else metricStr
        | some unit =>
          match usePrefix, lookupInt prefixDict (-shift) with
          | true, some prefx => metricStr ++ " (".toList ++ prefx ++ unit ++ ")".toList
          | _, _ =>
            if shift ≠ 0 then fmtShift useTex metricStr shift ++ " (".toList ++ unit ++ ")".toList
            else metricStr ++ " (".toList ++ unit ++ ")".toList
    return if useTex then "{".toList ++ h ++ "}".toList else h

/-- `adjust_headers` (lines 803-868). -/
def adjustHeaders (headers : List (Str × FmtStat)) (shifts : Str → Option Int)
    (unitDict : Str → Option Str) (usePrefix useTex : Bool) : Py (List Str) :=
  headers.mapM (adjustHeader shifts unitDict usePrefix useTex)

/-- Column alignment string of `table_to_latex` (lines 907-909). -/
def latexAlign (nCols : Nat) : Py Str := do
  pyAssert (decide (nCols % 2 = 0))
  return "|l".toList ++ (List.replicate (nCols / 2) "|Sr".toList).flatten ++ "|".toList

/-- The strings handed to the pandas export: one header per column (two columns per metric) and,
per metric, the shift and the rows `(estimate, p)`. -/
structure StrTable (κ : Type) where
  headers : List Str
  cols : List (κ × Int × List (Str × Str))
  deriving DecidableEq, Repr

/-- `table_to_latex` (lines 871-922) and `table_to_string` (lines 925-961) up to the final pandas
export `to_latex`/`to_string`: the new headers over unchanged cells.  The alignment string of line 908 and the
export itself are in `Verif/Model/Export.lean`.  The columns are the product metrics × (estimate, p) built at
line 755. -/
def tableToStr (cols : List (Str × Int × List (Str × Str))) (unitDict : Str → Option Str)
    (usePrefix useTex : Bool) : Py (StrTable Str) := do
  let columns := cols.flatMap fun mc => [(mc.1, FmtStat.est), (mc.1, FmtStat.pval)]
  let shifts : Str → Option Int := fun m => (cols.find? fun mc => decide (mc.1 = m)).map fun mc => mc.2.1
  let headers ← adjustHeaders columns shifts unitDict usePrefix useTex
  return ⟨headers, cols⟩

/-- `just_format_it` (lines 964-1035) up to the final pandas export: `decimalize` with its default
digit options, `format_table` with padding, then headers. -/
def justFormatIt (sortAbs : List Int → List Int) (ebLimit : Str → Option Int) (o : FormatOpts Str)
    (unitDict : Str → Option Str) (usePrefix useTex : Bool) (t : Table Str FpCell) :
    Py (StrTable Str) := do
  let d ← decimalize {} ebLimit t
  pyAssert (decide (0 < t.methods.length))
  pyAssert (decide (0 < t.metrics.length))
  let cols ← formatCols sortAbs { o with pad := true }
    (d.map fun mc => (mc.1, mc.2.map fun x => x.2))
  tableToStr cols unitDict usePrefix useTex

end Mlp.Sciprint
