import Verif.Model.Sciprint

/-!
# The text export of `mlpaper/sciprint.py`

`table_to_latex` (lines 871-920), `table_to_string` (lines 923-961) and `just_format_it` (lines 964-1035) with the pandas calls
`to_latex(escape=False, column_format=align, index_names=False)` (line 919) and `to_string(index=True, index_names=False)`
(line 960) of pandas 0.24.0 (`io/formats/format.py`, `io/formats/latex.py`, `io/formats/printing.py`), for a table with at least one
row and one column, row labels that are strings, and default display options.  The layout agrees with the sample output in
`/repo/README.rst` (lines 189-230, 398-414) up to blanks next to the empty corner `{}`.
-/

namespace Mlp.Sciprint

/-- `pprint_thing(x, escape_chars=("\t", "\r", "\n"))` of pandas on a string: used for every header, row label and cell. -/
def pprintThing (s : Str) : Str :=
  s.flatMap fun c => if c = '\t' then ['\\', 't'] else if c = '\r' then ['\\', 'r'] else if c = '\n' then ['\\', 'n'] else [c]

/-- `str.rjust`. -/
def rjust (w : Nat) (s : Str) : Str := List.replicate (w - s.length) ' ' ++ s

/-- `str.ljust`. -/
def ljust (w : Nat) (s : Str) : Str := s ++ List.replicate (w - s.length) ' '

/-- `max(len(x) for x in l)`. -/
def maxLen (l : List Str) : Nat := (l.map List.length).foldr max 0

/-- The option `display.max_colwidth`. -/
def maxColWidth : Nat := 50

/-- `_make_fixed_width` of pandas: cut to the maximal column width, then justify. -/
def makeFixedWidth (just : Nat → Str → Str) (minimum : Nat) (l : List Str) : List Str :=
  let w := min (max minimum (maxLen l)) maxColWidth
  l.map fun x => just w (if w < x.length then x.take (w - 3) ++ "...".toList else x)

/-- One column of `_to_str_columns` of pandas: the header above the cells.  Cells are strings (dtype object): they get a leading
blank and are justified by `format_array`, then once more with the width of the header as minimum. -/
def strColumn (header : Str) (cells : List Str) : List Str :=
  let h := pprintThing header
  let vals := makeFixedWidth rjust 0 (cells.map fun v => ' ' :: pprintThing v)
  let vals := makeFixedWidth rjust h.length vals
  rjust (max (maxLen vals) h.length) h :: vals

/-- The index column of `_to_str_columns`, with the empty corner. -/
def indexColumn (labels : List Str) : List Str :=
  [] :: makeFixedWidth ljust 0 (labels.map pprintThing)

/-- `zip(*cols)`: the rows of a list of columns. -/
def rowsOf (nRows : Nat) (cols : List (List Str)) : List (List Str) :=
  (List.range nRows).map fun i => cols.map fun c => c.getD i []

/-- `adjoin(1, *cols)` of pandas, before the lines are joined: every column but the last gets one more blank. -/
def adjoinWidths : List (List Str) → List Nat
  | [] => []
  | [c] => [maxLen c]
  | c :: cols => (maxLen c + 1) :: adjoinWidths cols

/-- A line of `adjoin`. -/
def adjoinLine (widths : List Nat) (row : List Str) : Str := (List.zipWith ljust widths row).flatten

/-- `"\n".join(lines)`. -/
def joinLines (lines : List Str) : Str := ['\n'].intercalate lines

/-- The columns of the exported frame: index column, then one column for each header. -/
def frameColumns (labels : List Str) (cols : List (Str × List Str)) : List (List Str) :=
  indexColumn labels :: cols.map fun hc => strColumn hc.1 hc.2

/-- `DataFrame.to_string(index=True, index_names=False)`. -/
def toStringText (labels : List Str) (cols : List (Str × List Str)) : Str :=
  let c := frameColumns labels cols
  joinLines ((rowsOf (labels.length + 1) c).map (adjoinLine (adjoinWidths c)))

/-- A line of a tabular: fields joined with `" & "`, an empty field written as `{}`, and `" \\"` at the end. -/
def latexLine (row : List Str) : Str :=
  " & ".toList.intercalate (row.map fun x => if x = [] then "{}".toList else x) ++ " \\\\".toList

/-- `DataFrame.to_latex(escape=False, column_format=align, index_names=False)`.  The header is not changed by
`_format_multicolumn`, because no header is blank. -/
def toLatexText (align : Str) (labels : List Str) (cols : List (Str × List Str)) : Str :=
  let rows := (rowsOf (labels.length + 1) (frameColumns labels cols)).map latexLine
  joinLines (["\\begin{tabular}{".toList ++ align ++ "}".toList, "\\toprule".toList] ++ rows.take 1 ++
    ["\\midrule".toList] ++ rows.drop 1 ++ ["\\bottomrule".toList, "\\end{tabular}".toList, []])

/-- The columns of cells of a formatted table: for each metric the estimates, then the p-values. -/
def StrTable.cells {κ : Type} (st : StrTable κ) : List (List Str) :=
  st.cols.flatMap fun mc => [mc.2.2.map Prod.fst, mc.2.2.map Prod.snd]

/-- `table_to_latex` (lines 905-920): the frame with the new headers over the unchanged cells, exported. -/
def tableToLatex (labels : List Str) (cols : List (Str × Int × List (Str × Str))) (unitDict : Str → Option Str)
    (usePrefix : Bool) : Py Str := do
  let columns := cols.flatMap fun mc => [(mc.1, FmtStat.est), (mc.1, FmtStat.pval)]
  let align ← latexAlign columns.length                                  -- lines 906-908
  let st ← tableToStr cols unitDict usePrefix true
  return toLatexText align labels (st.headers.zip st.cells)              -- line 919

/-- `table_to_string` (lines 952-961). -/
def tableToString (labels : List Str) (cols : List (Str × Int × List (Str × Str))) (unitDict : Str → Option Str)
    (usePrefix : Bool) : Py Str := do
  let st ← tableToStr cols unitDict usePrefix false
  return toStringText labels (st.headers.zip st.cells)                   -- line 960

/-- `just_format_it` (lines 964-1035) with the export. -/
def justFormatItText (sortAbs : List Int → List Int) (ebLimit : Str → Option Int) (o : FormatOpts Str)
    (unitDict : Str → Option Str) (usePrefix useTex : Bool) (t : Table Str FpCell) : Py Str := do
  let d ← decimalize {} ebLimit t
  pyAssert (decide (0 < t.methods.length))
  pyAssert (decide (0 < t.metrics.length))
  let cols ← formatCols sortAbs { o with pad := true } (d.map fun mc => (mc.1, mc.2.map fun x => x.2))
  if useTex then tableToLatex t.methods cols unitDict usePrefix
  else tableToString t.methods cols unitDict usePrefix

end Mlp.Sciprint
