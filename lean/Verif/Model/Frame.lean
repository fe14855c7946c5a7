import Verif.Model.Util
import Verif.Model.Mlpaper

/-!
# Data frames with two column levels

The part of pandas that `classification.py` and `regression.py` use: a frame is its number of rows, the two
levels of the column index, and the columns in order, each with its pair of labels.  The row index is
carried along by the code without being used, so it is left out.
-/

namespace Mlp.Frame
open Mlp.Util

/-- Columns with their labels. -/
abbrev Cols (κ K : Type) := List (κ × List (Flt K))

section
variable {K : Type}

/-- The labels of `pd.MultiIndex.from_product([ms, ns])`, in order. -/
def product {α β : Type} (ms : List α) (ns : List β) : List (α × β) := ms.flatMap fun m => ns.map fun n => (m, n)

/-- `pd.DataFrame(index=..., columns=..., dtype=float)`: every entry is NaN. -/
def emptyCols {κ : Type} (n : Nat) (keys : List κ) : Cols κ K := keys.map fun k => (k, List.replicate n .nan)

/-- `df.loc[:, key] = v`: columns with this label get the values; a wrong number of values is a ValueError.
(The label exists wherever this is used.) -/
def setCol {κ : Type} [DecidableEq κ] (n : Nat) (cols : Cols κ K) (key : κ) (v : List (Flt K)) : Py (Cols κ K) :=
  if v.length = n then .ok (cols.map fun c => if c.1 = key then (c.1, v) else c) else .error .valueError

end

/-- The level of a column index built by `from_product`: the distinct labels in sorted order (the labels
are keys of a dictionary, hence distinct). -/
def sortLevel (l : List Str) : List Str := l.insertionSort (· ≤ ·)

/-- A table of predictions, shape (n_samples, n_methods * n_labels): the column levels `methods` and `labels`, the
number of rows and the columns.  Labels are integers; a table with other labels fails the check of line
258 like a table with wrong integers. -/
structure PredTable (K : Type) where
  methods : List Str
  labels : List Int
  nrows : Nat
  cols : Cols (Str × Int) K

section
variable {K : Type}

/-- `log_pred_prob_table[method]`: the columns of a method, labelled by the second level; a KeyError if there is
none. -/
def PredTable.sub (t : PredTable K) (method : Str) : Py (Cols Int K) :=
  match t.cols.filter fun c => decide (c.1.1 = method) with
  | [] => .error .keyError
  | l => .ok (l.map fun c => (c.1.2, c.2))

/-- `.values` of a frame with the given number of rows. -/
def values (n : Nat) (cols : Cols Int K) : Mat K :=
  ⟨cols.length, (List.range n).map fun i => cols.map fun c => c.2.getD i .nan⟩

/-- `list(range(n))`. -/
def rangeList (n : Nat) : List Int := (List.range n).map fun (i : Nat) => (i : Int)

/-- The matrix of a method, with the checks of the column order and of the shape
(classification.py lines 258-261, 489-491 and 502-504). -/
def PredTable.matrix (t : PredTable K) (method : Str) : Py (Mat K) := do
  let s ← t.sub method
  pyAssert (decide (s.map (·.1) = rangeList t.labels.length))            -- line 258
  let m := values t.nrows s                                              -- line 260
  pyAssert (decide (m.rows.length = t.nrows) && decide (m.ncols = t.labels.length))   -- line 261
  return m

end
end Mlp.Frame
