import Verif.Model.Util

/-! # `cummax_strict` on memory: mlpaper/util.py lines 187-210

`Model/Util.lean` models `cummax_strict` as a function of the values.  Here the arrays live in a heap, so
that the option `copy` can be modelled: which array is written to, which array is returned, and what the
caller's array holds afterwards, also after an exception. -/

namespace Mlp.Util

section
variable {K : Type} [LinearOrder K]

/-- Memory: the one dimensional arrays that exist, a reference being the position in this list.  Simplified:
different references never share entries (no numpy views). -/
abbrev Heap (K : Type) := List (List (Flt K))

/-- The array behind a reference. -/
def arrayAt {K : Type} (m : Heap K) (ref : Nat) : List (Flt K) := (m[ref]?).getD []

/-- `x[ii] = np.maximum(np.nextafter(x[ii - 1], np.inf), x[ii])` (line 208), `x` being the array at `ref`:
two reads and one write. -/
def cummaxWrite (least : K) (next : K → Option K) (ref : Nat) (m : Heap K) (ii : Nat) : Heap K :=
  let x := arrayAt m ref
  match x[ii - 1]?, x[ii]? with
  | some p, some a => m.set ref (x.set ii (Flt.maximum (nextafter least next p) a))
  | _, _ => m                                 -- cannot happen for 1 ≤ ii < len(x)

/-- `cummax_strict(x, copy)` (lines 187-210): the outcome (the reference returned, or the exception) and the
memory afterwards.  `x` is the reference of the argument; the assertion on `ndim` (line 205) holds for every
array of this heap. -/
def cummaxStrictMem (least : K) (next : K → Option K) (m : Heap K) (x : Nat) (copy : Bool) :
    Py Nat × Heap K :=
  let (x, m) := if copy then (m.length, m ++ [arrayAt m x]) else (x, m)         -- line 206
  let m := (List.range' 1 ((arrayAt m x).length - 1)).foldl (cummaxWrite least next x) m   -- lines 207-208
  let r := arrayAt m x
  if (List.zipWith (fun (a b : Flt K) => a.lt b) r r.tail).all id then (.ok x, m)       -- lines 209-210
  else (.error .assertion, m)

end
end Mlp.Util
