import Verif.Model.Py
import Mathlib.Algebra.Order.Floor.Defs
import Mathlib.Algebra.Order.Field.Basic
import Mathlib.Data.List.Sort
import Mathlib.Data.List.Dedup
import Mathlib.Order.WithBot

/-!
# `mlpaper/data_splitter.py`

Line numbers refer to `/repo/mlpaper/data_splitter.py`.

A pandas Series is the list of its values in row order, `none` for a null (NaN/None/NaT).  Values
that are not null come from a linear order; for numeric columns this is `Ext K`, the numbers with
both infinities.  `frac` is a finite number of an ordered field `K`.  `rnd : K → K` is the rounding
of one floating point operation on finite numbers (`id` for exact arithmetic).  A call of
`np.random.choice(x, N, replace=False)` is `x[permutation(len(x))[:N]]` with the permutation given
by a parameter.
-/

namespace Mlp.Splitter

/-- Non-null floats: `-inf`, finite numbers, `+inf`. -/
abbrev Ext (K : Type) := WithBot (WithTop K)

section
variable {K : Type} [Field K] [LinearOrder K] [IsStrictOrderedRing K] [FloorRing K]

/-- `rand_subset` (lines 93-116).  `perm n` is the outcome of `np.random.permutation(n)`.
`np.random.choice` of numpy 1.15 raises ValueError when there is nothing to choose from. -/
def randSubset {β : Type} (rnd : K → K) (perm : Nat → List Nat) (x : List β) (frac : K) :
    Py (List β) := do
  pyAssert (decide (0 ≤ frac) && decide (frac ≤ 1))                     -- line 109
  let N : Int := ⌈rnd (frac * (x.length : K))⌉                          -- line 111
  pyAssert (decide (0 ≤ N) && decide (N ≤ (x.length : Int)))            -- line 112
  if x.isEmpty then throw PyErr.valueError
  let L := ((perm x.length).take N.toNat).filterMap fun i => x[i]?      -- line 113
  pyAssert (decide (rnd ((x.length : K) * frac) ≤ (L.length : K)))      -- line 114
  pyAssert (decide ((L.length : K) - 1 < rnd ((x.length : K) * frac)))  -- line 115
  return L

/-- `rand_mask` (lines 119-141). -/
def randMask (rnd : K → K) (perm : Nat → List Nat) (n : Nat) (frac : K) : Py (List Bool) := do
  let pos ← randSubset rnd perm (List.range n) frac
  let mask := (List.range n).map fun i => decide (i ∈ pos)
  pyAssert (decide (rnd ((n : K) * frac) ≤ (mask.count true : K)))       -- line 139
  pyAssert (decide ((mask.count true : K) - 1 < rnd ((n : K) * frac)))   -- line 140
  return mask

/-- `Series.unique()`: distinct values in order of first appearance. -/
def uniqueFirst {α : Type} [DecidableEq α] : List α → List α
  | [] => []
  | a :: l => a :: (uniqueFirst l).filter fun b => decide (b ≠ a)

/-- `random_split_series` (lines 144-178).  `assume_sorted` is unused in the code. -/
def randomSplit {α : Type} [DecidableEq α] (rnd : K → K) (perm : Nat → List Nat)
    (S : List (Option α)) (frac : K) (assumeUnique : Bool) : Py (List Bool) := do
  pyAssert (!(S.any fun v => v.isNone))                                  -- line 168
  let vals := S.filterMap id
  if assumeUnique then randMask rnd perm vals.length frac                -- line 172
  else
    let trainCases ← randSubset rnd perm (uniqueFirst vals) frac         -- line 176
    return vals.map fun v => decide (v ∈ trainCases)                     -- line 177

/-- `np.mean(all_cases <= v)`. -/
def fracLe {α : Type} [LinearOrder α] (rnd : K → K) (cases : List α) (v : α) : K :=
  rnd ((cases.countP fun c => decide (c ≤ v) : Nat) / (cases.length : K))

/-- `ordered_split_series` (lines 181-223).  `int()` of the non-negative product is its floor. -/
def orderedSplit {α : Type} [LinearOrder α] (rnd : K → K) (S : List (Option α)) (frac : K)
    (assumeSorted assumeUnique : Bool) : Py (List Bool) := do
  pyAssert (!(S.any fun v => v.isNone))                                  -- line 205
  pyAssert (decide (0 ≤ frac) && decide (frac ≤ 1))                      -- line 206
  let vals := S.filterMap id
  let allCases :=
    if assumeSorted && assumeUnique then vals
    else if assumeUnique then vals.insertionSort (· ≤ ·)                 -- np.sort
    else vals.dedup.insertionSort (· ≤ ·)                                -- np.unique
  let idx : Int := min ⌊rnd (frac * (allCases.length : K))⌋ ((allCases.length : Int) - 1)  -- line 216
  pyAssert (decide (0 ≤ idx))
  match allCases[idx.toNat]? with
  | none => throw .indexError
  | some pivot =>
    pyAssert (decide (frac ≤ fracLe rnd allCases pivot))                 -- line 220
    pyAssert (decide (idx = 0) ||
      (match allCases[idx.toNat - 1]? with
        | none => false
        | some prev => decide (fracLe rnd allCases prev < frac)))        -- line 221
    return vals.map fun v => decide (v ≤ pivot)

/-- The finite value of an extended number, if it is finite (`np.isfinite`). -/
def Ext.finite? {K : Type} (x : Ext K) : Option K :=
  match x with
  | some (some v) => some v
  | _ => none

/-- `linear_split_series` (lines 226-267). -/
def linearSplit (rnd : K → K) (S : List (Option (Ext K))) (frac : K) (assumeSorted : Bool) :
    Py (List Bool) := do
  pyAssert (!(S.any fun v => v.isNone))                                  -- line 252
  pyAssert (decide (0 ≤ frac) && decide (frac ≤ 1))                      -- line 253
  let vals := S.filterMap id
  let ends ←
    (if assumeSorted then
      match vals.head?, vals.getLast? with
      | some a, some b => pure (a, b)
      | _, _ => throw .indexError                                        -- S.values[0]
    else
      match vals with
      | [] => throw .valueError                                          -- np.min of an empty array
      | v :: l => pure (l.foldl min v, l.foldl max v) : Py (Ext K × Ext K))
  match ends.1.finite?, ends.2.finite? with
  | some a, some b =>
    let p0 := rnd (rnd (rnd (1 - frac) * a) + rnd (frac * b))            -- line 261
    let p := max a (min p0 b)                                            -- line 263
    pyAssert (decide (a ≤ p) && decide (p ≤ b))                          -- line 264
    return vals.map fun v => decide (v ≤ ((p : WithTop K) : Ext K))
  | _, _ => throw .assertion                                             -- line 259

/-- A DataFrame with numeric columns: index labels and named columns, all of the same length.
The column name `none` is the reserved constant `INDEX` (line 15). -/
structure Frame (α : Type) where
  index : List (Option α)
  cols : List (Option Str × List (Option α))

/-- Boolean selection `l[mask]`. -/
def maskSel {β : Type} (l : List β) (mask : List Bool) : List β :=
  ((l.zip mask).filter fun p => p.2).map fun p => p.1

/-- `df[mask]`. -/
def Frame.select {α : Type} (df : Frame α) (mask : List Bool) : Frame α :=
  ⟨maskSel df.index mask, df.cols.map fun c => (c.1, maskSel c.2 mask)⟩

/-- The keys of `SPLITTER_LIB` (lines 9-12, 270). -/
inductive SplitKind where
  | random | ordered | linear
  deriving DecidableEq, Repr

/-- `SPLITTER_LIB[split_type]` (line 322). -/
def splitterLib (s : Str) : Py SplitKind :=
  if s = "random".toList then .ok .random
  else if s = "ordered".toList then .ok .ordered
  else if s = "linear".toList then .ok .linear
  else .error .keyError

/-- `index_to_series(df.index) if feature is INDEX else df[feature]` (lines 68-90, 324). -/
def Frame.column {α : Type} (df : Frame α) (feature : Option Str) : Py (List (Option α)) :=
  match feature with
  | none => .ok df.index
  | some f =>
    match df.cols.find? fun c => decide (c.1 = some f) with
    | some c => .ok c.2
    | none => .error .keyError

/-- One entry of `splits`: column, split type, fraction. -/
abbrev SplitSpec (K : Type) := Option Str × Str × K

/-- The mask computed for one entry of `splits` (lines 320-327).  `perm feature n` is the
permutation drawn while that column is split. -/
def splitMask (rnd : K → K) (perm : Option Str → Nat → List Nat) (df : Frame (Ext K))
    (assumeUnique assumeSorted : List (Option Str)) (sp : SplitSpec K) : Py (List Bool) := do
  let kind ← splitterLib sp.2.1
  let S ← df.column sp.1
  let uniq := decide (sp.1 ∈ assumeUnique)
  let sorted := decide (sp.1 ∈ assumeSorted)
  match kind with
  | .random => randomSplit rnd (perm sp.1) S sp.2.2 uniq
  | .ordered => orderedSplit rnd S sp.2.2 sorted uniq
  | .linear => linearSplit rnd S sp.2.2 sorted

/-- Body of the loop of `split_df` (lines 319-331). -/
def splitStep (rnd : K → K) (perm : Option Str → Nat → List Nat) (df : Frame (Ext K))
    (assumeUnique assumeSorted : List (Option Str)) (acc : List Bool × List Bool)
    (sp : SplitSpec K) : Py (List Bool × List Bool) := do
  let cur ← splitMask rnd perm df assumeUnique assumeSorted sp
  return (List.zipWith (fun a b => a && b) acc.1 cur, List.zipWith (fun a b => a && !b) acc.2 cur)

/-- `split_df` (lines 273-337).  The masks have the index of `df`, so pandas' alignment is the
identity and masks are combined position by position. -/
def splitDf (rnd : K → K) (perm : Option Str → Nat → List Nat) (df : Frame (Ext K))
    (splits : List (SplitSpec K)) (assumeUnique assumeSorted : List (Option Str) := []) :
    Py (Frame (Ext K) × Frame (Ext K) × Frame (Ext K)) := do
  pyAssert (decide (0 < splits.length))                                  -- line 313
  pyAssert (decide (0 < df.index.length))                                -- line 314
  pyAssert (!(df.cols.any fun c => c.1.isNone))                          -- line 315
  let init := (df.index.map fun _ => true, df.index.map fun _ => true)   -- lines 317-318
  let masks ← splits.foldlM (splitStep rnd perm df assumeUnique assumeSorted) init
  let train := masks.1
  let test := masks.2
  pyAssert (!((List.zipWith (fun a b => a && b) train test).any id))     -- line 332
  let dfTrain := df.select train
  let dfTest := df.select test
  let dfUnused := df.select (List.zipWith (fun a b => !(a || b)) train test)
  pyAssert (decide (dfTrain.index.length + dfTest.index.length + dfUnused.index.length =
    df.index.length))                                                    -- line 336
  return (dfTrain, dfTest, dfUnused)

/-- `DEFAULT_SPLIT` (line 16) for a float `frac` standing for `0.8`. -/
def defaultSplit (frac : K) : List (SplitSpec K) := [(none, "random".toList, frac)]

end

/-! ## `build_lag_df` -/

/-- The two kinds of Python sequence that line 64 adds. -/
inductive PySeq where
  | range (a b : Nat)
  | list (l : List Nat)
  deriving DecidableEq, Repr

/-- Python 3 `+` on these: only lists can be concatenated. -/
def PySeq.add : PySeq → PySeq → Py PySeq
  | .list a, .list b => .ok (.list (a ++ b))
  | _, _ => .error .typeError

/-- `Series.shift(k)` on one column. -/
def shiftCol {α : Type} (k : Int) (col : List (Option α)) : List (Option α) :=
  if 0 ≤ k then (List.replicate k.toNat none ++ col).take col.length
  else (col.drop (-k).toNat ++ List.replicate (-k).toNat none).take col.length

/-- `build_lag_df`, lines 58-62, for a frame with a one-level column index: the shifted copies of the selected columns are collected
and concatenated with the frame itself.  The result is the columns with their labels `(name, lag)`.  The order in which `pd.concat`
puts the frames of a dictionary is not modelled: lag 0 comes first here. -/
def lagFrame {α : Type} (df : Frame α) (nLags : Int) (stride : Int) (features : Option (List Str)) :
    Py (List ((Option Str × Nat) × List (Option α))) := do
  let sub ← (match features with                                         -- line 58
    | none => pure df.cols
    | some fs => fs.mapM fun f => do return (some f, ← df.column (some f)) :
      Py (List (Option Str × List (Option α))))
  let lagged := ((List.range nLags.toNat).tail).flatMap fun (nn : Nat) =>
    sub.map fun c => ((c.1, nn), shiftCol (stride * (nn : Int)) c.2)      -- line 59
  return (df.cols.map fun c => ((c.1, 0), c.2)) ++ lagged                -- lines 60-62

/-- `build_lag_df` (lines 19-65): after the lagged frame is built, line 64 adds a `range` and a list. -/
def buildLagDf {α : Type} (df : Frame α) (nLags : Int) (stride : Int) (features : Option (List Str)) :
    Py (List ((Option Str × Nat) × List (Option α))) := do
  let all ← lagFrame df nLags stride features
  let _ ← (PySeq.range 1 2).add (.list [0])                              -- line 64
  return all

end Mlp.Splitter
