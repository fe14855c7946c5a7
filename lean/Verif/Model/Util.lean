import Verif.Model.ClipChk
import Mathlib.Analysis.SpecialFunctions.Log.Basic

/-!
# `mlpaper/util.py`

Line numbers refer to `/repo/mlpaper/util.py`.  Vectors are lists and matrices are lists of rows
together with the number of columns (so that a matrix without rows still has columns).  The checks of
`ndim` hold by typing.  Arithmetic on finite numbers is exact.

Not modelled here: `_remove_chars_py2` (line 111, Python 2 only); `remove_chars` is modelled with
`sciprint`.
-/

namespace Mlp.Util

/-- `clip_chk` (lines 14-18) for an array. -/
def clipChkArr {K : Type} [Field K] [LinearOrder K] (a : List (Flt K)) (lo hi : Flt K) :
    Py (List (Flt K)) := do
  let c := a.map fun v => v.clip lo hi                                   -- line 15
  pyAssert (a.all fun v => v.eq (v.clip lo hi) || isclose v lo || isclose v hi)   -- line 17
  return c

/-- A vector of labels: the dtype kind (`'i'` signed integer, `'u'` unsigned, `'b'` bool, …) and the
values (True and False count as 1 and 0). -/
structure LabelVec where
  kind : Char
  vals : List Int

/-- `one_hot` (lines 21-45). -/
def oneHot (y : LabelVec) (nLabels : Int) : Py (List (List Bool)) := do
  pyAssert (decide (1 ≤ nLabels))                                        -- line 39
  pyAssert (decide (y.kind = 'i'))                                       -- line 40
  pyAssert ((y.vals.all fun v => decide (0 ≤ v)) &&
    y.vals.all fun v => decide (v < nLabels))                            -- line 41
  let zeros := List.replicate y.vals.length (List.replicate nLabels.toNat false)   -- line 43
  return List.zipWith (fun row (v : Int) => row.set v.toNat true) zeros y.vals     -- line 44

/-- A two-dimensional array of floats. -/
structure Mat (K : Type) where
  ncols : Nat
  rows : List (List (Flt K))

/-- All rows have the stated number of entries. -/
def Mat.Ok {K : Type} (m : Mat K) : Prop := ∀ r ∈ m.rows, r.length = m.ncols

noncomputable section

/-- `np.exp`. -/
def fexp : Flt ℝ → Flt ℝ
  | .fin x => .fin (Real.exp x)
  | .pinf => .pinf
  | .ninf => .fin 0
  | .nan => .nan

/-- `np.log`. -/
def flog : Flt ℝ → Flt ℝ
  | .fin x => if 0 < x then .fin (Real.log x) else if x = 0 then .ninf else .nan
  | .pinf => .pinf
  | .ninf => .nan
  | .nan => .nan

/-- `np.amax` of a row (NaN if there is a NaN). -/
def amax (r : List (Flt ℝ)) : Flt ℝ := r.foldl Flt.maximum .ninf

/-- `scipy.special.logsumexp` of a row (scipy 1.1.0): subtract the maximum if that is finite, otherwise
0, then add it back. -/
def logsumexp (r : List (Flt ℝ)) : Flt ℝ :=
  let m := if (amax r).isFinite then amax r else .fin 0
  (flog (Flt.sum (r.map fun v => fexp (v.sub m)))).add m

/-- `normalize` (lines 48-69). -/
def normalizeRows (p : Mat ℝ) : Py (Mat ℝ) := do
  pyAssert (decide (1 ≤ p.ncols))                                        -- line 65
  return ⟨p.ncols, p.rows.map fun r => r.map fun v => v.sub (logsumexp r)⟩   -- lines 67-68

end

section
variable {K : Type} [Field K] [LinearOrder K]

/-- Sorted insertion without repetition. -/
def insertUnique (a : K) : List K → List K
  | [] => [a]
  | b :: l => if a < b then a :: b :: l else if a = b then b :: l else b :: insertUnique a l

/-- `np.unique` of a vector: the sorted list of its distinct values. -/
def npUnique (l : List K) : List K := l.foldr insertUnique []

/-- `np.diff` of a vector of numbers. -/
def diffK (l : List K) : List K := List.zipWith (fun (a b : K) => b - a) l l.tail

/-- `np.min` of a non-empty vector. -/
def minK : List K → K
  | [] => 0
  | a :: l => l.foldl min a

/-- The number of a finite float. -/
def finPart : Flt K → Option K
  | .fin a => some a
  | _ => none

/-- `epsilon_noise` (lines 72-102).  `u` is the outcome of `np.random.rand(len(x))`. -/
def epsilonNoise (x : List (Flt K)) (defaultEps maxEps : K) (u : List K) : Py (List (Flt K)) := do
  pyAssert (x.all fun v => v.isFinite)                                   -- line 94
  let ux := npUnique (x.filterMap finPart)   -- line 96
  let delta := if ux.length ≤ 1 then defaultEps else minK (diffK ux)     -- line 97
  let delta := min maxEps delta                                          -- line 98
  pyAssert (decide (0 < delta) && decide (delta ≤ maxEps))               -- line 99
  return List.zipWith (fun v (w : K) => v.add (.fin (delta * (w - 1 / 2)))) x u   -- line 101

/-- `np.diff` of a vector of floats. -/
def diff (l : List (Flt K)) : List (Flt K) := List.zipWith (fun a b => Flt.sub b a) l l.tail

/-- Indexing with a Boolean mask. -/
def mask {β : Type} : List Bool → List β → List β
  | true :: m, a :: l => a :: mask m l
  | false :: m, _ :: l => mask m l
  | _, _ => []

/-- `unique_take_last` (lines 147-184). -/
def uniqueTakeLast {β : Type} (xp : List (Flt K)) (yp : Option (List β)) :
    Py (List (Flt K) × Option (List β)) := do
  pyAssert (!(xp.any fun v => v.isNaN))                                  -- line 173
  pyAssert (match yp with | none => true | some y => decide (xp.length = y.length))   -- line 174
  pyAssert (yp.isNone || !(xp.any fun v => v.isNaN))                     -- line 175
  let deltas := diff xp                                                  -- line 178
  pyAssert (deltas.all fun d => (Flt.fin 0).le d)                        -- line 179
  let idx := if xp.length = 0 then [] else (deltas.map fun d => (Flt.fin 0).lt d) ++ [true]   -- line 181
  return (mask idx xp, yp.map (mask idx))                                -- lines 182-183

/-- A position in a list, with Python's negative indices. -/
def pyIdx {β : Type} (l : List β) (i : Int) : Py β :=
  let j := if i < 0 then i + l.length else i
  if j < 0 then .error .indexError else
  match l[j.toNat]? with
  | some v => .ok v
  | none => .error .indexError

/-- `np.searchsorted(xp, v, side="right")` for sorted `xp`: the number of entries `<= v`. -/
def searchRight (xp : List (Flt K)) (v : Flt K) : Nat := xp.countP fun a => decide (a ≤ v)

/-- Indexing with an array of positions. -/
def takeIdx {β : Type} (idx : List Nat) (l : List β) : Py (List β) := 
  idx.mapM fun (i : Nat) => pyIdx l (i : Int)

/-- `eval_step_func` (lines 213-266).  `argsort` is what `np.argsort` returns for `xp`; the default
sorting algorithm is not stable, so the order of equal points is left open. -/
def evalStepFunc {β : Type} (argsort : List (Flt K) → List Nat) (xGrid xp : List (Flt K)) (yp : List β)
    (ival : Option β) (assumeSorted skipUniqueChk : Bool) : Py (List β) := do
  pyAssert (decide (xp.length = yp.length))                              -- line 247
  let p ← (if assumeSorted then pure (xp, yp) else do                    -- line 249
    let xs ← takeIdx (argsort xp) xp                                     -- lines 250-251
    let ys ← takeIdx (argsort xp) yp
    return (xs, ys) : Py (List (Flt K) × List β))
  pyAssert (skipUniqueChk || (diff p.1).all fun d => (Flt.fin 0).lt d)   -- line 254
  let q ← (match ival with
    | none => do                                                         -- line 256
      if xGrid.length = 0 then pure p else
      let x0 ← pyIdx p.1 0                                               -- line 258
      pyAssert (xGrid.all fun v => x0.le v)
      return p
    | some i => pure (.ninf :: p.1, i :: p.2) : Py (List (Flt K) × List β))   -- lines 261-262
  xGrid.mapM fun v => pyIdx q.2 ((searchRight q.1 v : Int) - 1)          -- lines 264-265

/-- The interpolation kinds; `other` is any other string. -/
inductive Kind where
  | previous
  | linear
  | next
  | other
  deriving DecidableEq

/-- `np.interp` at one point (numpy 1.15): NaN for NaN; otherwise `j` is the last position with
`xp[j] <= x`, and the value is the last one at or beyond the end, the first one before the beginning,
and on the line through points `j` and `j+1` in between. -/
def npInterp (xp yp : List (Flt K)) (x : Flt K) : Py (Flt K) :=
  if x.isNaN then .ok .nan else
  let n := searchRight xp x
  if n = 0 then pyIdx yp 0 else
  if n = xp.length then pyIdx yp ((n : Int) - 1) else do
  let x0 ← pyIdx xp ((n : Int) - 1)
  let x1 ← pyIdx xp (n : Int)
  let y0 ← pyIdx yp ((n : Int) - 1)
  let y1 ← pyIdx yp (n : Int)
  let slope := (y1.sub y0).div (x1.sub x0)
  return (slope.mul (x.sub x0)).add y0

/-- `scipy.interpolate.interp1d(xp, yp, kind="linear", assume_sorted=True)(x_grid)` (scipy 1.1.0), which
checks the bounds and delegates to `np.interp`. -/
def scipyLinear (xGrid xp yp : List (Flt K)) : Py (List (Flt K)) := do
  let r ← xGrid.mapM fun v => npInterp xp yp v
  let x0 ← pyIdx xp 0
  let xn ← pyIdx xp (-1)
  if xGrid.any fun v => v.lt x0 then .error .valueError else
  if xGrid.any fun v => xn.lt v then .error .valueError else
  return r

/-- `_interp1d` (lines 269-315); `interp1d` (line 319) applies it to each row.  `STRICT_SPACING` is
False (line 11).  `scipyOther` stands for the other kinds of scipy, which the package does not use. -/
def interp1d (scipyOther : List (Flt K) → List (Flt K) → List (Flt K) → Py (List (Flt K)))
    (xGrid xp yp : List (Flt K)) (kind : Kind) : Py (List (Flt K)) := do
  pyAssert (decide (xp.length = yp.length))                              -- line 295
  pyAssert (decide (2 ≤ xp.length))                                      -- line 296
  pyAssert ((diff xp).all fun d => (Flt.fin 0).le d)                     -- line 297
  match kind with
  | .previous => do                                                      -- line 299
    let r ← uniqueTakeLast xp (some yp)                                  -- line 302
    evalStepFunc (fun _ => []) xGrid r.1 (r.2.getD []) none true false   -- line 303
  | .next => .error .notImplemented                                      -- line 307
  | .linear => scipyLinear xGrid xp yp                                   -- lines 313-314
  | .other => scipyOther xGrid xp yp

/-- `np.nansum` of a vector: NaN counts as 0. -/
def nansum (l : List (Flt K)) : Flt K := Flt.sum (l.map fun v => if v.isNaN then .fin 0 else v)

/-- One row of `np.nansum(y_curve[:, :-1] * np.diff(x_curve, axis=1), axis=1)` (line 350). -/
def areaPrev (x y : List (Flt K)) : Flt K := nansum (List.zipWith Flt.mul y.dropLast (diff x))

/-- One row of `np.trapz(y_curve, x_curve, axis=1)` (line 352): the sum of
`d * (y[1:] + y[:-1]) / 2.0`. -/
def trapz (x y : List (Flt K)) : Flt K :=
  Flt.sum (List.zipWith (fun d s => (Flt.mul d s).div (.fin 2)) (diff x)
    (List.zipWith Flt.add y.tail y.dropLast))

/-- `area` (lines 322-360). -/
def area (xCurve yCurve : Mat K) (kind : Kind) : Py (List (Flt K)) := do
  pyAssert (decide (2 ≤ xCurve.ncols))                                   -- line 342
  pyAssert (!(xCurve.rows.any fun r => r.any fun v => v.isNaN))          -- line 343
  pyAssert (decide (yCurve.rows.length = xCurve.rows.length) &&
    decide (yCurve.ncols = xCurve.ncols))                                -- line 344
  pyAssert (!(yCurve.rows.any fun r => r.any fun v => v.isNaN))          -- line 345
  let auc ← (match kind with
    | .previous => pure (List.zipWith areaPrev xCurve.rows yCurve.rows)  -- line 350
    | .linear => pure (List.zipWith trapz xCurve.rows yCurve.rows)       -- line 352
    | _ => .error .notImplemented : Py (List (Flt K)))                   -- line 356
  pyAssert (!(auc.any fun v => v.isNaN))                                 -- line 359
  return auc

end

section
variable {K : Type} [LinearOrder K]

/-- `np.nextafter(x, inf)` when `K` is the set of finite floats, `least` the smallest of them and `next`
the next larger one, if any. -/
def nextafter (least : K) (next : K → Option K) : Flt K → Flt K
  | .fin x => match next x with
    | some y => .fin y
    | none => .pinf
  | .ninf => .fin least
  | .pinf => .pinf
  | .nan => .nan

/-- The loop of `cummax_strict` (lines 207-208), where `prev` is the entry before. -/
def cummaxLoop (least : K) (next : K → Option K) (prev : Flt K) : List (Flt K) → List (Flt K)
  | [] => []
  | a :: l =>
    let v := Flt.maximum (nextafter least next prev) a                   -- line 208
    v :: cummaxLoop least next v l

/-- The array after the loop of `cummax_strict` (lines 206-208). -/
def cummaxRun (least : K) (next : K → Option K) : List (Flt K) → List (Flt K)
  | [] => []
  | a :: l => a :: cummaxLoop least next a l

/-- `cummax_strict` (lines 187-210).  `diff(x) > 0` is a comparison of neighbours here: with gradual
underflow the difference of two different floats is never zero, and `inf - inf` is NaN.  With
`copy=False` the result is also written to the argument: see Model/UtilHeap.lean. -/
def cummaxStrict (least : K) (next : K → Option K) (x : List (Flt K)) : Py (List (Flt K)) := do
  let r := cummaxRun least next x                                        -- lines 206-208
  pyAssert ((List.zipWith (fun (a b : Flt K) => a.lt b) r r.tail).all id)   -- line 209
  return r

end
end Mlp.Util
