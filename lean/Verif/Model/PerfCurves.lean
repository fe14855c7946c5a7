import Verif.Model.Util

/-!
# `mlpaper/perf_curves.py`

Line numbers refer to `/repo/mlpaper/perf_curves.py`.  Labels are Booleans by typing (the check of
`dtype.kind` in line 88 holds by typing, as do the checks of `ndim` and line 130, that the two count
arrays have the same dtype).  The counts are numbers of `K`: the code checks that the weights are finite,
and arithmetic is exact.  The unweighted counts are integers in the code; here they are the
corresponding numbers.
-/

namespace Mlp.Perf
open Mlp.Util

section
variable {K : Type} [Field K] [LinearOrder K]

/-- `EPSILON` (line 6). -/
def epsilon : K := 1 / 10000000000

/-- One row of `_add_pseudo_points` (lines 44-50): false positive counts ending in 0 become `EPSILON`
times the true positive counts, then true positive counts ending in 0 become `EPSILON` times the (new)
false positive counts. -/
def pseudoRow (fps tps : List K) : List K × List K :=
  let fpsFix := decide (fps.getLastD 0 = 0)                              -- line 44
  let tpsFix := decide (tps.getLastD 0 = 0)                              -- line 45
  let fps' := if fpsFix then tps.map fun (t : K) => epsilon * t else fps       -- line 49
  let tps' := if tpsFix then fps'.map fun (f : K) => epsilon * f else tps      -- line 50
  (fps', tps')

/-- `_add_pseudo_points` (lines 17-51). -/
def addPseudoPoints (fps tps : List (List K)) : Py (List (List K) × List (List K)) := do
  pyAssert (decide (fps.length = tps.length) &&
    (List.zip fps tps).all fun p => decide (p.1.length = p.2.length))    -- line 41
  pyAssert (decide (0 < fps.length) && fps.all fun r => decide (0 < r.length))   -- line 42
  let rows := List.zipWith pseudoRow fps tps
  return (rows.map fun r => r.1, rows.map fun r => r.2)

/-- `np.argsort(s, kind="mergesort")`: the positions in increasing order, equal entries in the order in
which they come. -/
def argsortStable (s : List K) : List Nat :=
  (s.zipIdx.mergeSort fun a b => decide (a.1 ≤ b.1)).map fun p => p.2

/-- `np.where(d)[0]`: the positions of the entries that are not zero. -/
def whereNonzero (d : List K) : List Nat :=
  (List.range d.length).filter fun i => decide (d.getD i 0 ≠ 0)

/-- `np.cumsum`, continued from `acc`. -/
def cumsumFrom (acc : K) : List K → List K
  | [] => []
  | a :: l => (acc + a) :: cumsumFrom (acc + a) l

/-- `np.maximum.accumulate`, continued from `acc`. -/
def cummaxFrom (acc : K) : List K → List K
  | [] => []
  | a :: l => max acc a :: cummaxFrom (max acc a) l

/-- `np.maximum.accumulate` of a row. -/
def cummax : List K → List K
  | [] => []
  | a :: l => a :: cummaxFrom a l

/-- True as 1 and False as 0. -/
def boolNum (b : Bool) : K := if b then 1 else 0

/-- `np.allclose` of two numbers. -/
def allclose (a b : K) : Bool := isclose (.fin a) (.fin b)

/-- The counts without weights (lines 103-105), `y` being the labels in the order of decreasing score. -/
def countsPlain (y : List Bool) (tidx : List Nat) : Py (List K × List K) := do
  let tps ← takeIdx tidx (cumsumFrom 0 (y.map boolNum))                  -- line 103
  let fps := List.zipWith (fun (i : Nat) (t : K) => 1 + (i : K) - t) tidx tps   -- line 104
  pyAssert (decide (fps.getLastD 0 = ((y.countP fun b => !b : Nat) : K)) &&
    decide (tps.getLastD 0 = ((y.countP fun b => b : Nat) : K)))         -- line 105
  return (fps, tps)

/-- The counts for one row of weights (lines 115-119), `y` being the labels in the order of decreasing
score and `idx` that order.  The code checks all rows together, here each row has its check. -/
def countsWeighted (y : List Bool) (idx tidx : List Nat) (w : List K) : Py (List K × List K) := do
  let weight ← takeIdx idx w                                             -- line 115
  let tps ← takeIdx tidx (cumsumFrom 0 (List.zipWith (fun (b : Bool) (v : K) => boolNum b * v) y weight))   -- line 116
  let cw ← takeIdx tidx (cumsumFrom 0 weight)                            -- line 117
  let fps := List.zipWith (fun (c t : K) => c - t) cw tps
  pyAssert (allclose (fps.getLastD 0) (mask (y.map fun b => !b) weight).sum)   -- line 118
  pyAssert (allclose (tps.getLastD 0) (mask y weight).sum)               -- line 119
  return (fps, tps)

/-- The counts at the thresholds for every row of weights (lines 102-119). -/
def countsOf (y : List Bool) (idx tidx : List Nat) (sampleWeight : Option (Mat K)) :
    Py (List (List K × List K)) :=
  match sampleWeight with
  | none => do                                                           -- line 102
    let c ← countsPlain y tidx
    return [c]
  | some m => do
    pyAssert (decide (m.ncols = y.length))                               -- line 109
    pyAssert (decide (1 ≤ m.rows.length))                                -- line 110
    pyAssert (m.rows.all fun r => r.all fun v => v.isFinite)             -- line 111
    pyAssert (m.rows.all fun r => r.all fun v => (Flt.fin 0).lt v)       -- line 113
    m.rows.mapM fun r => countsWeighted y idx tidx (r.filterMap finPart)

/-- `_binary_clf_curve` (lines 54-136).  The result are the rows of false positive counts, the rows of
true positive counts and the thresholds. -/
def binaryClfCurve (yTrue : List Bool) (yScore : List (Flt K)) (sampleWeight : Option (Mat K)) :
    Py (List (List K) × List (List K) × List (Flt K)) := do
  pyAssert (decide (yScore.length = yTrue.length) && yScore.all fun v => v.isFinite)   -- line 89
  pyAssert (decide (1 ≤ yTrue.length))                                   -- line 90
  let score := yScore.filterMap finPart
  let idx := (argsortStable score).reverse                               -- line 93
  let ss ← takeIdx idx score                                             -- line 94
  let y ← takeIdx idx yTrue
  let tidx := whereNonzero (diffK ss) ++ [yTrue.length - 1]              -- lines 99-100
  let counts ← countsOf y idx tidx sampleWeight                          -- lines 102-119
  let fps := counts.map fun c => 0 :: c.1                                -- line 123
  let tps := counts.map fun c => 0 :: c.2
  let st ← takeIdx tidx ss
  let thresholds := .pinf :: st.map fun (s : K) => Flt.fin s             -- line 124
  pyAssert (decide (2 ≤ thresholds.length))                              -- line 125
  let p ← addPseudoPoints fps tps                                        -- line 128
  pyAssert ((p.1.all fun r => decide (0 < r.getLastD 0)) &&
    p.2.all fun r => decide (0 < r.getLastD 0))                          -- line 129
  let fps := p.1.map cummax                                              -- line 133
  pyAssert ((fps.all fun r => (diffK r).all fun d => decide (0 ≤ d)) &&
    p.2.all fun r => (diffK r).all fun d => decide (0 ≤ d))              -- line 134
  return (fps, p.2, thresholds)

/-- A curve: x values, y values (one row per set of weights) and the kind of interpolation. -/
structure Curve (K : Type) where
  x : Mat K
  y : Mat K
  kind : Kind

/-- A matrix whose rows have as many entries as there are thresholds. -/
def matOf (thresholds : List (Flt K)) (rows : List (List (Flt K))) : Mat K := ⟨thresholds.length, rows⟩

/-- A row divided by its last entry. -/
def overLast (r : List K) : List (Flt K) := r.map fun (v : K) => (Flt.fin v).div (.fin (r.getLastD 0))

/-- `roc_curve` (lines 144-177). -/
def rocCurve (yTrue : List Bool) (yScore : List (Flt K)) (sampleWeight : Option (Mat K)) :
    Py (Curve K × List (Flt K)) := do
  let (fps, tps, thresholds) ← binaryClfCurve yTrue yScore sampleWeight  -- line 174
  let fpr := fps.map overLast                                            -- line 175
  let tpr := tps.map overLast                                            -- line 176
  return (⟨matOf thresholds fpr, matOf thresholds tpr, .linear⟩, thresholds)

/-- `r[0] = r[1]` for a row. -/
def copySecond : List (Flt K) → Py (List (Flt K))
  | _ :: b :: l => .ok (b :: b :: l)
  | _ => .error .indexError

/-- One row of `np.true_divide(tps, tps + fps)` (line 217). -/
def precisionRow (fps tps : List K) : List (Flt K) :=
  List.zipWith (fun (f t : K) => (Flt.fin t).div (.fin (t + f))) fps tps

/-- `recall_precision_curve` (lines 180-220). -/
def recallPrecisionCurve (yTrue : List Bool) (yScore : List (Flt K)) (sampleWeight : Option (Mat K)) :
    Py (Curve K × List (Flt K)) := do
  let (fps, tps, thresholds) ← binaryClfCurve yTrue yScore sampleWeight  -- line 214
  let recall := tps.map overLast                                         -- line 215
  let prec ← (List.zipWith precisionRow fps tps).mapM copySecond         -- lines 217-218
  pyAssert ((prec.all fun r => r.all fun v => (Flt.fin 0).le v) &&
    prec.all fun r => r.all fun v => v.le (.fin 1))                      -- line 219
  return (⟨matOf thresholds recall, matOf thresholds prec, .previous⟩, thresholds)

/-- One row of `1.0 - np.true_divide(n_pos * fns, den)` (line 253). -/
def recGainRow (fps tps : List K) : List (Flt K) :=
  let nNeg := fps.getLastD 0                                             -- line 248
  let nPos := tps.getLastD 0
  tps.map fun (t : K) => (Flt.fin 1).sub ((Flt.fin (nPos * (nPos - t))).div (.fin (nNeg * t)))

/-- One row of `1.0 - np.true_divide(n_pos * fps, den)` (line 254). -/
def precGainRow (fps tps : List K) : List (Flt K) :=
  let nNeg := fps.getLastD 0
  let nPos := tps.getLastD 0
  List.zipWith (fun (f t : K) => (Flt.fin 1).sub ((Flt.fin (nPos * f)).div (.fin (nNeg * t)))) fps tps

/-- `prg_curve` (lines 223-264). -/
def prgCurve (yTrue : List Bool) (yScore : List (Flt K)) (sampleWeight : Option (Mat K)) :
    Py (Curve K × List (Flt K)) := do
  let (fps, tps, thresholds) ← binaryClfCurve yTrue yScore sampleWeight  -- line 247
  let recGain := List.zipWith recGainRow fps tps                         -- line 253
  let precGain ← (List.zipWith precGainRow fps tps).mapM copySecond      -- lines 254-256
  pyAssert (!(recGain.any fun r => (diff r).any fun d => d.lt (.fin 0))) -- line 260
  let recGain := recGain.map fun r => r.map fun v => Flt.maximum (.fin 0) v    -- line 261
  pyAssert (recGain.all fun r => r.all fun v => v.le (.fin 1))           -- line 262
  pyAssert ((List.zip recGain precGain).all fun p =>
    (List.zip p.1 p.2).all fun q => q.1.eq (.fin 0) || q.2.le (.fin 1))  -- line 263
  return (⟨matOf thresholds recGain, matOf thresholds precGain, .previous⟩, thresholds)

end
end Mlp.Perf
