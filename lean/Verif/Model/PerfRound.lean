import Verif.Model.PerfCurves
import Verif.Model.Round

/-!
# `mlpaper/perf_curves.py` in floating point arithmetic

The functions of `Verif/Model/PerfCurves.lean` once more, with every arithmetic operation on floats
rounded by `rnd`.  Line numbers refer to `/repo/mlpaper/perf_curves.py`.  `sumR` is `np.sum`, which adds in
an order of its own.  Without weights the counts are integers (lines 103-105) and exact; they become
floats when they are divided.  Overflow and underflow are not modelled here; property C127
shows that they do not happen.
-/

namespace Mlp.PerfR
open Mlp.Util Mlp.Perf

section
variable {K : Type} [Field K] [LinearOrder K] (rnd : K → K) (sumR : List K → K)

/-- A float operation that ends with a rounding. -/
def rF : Flt K → Flt K
  | .fin x => .fin (rnd x)
  | v => v

/-- `np.diff` of a vector of numbers. -/
def diffR (l : List K) : List K := List.zipWith (fun (a b : K) => rnd (b - a)) l l.tail

/-- `np.diff` of a vector of floats. -/
def diffFR (l : List (Flt K)) : List (Flt K) := List.zipWith (fun a b => rF rnd (Flt.sub b a)) l l.tail

/-- `np.cumsum`, continued from `acc`. -/
def cumsumR (acc : K) : List K → List K
  | [] => []
  | a :: l => rnd (acc + a) :: cumsumR (rnd (acc + a)) l

/-- `np.allclose` of two numbers: `|a - b| <= 1e-8 + 1e-5 * |b|`, with the rounded constants. -/
def allcloseR (a b : K) : Bool :=
  decide (|rnd (a - b)| ≤ rnd (rnd (1 / 100000000) + rnd (rnd (1 / 100000) * |b|)))

/-- `EPSILON` (line 6) as a float. -/
def epsilonR : K := rnd epsilon

/-- One row of `_add_pseudo_points` (lines 44-50). -/
def pseudoRowR (fps tps : List K) : List K × List K :=
  let fpsFix := decide (fps.getLastD 0 = 0)                              -- line 44
  let tpsFix := decide (tps.getLastD 0 = 0)                              -- line 45
  let fps' := if fpsFix then tps.map fun (t : K) => rnd (epsilonR rnd * t) else fps       -- line 49
  let tps' := if tpsFix then fps'.map fun (f : K) => rnd (epsilonR rnd * f) else tps      -- line 50
  (fps', tps')

/-- `_add_pseudo_points` (lines 17-51). -/
def addPseudoPointsR (fps tps : List (List K)) : Py (List (List K) × List (List K)) := do
  pyAssert (decide (fps.length = tps.length) &&
    (List.zip fps tps).all fun p => decide (p.1.length = p.2.length))    -- line 41
  pyAssert (decide (0 < fps.length) && fps.all fun r => decide (0 < r.length))   -- line 42
  let rows := List.zipWith (pseudoRowR rnd) fps tps
  return (rows.map fun r => r.1, rows.map fun r => r.2)

/-- The counts for one row of weights (lines 115-119). The product of a Boolean and a weight is exact. -/
def countsWeightedR (y : List Bool) (idx tidx : List Nat) (w : List K) : Py (List K × List K) := do
  let weight ← takeIdx idx w                                             -- line 115
  let tps ← takeIdx tidx (cumsumR rnd 0 (List.zipWith (fun (b : Bool) (v : K) => boolNum b * v) y weight))   -- line 116
  let cw ← takeIdx tidx (cumsumR rnd 0 weight)                           -- line 117
  let fps := List.zipWith (fun (c t : K) => rnd (c - t)) cw tps
  pyAssert (allcloseR rnd (fps.getLastD 0) (sumR (mask (y.map fun b => !b) weight)))   -- line 118
  pyAssert (allcloseR rnd (tps.getLastD 0) (sumR (mask y weight)))       -- line 119
  return (fps, tps)

/-- The counts at the thresholds for every row of weights (lines 102-119). -/
def countsOfR (y : List Bool) (idx tidx : List Nat) (sampleWeight : Option (Mat K)) :
    Py (List (List K × List K)) :=
  match sampleWeight with
  | none => do                                                           -- line 102
    let c ← countsPlain y tidx
    return [c]
  | some m => do
    pyAssert (decide (m.ncols = y.length))                               -- line 109
    pyAssert (decide (1 ≤ m.rows.length))                                -- line 110
    pyAssert (m.rows.all fun r => r.all fun v => v.isFinite)             -- line 111
    pyAssert (m.rows.all fun r => r.all fun v => (Flt.fin 0).lt v)       -- line 113
    m.rows.mapM fun r => countsWeightedR rnd sumR y idx tidx (r.filterMap finPart)

/-- `_binary_clf_curve` (lines 54-136). -/
def binaryClfCurveR (yTrue : List Bool) (yScore : List (Flt K)) (sampleWeight : Option (Mat K)) :
    Py (List (List K) × List (List K) × List (Flt K)) := do
  pyAssert (decide (yScore.length = yTrue.length) && yScore.all fun v => v.isFinite)   -- line 89
  pyAssert (decide (1 ≤ yTrue.length))                                   -- line 90
  let score := yScore.filterMap finPart
  let idx := (argsortStable score).reverse                               -- line 93
  let ss ← takeIdx idx score                                             -- line 94
  let y ← takeIdx idx yTrue
  let tidx := whereNonzero (diffR rnd ss) ++ [yTrue.length - 1]          -- lines 99-100
  let counts ← countsOfR rnd sumR y idx tidx sampleWeight                -- lines 102-119
  let fps := counts.map fun c => 0 :: c.1                                -- line 123
  let tps := counts.map fun c => 0 :: c.2
  let st ← takeIdx tidx ss
  let thresholds := .pinf :: st.map fun (s : K) => Flt.fin s             -- line 124
  pyAssert (decide (2 ≤ thresholds.length))                              -- line 125
  let p ← addPseudoPointsR rnd fps tps                                   -- line 128
  pyAssert ((p.1.all fun r => decide (0 < r.getLastD 0)) &&
    p.2.all fun r => decide (0 < r.getLastD 0))                          -- line 129
  let fps := p.1.map cummax                                              -- line 133
  pyAssert ((fps.all fun r => (diffR rnd r).all fun d => decide (0 ≤ d)) &&
    p.2.all fun r => (diffR rnd r).all fun d => decide (0 ≤ d))          -- line 134
  return (fps, p.2, thresholds)

/-- A row divided by its last entry. -/
def overLastR (r : List K) : List (Flt K) := r.map fun (v : K) => rF rnd ((Flt.fin v).div (.fin (r.getLastD 0)))

/-- `roc_curve` (lines 144-177). -/
def rocCurveR (yTrue : List Bool) (yScore : List (Flt K)) (sampleWeight : Option (Mat K)) :
    Py (Curve K × List (Flt K)) := do
  let (fps, tps, thresholds) ← binaryClfCurveR rnd sumR yTrue yScore sampleWeight  -- line 174
  let fpr := fps.map (overLastR rnd)                                     -- line 175
  let tpr := tps.map (overLastR rnd)                                     -- line 176
  return (⟨matOf thresholds fpr, matOf thresholds tpr, .linear⟩, thresholds)

/-- One row of `np.true_divide(tps, tps + fps)` (line 217). -/
def precisionRowR (fps tps : List K) : List (Flt K) :=
  List.zipWith (fun (f t : K) => rF rnd ((Flt.fin t).div (.fin (rnd (t + f))))) fps tps

/-- `recall_precision_curve` (lines 180-220). -/
def recallPrecisionCurveR (yTrue : List Bool) (yScore : List (Flt K)) (sampleWeight : Option (Mat K)) :
    Py (Curve K × List (Flt K)) := do
  let (fps, tps, thresholds) ← binaryClfCurveR rnd sumR yTrue yScore sampleWeight  -- line 214
  let recall := tps.map (overLastR rnd)                                  -- line 215
  let prec ← (List.zipWith (precisionRowR rnd) fps tps).mapM copySecond  -- lines 217-218
  pyAssert ((prec.all fun r => r.all fun v => (Flt.fin 0).le v) &&
    prec.all fun r => r.all fun v => v.le (.fin 1))                      -- line 219
  return (⟨matOf thresholds recall, matOf thresholds prec, .previous⟩, thresholds)

/-- One entry of `1.0 - np.true_divide(n_pos * z, den)` (lines 253 and 254). -/
def gainR (nNeg nPos z t : K) : Flt K :=
  rF rnd ((Flt.fin 1).sub (rF rnd ((Flt.fin (rnd (nPos * z))).div (.fin (rnd (nNeg * t))))))

/-- One row of `1.0 - np.true_divide(n_pos * fns, den)` (line 253). -/
def recGainRowR (fps tps : List K) : List (Flt K) :=
  let nNeg := fps.getLastD 0                                             -- line 248
  let nPos := tps.getLastD 0
  tps.map fun (t : K) => gainR rnd nNeg nPos (rnd (nPos - t)) t

/-- One row of `1.0 - np.true_divide(n_pos * fps, den)` (line 254). -/
def precGainRowR (fps tps : List K) : List (Flt K) :=
  let nNeg := fps.getLastD 0
  let nPos := tps.getLastD 0
  List.zipWith (fun (f t : K) => gainR rnd nNeg nPos f t) fps tps

/-- `prg_curve` (lines 223-264). -/
def prgCurveR (yTrue : List Bool) (yScore : List (Flt K)) (sampleWeight : Option (Mat K)) :
    Py (Curve K × List (Flt K)) := do
  let (fps, tps, thresholds) ← binaryClfCurveR rnd sumR yTrue yScore sampleWeight  -- line 247
  let recGain := List.zipWith (recGainRowR rnd) fps tps                  -- line 253
  let precGain ← (List.zipWith (precGainRowR rnd) fps tps).mapM copySecond      -- lines 254-256
  pyAssert (!(recGain.any fun r => (diffFR rnd r).any fun d => d.lt (.fin 0))) -- line 260
  let recGain := recGain.map fun r => r.map fun v => Flt.maximum (.fin 0) v    -- line 261
  pyAssert (recGain.all fun r => r.all fun v => v.le (.fin 1))           -- line 262
  pyAssert ((List.zip recGain precGain).all fun p =>
    (List.zip p.1 p.2).all fun q => q.1.eq (.fin 0) || q.2.le (.fin 1))  -- line 263
  return (⟨matOf thresholds recGain, matOf thresholds precGain, .previous⟩, thresholds)

end
end Mlp.PerfR
