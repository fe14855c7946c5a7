import Verif.Model.Regression
import Verif.Model.MlpaperRound
import Verif.Model.CurveRound

/-!
# Losses, prediction tables and `just_benchmark` in floating point arithmetic

The functions of `Verif/Model/Util.lean` (`normalize`), `Verif/Model/ClassLoss.lean`, `Verif/Model/ClassTable.lean`,
`Verif/Model/CurveBoot.lean` (`summary_table`, `just_benchmark`) and `Verif/Model/Regression.lean` once more, with every
arithmetic operation on floats rounded.  `L` is the library (`Verif/Model/MlpaperRound.lean`): the rounding of elementary operations,
`np.sum`, `np.exp`, `np.log`, `np.sqrt` and so on as floating point functions.  `dotR` is the inner product that `np.dot` uses;
it adds products in an order of its own and may fuse multiplications with additions.  Overflow and underflow of elementary
operations are not modelled.
-/

namespace Mlp.LossR
open Mlp.Util Mlp.Frame Mlp.PerfR Mlp.PaperR Mlp.CurveR

noncomputable section
variable (L : Lib ℝ)

/-- `np.exp`. -/
def fexpR : Flt ℝ → Flt ℝ
  | .fin x => .fin (L.exp x)
  | .pinf => .pinf
  | .ninf => .fin 0
  | .nan => .nan

/-- `np.log`. -/
def flogR : Flt ℝ → Flt ℝ
  | .fin x => if 0 < x then .fin (L.log x) else if x = 0 then .ninf else .nan
  | .pinf => .pinf
  | .ninf => .nan
  | .nan => .nan

/-- `scipy.special.logsumexp` of a row (scipy 1.1.0). -/
def logsumexpR (r : List (Flt ℝ)) : Flt ℝ :=
  let m := if (amax r).isFinite then amax r else .fin 0
  rF L.rnd ((flogR L (sumFR L.sum (r.map fun v => fexpR L (rF L.rnd (v.sub m))))).add m)

/-- `normalize` (util.py lines 48-69). -/
def normalizeRowsR (p : Mat ℝ) : Py (Mat ℝ) := do
  pyAssert (decide (1 ≤ p.ncols))                                        -- line 65
  return ⟨p.ncols, p.rows.map fun r => r.map fun v => rF L.rnd (v.sub (logsumexpR L r))⟩   -- lines 67-68

/-! ## The losses of `mlpaper/classification.py` -/

section
open Mlp.Classif
variable (dotR : List ℝ → List ℝ → ℝ)

/-- The inner product of two vectors of floats: with an infinity or NaN there is nothing to round. -/
def dotFR (a b : List (Flt ℝ)) : Flt ℝ :=
  if (a.all fun v => v.isFinite) && b.all fun v => v.isFinite then .fin (dotR (numbers a) (numbers b))
  else Flt.sum (List.zipWith Flt.mul a b)

/-- `np.dot` of two matrices: a ValueError if the inner sizes differ. -/
def dotMatR (a b : Mat ℝ) : Py (Mat ℝ) :=
  if a.ncols = b.rows.length then
    .ok ⟨b.ncols, a.rows.map fun r => (List.range b.ncols).map fun j => dotFR dotR r (colAt b j)⟩
  else .error .valueError

/-- `hard_loss_decision` (lines 59-82). -/
def hardLossDecisionR (logPredProb lossMat : Mat ℝ) : Py (List Nat) := do
  let predProb : Mat ℝ := ⟨logPredProb.ncols, logPredProb.rows.map fun r => r.map (fexpR L)⟩   -- line 79
  let eLoss ← dotMatR dotR predProb lossMat                              -- line 80
  argminRows eLoss                                                       -- line 81

/-- `hard_loss` (lines 85-121).  The entries of `1.0 - np.eye(n)` are exact. -/
def hardLossR (lossMat : Option (Mat ℝ)) (y : LabelVec) (logPredProb : Mat ℝ) : Py (List (Flt ℝ)) := do
  let s ← shapeAndValidate y logPredProb                                 -- line 111
  let lossMat := lossMat.getD (zeroOneMat s.2)                           -- line 112
  pyAssert (decide (lossMat.rows.length = s.2))                          -- line 113
  pyAssert (decide (1 ≤ lossMat.ncols))                                  -- line 114
  let action ← hardLossDecisionR L dotR logPredProb lossMat              -- line 116
  (List.zip y.vals action).mapM fun (p : Int × Nat) => do                -- line 119
    let row ← pyIdx lossMat.rows p.1
    pyIdx row (p.2 : Int)

/-- `(np.exp(v) - k) ** 2` for a log-probability and an entry of a one-hot vector (line 170). -/
def brierTermR (v : Flt ℝ) (k : Bool) : Flt ℝ :=
  let d := rF L.rnd ((fexpR L v).sub (boolFlt k))
  rF L.rnd (d.mul d)

/-- `brier_loss` (lines 146-175). -/
def brierLossR (rescale : Bool) (y : LabelVec) (logPredProb : Mat ℝ) : Py (List (Flt ℝ)) := do
  let s ← shapeAndValidate y logPredProb                                 -- line 167
  let yBin ← oneHot (asInt y) (s.2 : Int)                                -- line 169
  let loss := List.zipWith (fun (r : List (Flt ℝ)) (b : List Bool) =>
    sumFR L.sum (List.zipWith (brierTermR L) r b)) logPredProb.rows yBin -- line 170
  if rescale && decide (1 < s.2) then                                    -- line 172
    return loss.map fun l => rF L.rnd ((Flt.fin (L.rnd ((s.2 : ℝ) / ((s.2 : ℝ) - 1)))).mul l)   -- line 174
  else return loss

/-- The constant `c` of `spherical_loss` (line 208). -/
def sphereScaleR (nLabels : Nat) : ℝ :=
  if 1 < nLabels then L.rnd (1 - L.rnd (1 / L.sqrt (nLabels : ℝ))) else 1

/-- `spherical_loss` (lines 178-210). -/
def sphericalLossR (rescale : Bool) (y : LabelVec) (logPredProb : Mat ℝ) : Py (List (Flt ℝ)) := do
  let s ← shapeAndValidate y logPredProb                                 -- line 199
  let logNormalizer := logPredProb.rows.map fun r =>
    rF L.rnd ((Flt.fin (1 / 2)).mul (logsumexpR L (r.map fun v => rF L.rnd ((Flt.fin 2).mul v))))   -- line 201
  let v ← pick logPredProb y.vals
  let loss := List.zipWith (fun a b => (fexpR L (rF L.rnd (Flt.sub a b))).neg) v logNormalizer   -- line 203
  if rescale then                                                        -- line 205
    return loss.map fun l => rF L.rnd ((rF L.rnd ((Flt.fin 1).add l)).div (.fin (sphereScaleR L s.2)))   -- lines 208-209
  else return loss

/-- `STD_CLASS_LOSS` (line 628); the negation in `log_loss` is exact. -/
def stdClassLossR : List (Str × Metric) :=
  [("NLL".toList, logLoss), ("Brier".toList, brierLossR L true), ("sphere".toList, sphericalLossR L true),
    ("zero_one".toList, hardLossR L dotR none)]

/-- One pass of the outer loop of `loss_table` (lines 256-268). -/
def lossMethodR (t : PredTable ℝ) (y : LabelVec) (metrics : List (Str × Metric)) (assumeNormalized : Bool)
    (cols : Cols (Str × Str) ℝ) (method : Str) : Py (Cols (Str × Str) ℝ) := do
  let p ← t.matrix method                                                -- lines 258-261
  pyAssert (!anyNaN p)                                                   -- line 262
  let p ← (if assumeNormalized then pure p else normalizeRowsR L p : Py (Mat ℝ))   -- lines 264-265
  metrics.foldlM (lossStep t.nrows y p method) cols                      -- lines 267-268

/-- `loss_table` (lines 218-269). -/
def lossTableR (t : PredTable ℝ) (y : LabelVec) (metrics : List (Str × Metric)) (assumeNormalized : Bool) :
    Py Paper.LossTable := do
  pyAssert (decide (y.vals.length = t.nrows))                            -- line 251
  pyAssert (decide (1 ≤ t.nrows) && decide (1 ≤ t.labels.length) && decide (1 ≤ t.methods.length))   -- line 252
  let keys := metrics.map fun m => m.1
  let cols ← t.methods.foldlM (lossMethodR L t y metrics assumeNormalized)
    (emptyCols t.nrows (product keys t.methods))                         -- lines 254-268
  return ⟨sortLevel keys, sortLevel t.methods, t.nrows, cols⟩

/-- `JustNoise.fit` (lines 641-648).  The number of samples with a label is an integer and exact. -/
def justNoiseFitR (nLabels : Nat) (pseudoCount : ℝ) (y : LabelVec) : Py (List (Flt ℝ)) := do
  let h ← oneHot y (nLabels : Int)
  let counts := (List.range nLabels).map fun k =>
    L.rnd (pseudoCount + ((h.countP fun row => row.getD k false : Nat) : ℝ))   -- line 645
  let nTotal := L.rnd ((y.vals.length : ℝ) + L.rnd ((nLabels : ℝ) * pseudoCount))   -- line 646
  return counts.map fun c => flogR L (rF L.rnd ((Flt.fin c).div (.fin nTotal)))   -- line 647

variable {D : Type}

/-- `JustNoise` as an estimator (lines 633-653). -/
def justNoiseR (nLabels : Nat) (pseudoCount : ℝ) : Estimator D := fun _ y => do
  let pred ← justNoiseFitR L nLabels pseudoCount y
  return ⟨fun x => do
    let n ← shapeAt x 0                                                  -- line 651
    return justNoisePredict pred n, fun _ => .error .typeError⟩

/-- The part of `train_predict` after fitting (lines 720-726). -/
def predictOfR (f : Fitted D) (xTest : Features D) : Py (Mat ℝ) :=
  match f.predictLogProba xTest with
  | .ok m => .ok m                                                       -- line 721
  | .error _ =>                                                          -- line 722
    match f.predictProba xTest with
    | .ok m => .ok ⟨m.ncols, m.rows.map fun r => r.map (flogR L)⟩        -- line 725
    | .error e => .error e

/-- `train_predict` (lines 717-726), without a checkpoint directory. -/
def trainPredictR (xTrain : Features D) (yTrain : LabelVec) (xTest : Features D) (e : Estimator D) : Py (Mat ℝ) := do
  let f ← e xTrain yTrain                                                -- line 719
  predictOfR L f xTest

/-- The rest of the loop body of `get_pred_log_prob` (lines 734-737), after `train_predict`. -/
def storeProbR (nTest nLabels : Nat) (minLogProb : Flt ℝ) (cols : Cols (Str × Int) ℝ) (name : Str) (p : Mat ℝ) :
    Py (Cols (Str × Int) ℝ) := do
  pyAssert (decide (p.rows.length = nTest) && decide (p.ncols = nLabels))   -- line 734
  let p ← normalizeRowsR L (floorMat minLogProb p)                       -- line 736
  return setBlock cols name p                                            -- line 737

/-- One pass of the loop of `get_pred_log_prob` (lines 730-737). -/
def predStepR (nTest nLabels : Nat) (minLogProb : Flt ℝ) (run : Estimator D → Py (Mat ℝ))
    (cols : Cols (Str × Int) ℝ) (m : Str × Estimator D) : Py (Cols (Str × Int) ℝ) := do
  let p ← run m.2                                                        -- line 733
  storeProbR L nTest nLabels minLogProb cols m.1 p                       -- lines 734-737

/-- `get_pred_log_prob` (lines 656-738) with `checkpointdir=None`. -/
def getPredLogProbR (xTrain : Features D) (yTrain : LabelVec) (xTest : Features D) (nLabels : Nat)
    (methods : List (Str × Estimator D)) (minLogProb : Flt ℝ) : Py (PredTable ℝ) := do
  let nTest ← predChecks xTrain yTrain xTest nLabels minLogProb          -- lines 704-713
  let names := methods.map fun m => m.1
  let cols ← methods.foldlM (predStepR L nTest nLabels minLogProb (trainPredictR L xTrain yTrain xTest))
    (emptyCols nTest (product names (rangeList nLabels)))                -- lines 728-737
  return ⟨sortLevel names, rangeList nLabels, nTest, cols⟩

/-- `summary_table` (lines 527-620). -/
def summaryTableR (other : Interp ℝ) (t : PredTable ℝ) (y : LabelVec) (losses : List (Str × Metric))
    (curves : List (Str × CurveF ℝ)) (refMethod : Str) (xGrid : Option (List (Flt ℝ))) (nBoot : Int) (pairwise : Bool)
    (confidence : Flt ℝ) (methodEB : Paper.EBMethod) (limits : List (Str × (Flt ℝ × Flt ℝ)))
    (curveDraws : BootDraws) (lossDraws : Str → Str → Paper.Draws) : Py (FullTable × CurveDump ℝ) := do
  let c ← curveSummaryTableR L.rnd L.sum other t y curves refMethod xGrid nBoot pairwise confidence curveDraws   -- lines 601-610
  let lossTbl ← lossTableR L t y losses false                            -- line 613
  let l ← lossSummaryTableR L lossTbl refMethod pairwise confidence methodEB limits lossDraws   -- lines 614-616
  return (⟨lossTbl.metrics ++ c.1.curves, lossTbl.methods,
    l ++ (List.range c.1.curves.length).map fun j => c.1.column lossTbl.methods j⟩, c.2)   -- lines 619-620

/-- `STD_BINARY_CURVES` (line 630). -/
def stdBinaryCurvesR : List (Str × CurveF ℝ) :=
  [("AUC".toList, rocCurveR L.rnd L.sum), ("AP".toList, recallPrecisionCurveR L.rnd L.sum),
    ("AUPRG".toList, prgCurveR L.rnd L.sum)]

/-- `just_benchmark` (lines 741-828). -/
def justBenchmarkR (other : Interp ℝ) (xTrain : Features D) (yTrain : LabelVec)
    (xTest : Features D) (yTest : LabelVec) (nLabels : Nat) (methods : List (Str × Estimator D))
    (losses : List (Str × Metric)) (curves : List (Str × CurveF ℝ)) (refMethod : Str) (minPredLogProb : Flt ℝ)
    (pairwise : Bool) (methodEB : Paper.EBMethod) (limits : List (Str × (Flt ℝ × Flt ℝ)))
    (curveDraws : BootDraws) (lossDraws : Str → Str → Paper.Draws) : Py (FullTable × CurveDump ℝ) := do
  pyAssert (decide (yTrain.kind = yTest.kind))                           -- line 823
  let t ← getPredLogProbR L xTrain yTrain xTest nLabels methods minPredLogProb   -- line 824
  summaryTableR L other t yTest losses curves refMethod none 1000 pairwise (.fin (L.rnd (95 / 100))) methodEB limits
    curveDraws lossDraws                                                 -- lines 825-828

end

/-! ## `mlpaper/regression.py` -/

section
open Mlp.Regr

/-- `square_loss` (lines 52-74). -/
def squareLossR : Loss := fun y mu std => do
  let _ ← shapeAndValidate y mu std                                      -- line 72
  return List.zipWith (fun a b => rF L.rnd ((rF L.rnd (Flt.sub a b)).mul (rF L.rnd (Flt.sub a b)))) y.data mu.data   -- line 73

/-- `abs_loss` (lines 77-99). -/
def absLossR : Loss := fun y mu std => do
  let _ ← shapeAndValidate y mu std                                      -- line 97
  return List.zipWith (fun a b => Paper.fabs (rF L.rnd (Flt.sub a b))) y.data mu.data   -- line 98

/-- `log(sqrt(2 pi))`, which scipy 1.1.0 computes with `np.pi`, the float next to pi. -/
def normLogCR : ℝ := L.log (L.sqrt (L.rnd (2 * L.rnd Real.pi)))

/-- `scipy.stats.norm.logpdf(x, loc, scale)` for finite arguments with positive scale. -/
def normLogpdfR (x loc scale : Flt ℝ) : Flt ℝ :=
  let z := rF L.rnd ((rF L.rnd (x.sub loc)).div scale)
  rF L.rnd ((rF L.rnd ((rF L.rnd (((rF L.rnd (z.mul z)).neg).div (.fin 2))).sub (.fin (normLogCR L)))).sub (flogR L scale))

/-- `log_loss` (lines 102-124). -/
def logLossR : Loss := fun y mu std => do
  let _ ← shapeAndValidate y mu std                                      -- line 122
  return List.zipWith (fun (a : Flt ℝ) (ms : Flt ℝ × Flt ℝ) => (normLogpdfR L a ms.1 ms.2).neg) y.data
    (mu.data.zip std.data)                                               -- line 123

/-- `STD_REGR_LOSS` (line 181). -/
def stdRegrLossR : List (Str × Loss) :=
  [("NLL".toList, logLossR L), ("MSE".toList, squareLossR L), ("MAE".toList, absLossR L)]

/-- `np.std(x, ddof=0)`: with an infinity or NaN there is nothing to round. -/
def npStdR (l : List (Flt ℝ)) : Flt ℝ :=
  if l.all fun v => v.isFinite then .fin (L.sqrt (varR L 0 (Paper.finVals l))) else npStd l

/-- `JustNoise.fit` (lines 193-197). -/
def regrNoiseFitR (y : Arr) : Py (Flt ℝ × Flt ℝ) := do
  pyAssert (decide (y.shape.length = 1))                                 -- line 194
  pyAssert (decide (2 ≤ y.data.length))                                  -- line 195
  return (meanFR L y.data, npStdR L y.data)                              -- lines 196-197

variable {D : Type}

/-- `JustNoise` as an estimator (lines 184-204). -/
def regrNoiseR : Estimator D := fun _ y => do
  let ms ← regrNoiseFitR L y
  return ⟨fun x => do
    let n ← Classif.shapeAt x 0                                          -- line 201
    return justNoisePredict ms n, fun _ => .error .typeError⟩

/-- `just_benchmark` (lines 284-357).  `get_gauss_pred` and `loss_table` do no arithmetic of their own. -/
def regrBenchmarkR (trainDtype testDtype : Str) (xTrain : Classif.Features D) (yTrain : Arr) (xTest : Classif.Features D)
    (yTest : Arr) (methods : List (Str × Estimator D)) (losses : List (Str × Loss)) (refMethod : Str) (minStd : Flt ℝ)
    (pairwise : Bool) (methodEB : Paper.EBMethod) (limits : List (Str × (Flt ℝ × Flt ℝ)))
    (draws : Str → Str → Paper.Draws) : Py Classif.FullTable := do
  pyAssert (decide (trainDtype = testDtype))                             -- line 353
  let t ← getGaussPred xTrain yTrain xTest methods minStd                -- line 354
  let tbl ← lossTable t yTest losses                                     -- line 355
  let l ← lossSummaryTableR L tbl refMethod pairwise (.fin (L.rnd (95 / 100))) methodEB limits draws   -- line 356
  return ⟨tbl.metrics, tbl.methods, l⟩

end
end
end Mlp.LossR
