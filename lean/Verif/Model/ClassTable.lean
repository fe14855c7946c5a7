import Verif.Model.Frame
import Verif.Model.ClassLoss

/-!
# Loss tables and prediction tables of `mlpaper/classification.py` (lines 218-269 and 633-738)

Line numbers refer to `/repo/mlpaper/classification.py`.  A dictionary is the list of its items in order; its keys
are distinct.
-/

namespace Mlp.Classif
open Mlp.Util Mlp.Frame

noncomputable section

/-- A loss function: labels and log-probabilities to one loss for each sample. -/
abbrev Metric := LabelVec → Mat ℝ → Py (List (Flt ℝ))

/-- `np.any(np.isnan(m))`. -/
def anyNaN {K : Type} (m : Mat K) : Bool := m.rows.any fun r => r.any fun v => v.isNaN

/-- One pass of the inner loop of `loss_table` (lines 267-268). -/
def lossStep (n : Nat) (y : LabelVec) (p : Mat ℝ) (method : Str) (cols : Cols (Str × Str) ℝ) (m : Str × Metric) :
    Py (Cols (Str × Str) ℝ) := do
  let l ← m.2 y p
  setCol n cols (m.1, method) l

/-- One pass of the outer loop of `loss_table` (lines 256-268). -/
def lossMethod (t : PredTable ℝ) (y : LabelVec) (metrics : List (Str × Metric)) (assumeNormalized : Bool)
    (cols : Cols (Str × Str) ℝ) (method : Str) : Py (Cols (Str × Str) ℝ) := do
  let p ← t.matrix method                                                -- lines 258-261
  pyAssert (!anyNaN p)                                                   -- line 262
  let p ← (if assumeNormalized then pure p else normalizeRows p : Py (Mat ℝ))   -- lines 264-265
  metrics.foldlM (lossStep t.nrows y p method) cols                      -- lines 267-268

/-- `loss_table` (lines 218-269). -/
def lossTable (t : PredTable ℝ) (y : LabelVec) (metrics : List (Str × Metric)) (assumeNormalized : Bool) :
    Py Paper.LossTable := do
  pyAssert (decide (y.vals.length = t.nrows))                            -- line 251
  pyAssert (decide (1 ≤ t.nrows) && decide (1 ≤ t.labels.length) && decide (1 ≤ t.methods.length))   -- line 252
  let keys := metrics.map fun m => m.1
  let cols ← t.methods.foldlM (lossMethod t y metrics assumeNormalized)
    (emptyCols t.nrows (product keys t.methods))                         -- lines 254-268
  return ⟨sortLevel keys, sortLevel t.methods, t.nrows, cols⟩

/-- `STD_CLASS_LOSS` (line 628). -/
def stdClassLoss : List (Str × Metric) :=
  [("NLL".toList, logLoss), ("Brier".toList, brierLoss true), ("sphere".toList, sphericalLoss true),
    ("zero_one".toList, hardLoss none)]

/-- `JustNoise.fit` (lines 641-648) of an object with `nLabels` labels: the log-probabilities `self.pred`.  The
check of line 648 holds by construction. -/
def justNoiseFit (nLabels : Nat) (pseudoCount : ℝ) (y : LabelVec) : Py (List (Flt ℝ)) := do
  let h ← oneHot y (nLabels : Int)
  let counts := (List.range nLabels).map fun k =>
    pseudoCount + ((h.countP fun row => row.getD k false : Nat) : ℝ)     -- line 645
  let nTotal := (y.vals.length : ℝ) + (nLabels : ℝ) * pseudoCount        -- line 646
  return counts.map fun c => flog ((Flt.fin c).div (.fin nTotal))        -- line 647

/-- `JustNoise.predict_log_proba` (lines 650-653) for `nTest` test points. -/
def justNoisePredict (pred : List (Flt ℝ)) (nTest : Nat) : Mat ℝ := ⟨pred.length, List.replicate nTest pred⟩

/-- An array of features: its shape, the kind of its dtype, and its contents, which only the estimators look
at. -/
structure Features (D : Type) where
  shape : List Nat
  kind : Char
  data : D

/-- A fitted estimator: its two prediction methods (one of which may fail, for instance because it does not
exist). -/
structure Fitted (D : Type) where
  predictLogProba : Features D → Py (Mat ℝ)
  predictProba : Features D → Py (Mat ℝ)

/-- An estimator: what `fit` makes of the training data. -/
abbrev Estimator (D : Type) := Features D → LabelVec → Py (Fitted D)

variable {D : Type}

/-- `X.shape[i]`. -/
def shapeAt (x : Features D) (i : Nat) : Py Nat :=
  match x.shape[i]? with
  | some n => .ok n
  | none => .error .indexError

/-- `JustNoise` as an estimator (lines 633-653).  It has no `predict_proba` (the class of the exception does not
matter, since `predict_log_proba` does not fail). -/
def justNoise (nLabels : Nat) (pseudoCount : ℝ) : Estimator D := fun _ y => do
  let pred ← justNoiseFit nLabels pseudoCount y
  return ⟨fun x => do
    let n ← shapeAt x 0                                                  -- line 651
    return justNoisePredict pred n, fun _ => .error .typeError⟩

/-- `np.log` of a matrix. -/
def logMat (m : Mat ℝ) : Mat ℝ := ⟨m.ncols, m.rows.map fun r => r.map flog⟩

/-- The part of `train_predict` after fitting (lines 720-726). -/
def predictOf (f : Fitted D) (xTest : Features D) : Py (Mat ℝ) :=
  match f.predictLogProba xTest with
  | .ok m => .ok m                                                       -- line 721
  | .error _ =>                                                          -- line 722
    match f.predictProba xTest with
    | .ok m => .ok (logMat m)                                            -- line 725
    | .error e => .error e

/-- `train_predict` (lines 717-726), without a checkpoint directory. -/
def trainPredict (xTrain : Features D) (yTrain : LabelVec) (xTest : Features D) (e : Estimator D) : Py (Mat ℝ) := do
  let f ← e xTrain yTrain                                                -- line 719
  predictOf f xTest

/-- The bounds of the labels (line 710): the minimum of nothing is a ValueError. -/
def labelBounds (y : LabelVec) (nLabels : Nat) : Py Unit :=
  match y.vals with
  | [] => .error .valueError
  | l => pyAssert ((l.all fun v => decide (0 ≤ v)) && l.all fun v => decide (v < (nLabels : Int)))

/-- The checks of lines 704-713 of `get_pred_log_prob`; gives the number of test points. -/
def predChecks (xTrain : Features D) (yTrain : LabelVec) (xTest : Features D) (nLabels : Nat) (minLogProb : Flt ℝ) :
    Py Nat := do
  let nTest ← shapeAt xTest 0                                            -- line 704
  pyAssert (decide (0 < nTest))                                          -- line 705
  pyAssert (decide (2 ≤ xTrain.shape.length))                            -- line 707
  let nTrain ← shapeAt xTrain 0
  pyAssert (decide (yTrain.vals.length = nTrain))                        -- line 708
  pyAssert (decide (yTrain.kind = 'b') || decide (yTrain.kind = 'i'))    -- line 709
  labelBounds yTrain nLabels                                             -- line 710
  pyAssert (decide (xTest.shape.length = xTrain.shape.length))           -- line 711
  let a ← shapeAt xTest 1
  let b ← shapeAt xTrain 1
  pyAssert (decide (a = b))
  pyAssert (decide (xTrain.kind = xTest.kind))                           -- line 712
  pyAssert (minLogProb.lt (.fin 0))                                      -- line 713
  return nTest

/-- `np.maximum(c, m)`. -/
def floorMat (c : Flt ℝ) (m : Mat ℝ) : Mat ℝ := ⟨m.ncols, m.rows.map fun r => r.map fun v => Flt.maximum c v⟩

/-- `log_pred_prob_table.loc[:, method_name] = m` (line 737): the columns of the method get the columns of the
matrix.  Labels are `0, 1, ...`, so the place of a column among those of its method is its label. -/
def setBlock {K : Type} (cols : Cols (Str × Int) K) (method : Str) (m : Mat K) : Cols (Str × Int) K :=
  cols.map fun c => if c.1.1 = method then (c.1, colAt m c.1.2.toNat) else c

/-- The rest of the loop body of `get_pred_log_prob` (lines 734-737), after `train_predict`. -/
def storeProb (nTest nLabels : Nat) (minLogProb : Flt ℝ) (cols : Cols (Str × Int) ℝ) (name : Str) (p : Mat ℝ) :
    Py (Cols (Str × Int) ℝ) := do
  pyAssert (decide (p.rows.length = nTest) && decide (p.ncols = nLabels))   -- line 734
  let p ← normalizeRows (floorMat minLogProb p)                          -- line 736
  return setBlock cols name p                                            -- line 737

/-- One pass of the loop of `get_pred_log_prob` (lines 730-737) with the given way to obtain the predictions of a
method. -/
def predStep (nTest nLabels : Nat) (minLogProb : Flt ℝ) (run : Estimator D → Py (Mat ℝ))
    (cols : Cols (Str × Int) ℝ) (m : Str × Estimator D) : Py (Cols (Str × Int) ℝ) := do
  let p ← run m.2                                                        -- line 733
  storeProb nTest nLabels minLogProb cols m.1 p                          -- lines 734-737

/-- `get_pred_log_prob` (lines 656-738) with `checkpointdir=None`. -/
def getPredLogProb (xTrain : Features D) (yTrain : LabelVec) (xTest : Features D) (nLabels : Nat)
    (methods : List (Str × Estimator D)) (minLogProb : Flt ℝ) : Py (PredTable ℝ) := do
  let nTest ← predChecks xTrain yTrain xTest nLabels minLogProb          -- lines 704-713
  let names := methods.map fun m => m.1
  let cols ← methods.foldlM (predStep nTest nLabels minLogProb (trainPredict xTrain yTrain xTest))
    (emptyCols nTest (product names (rangeList nLabels)))                -- lines 728-737
  return ⟨sortLevel names, rangeList nLabels, nTest, cols⟩

end
end Mlp.Classif
