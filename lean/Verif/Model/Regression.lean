import Verif.Model.CurveBoot
import Mathlib.Analysis.SpecialFunctions.Trigonometric.Basic

/-!
# `mlpaper/regression.py`

Line numbers refer to `/repo/mlpaper/regression.py`.  Arrays of numbers are arrays of floats with a shape; integer
arrays are floats too.  Real arithmetic is exact.
-/

namespace Mlp.Regr
open Mlp.Util Mlp.Frame Mlp.Classif

noncomputable section

/-- An array of floats: its shape and its entries in row-major order. -/
structure Arr where
  shape : List Nat
  data : List (Flt ℝ)

/-- The number of entries is the one the shape says. -/
def Arr.Ok (a : Arr) : Prop := a.data.length = a.shape.prod

/-- A one-dimensional array. -/
def Arr.vec (l : List (Flt ℝ)) : Arr := ⟨[l.length], l⟩

/-- `n_samples, = y.shape` (line 37): a ValueError unless there is exactly one dimension. -/
def oneDim (a : Arr) : Py Nat :=
  match a.shape with
  | [n] => .ok n
  | _ => .error .valueError

/-- `np.all(np.isfinite(a))`. -/
def allFinite (a : Arr) : Bool := a.data.all fun v => v.isFinite

/-- `shape_and_validate` (lines 17-44). -/
def shapeAndValidate (y mu std : Arr) : Py Nat := do
  let n ← oneDim y                                                       -- line 37
  pyAssert (decide (1 ≤ n))                                              -- line 38
  pyAssert (allFinite y)                                                 -- line 39
  pyAssert (decide (mu.shape = [n]) && decide (std.shape = [n]))         -- line 41
  pyAssert (allFinite mu && allFinite std)                               -- line 42
  pyAssert (std.data.all fun v => (Flt.fin 0).lt v)                      -- line 43
  return n

/-- A loss function of targets, means and standard deviations. -/
abbrev Loss := Arr → Arr → Arr → Py (List (Flt ℝ))

/-- `square_loss` (lines 52-74). -/
def squareLoss : Loss := fun y mu std => do
  let _ ← shapeAndValidate y mu std                                      -- line 72
  return List.zipWith (fun a b => (Flt.sub a b).mul (Flt.sub a b)) y.data mu.data   -- line 73

/-- `abs_loss` (lines 77-99). -/
def absLoss : Loss := fun y mu std => do
  let _ ← shapeAndValidate y mu std                                      -- line 97
  return List.zipWith (fun a b => Paper.fabs (Flt.sub a b)) y.data mu.data   -- line 98

/-- `scipy.stats.norm.logpdf(x, loc, scale)` for finite arguments with positive scale, the only ones it gets: scipy
standardises, then subtracts half the square, `log(sqrt(2 pi))` and the logarithm of the scale. -/
def normLogpdf (x loc scale : Flt ℝ) : Flt ℝ :=
  let z := (x.sub loc).div scale
  ((((z.mul z).neg).div (.fin 2)).sub (.fin (Real.log (Real.sqrt (2 * Real.pi))))).sub (flog scale)

/-- `log_loss` (lines 102-124). -/
def logLoss : Loss := fun y mu std => do
  let _ ← shapeAndValidate y mu std                                      -- line 122
  return List.zipWith (fun (a : Flt ℝ) (ms : Flt ℝ × Flt ℝ) => (normLogpdf a ms.1 ms.2).neg) y.data
    (mu.data.zip std.data)                                               -- line 123

/-- A table of Gaussian predictions: the column levels (methods, moments), the number of rows and the columns. -/
structure GaussTable where
  methods : List Str
  moments : List Str
  nrows : Nat
  cols : Cols (Str × Str) ℝ

def muName : Str := "mu".toList
def stdName : Str := "std".toList

/-- `pred_tbl[(method, moment)].values` (lines 169-170): a KeyError if there is no such column; if there are several
they form a two-dimensional array. -/
def GaussTable.column (t : GaussTable) (method moment : Str) : Py Arr :=
  match t.cols.filter fun c => decide (c.1 = (method, moment)) with
  | [] => .error .keyError
  | [c] => .ok ⟨[t.nrows], c.2⟩
  | l => .ok ⟨[t.nrows, l.length], l.flatMap (·.2)⟩

/-- The inner loop of `loss_table` (lines 171-172). -/
def lossStep (n : Nat) (y mu std : Arr) (method : Str) (cols : Cols (Str × Str) ℝ) (m : Str × Loss) :
    Py (Cols (Str × Str) ℝ) := do
  let l ← m.2 y mu std
  setCol n cols (m.1, method) l

/-- One pass of the outer loop of `loss_table` (lines 167-172). -/
def lossMethod (t : GaussTable) (y : Arr) (metrics : List (Str × Loss)) (cols : Cols (Str × Str) ℝ) (method : Str) :
    Py (Cols (Str × Str) ℝ) := do
  let mu ← t.column method muName                                        -- line 169
  let std ← t.column method stdName                                      -- line 170
  metrics.foldlM (lossStep t.nrows y mu std method) cols

/-- `loss_table` (lines 132-173). -/
def lossTable (t : GaussTable) (y : Arr) (metrics : List (Str × Loss)) : Py Paper.LossTable := do
  pyAssert (decide (muName ∈ t.moments) && decide (stdName ∈ t.moments)) -- line 160
  pyAssert (decide (y.shape = [t.nrows]))                                -- line 162
  pyAssert (decide (1 ≤ t.nrows) && decide (1 ≤ t.methods.length))       -- line 163
  let keys := metrics.map fun m => m.1
  let cols ← t.methods.foldlM (lossMethod t y metrics) (emptyCols t.nrows (product keys t.methods))   -- lines 165-172
  return ⟨sortLevel keys, sortLevel t.methods, t.nrows, cols⟩

/-- `STD_REGR_LOSS` (line 181). -/
def stdRegrLoss : List (Str × Loss) :=
  [("NLL".toList, logLoss), ("MSE".toList, squareLoss), ("MAE".toList, absLoss)]

/-- `np.sqrt`. -/
def fsqrt : Flt ℝ → Flt ℝ
  | .fin x => if x < 0 then .nan else .fin (Real.sqrt x)
  | .pinf => .pinf
  | .ninf => .nan
  | .nan => .nan

/-- `np.std(x, ddof=0)`: the root of the mean square of the deviations from the mean. -/
def npStd (l : List (Flt ℝ)) : Flt ℝ :=
  fsqrt (Flt.mean (l.map fun v => (Paper.fabs (v.sub (Flt.mean l))).mul (Paper.fabs (v.sub (Flt.mean l)))))

/-- `JustNoise.fit` (lines 193-197): the attributes `mu` and `std`. -/
def justNoiseFit (y : Arr) : Py (Flt ℝ × Flt ℝ) := do
  pyAssert (decide (y.shape.length = 1))                                 -- line 194
  pyAssert (decide (2 ≤ y.data.length))                                  -- line 195
  return (Flt.mean y.data, npStd y.data)                                 -- lines 196-197

/-- `JustNoise.predict` (lines 199-204) for `n` test points with `return_std` true. -/
def justNoisePredict (ms : Flt ℝ × Flt ℝ) (n : Nat) : Arr × Arr :=
  (.vec (List.replicate n ms.1), .vec (List.replicate n ms.2))

variable {D : Type}

/-- A fitted regressor: `predict(X, return_std=True)`, and `predict(X)`. -/
structure Fitted (D : Type) where
  predictStd : Features D → Py (Arr × Arr)
  predict : Features D → Py Arr

/-- A regressor: what `fit` makes of the training data. -/
abbrev Estimator (D : Type) := Features D → Arr → Py (Fitted D)

/-- `JustNoise` as an estimator (lines 184-204).  Its `predict(X)` without `return_std`, which has the default value
True, gives a pair; it is not used since `predict(X, return_std=True)` does not raise a TypeError. -/
def justNoise : Estimator D := fun _ y => do
  let ms ← justNoiseFit y
  return ⟨fun x => do
    let n ← shapeAt x 0                                                  -- line 201
    return justNoisePredict ms n, fun _ => .error .typeError⟩

/-- `np.ones_like(mu)`. -/
def onesLike (a : Arr) : Arr := ⟨a.shape, List.replicate a.data.length (.fin 1)⟩

/-- The part of `train_predict` after fitting (lines 263-267): only a TypeError is caught. -/
def predictOf (f : Fitted D) (xTest : Features D) : Py (Arr × Arr) :=
  match f.predictStd xTest with
  | .ok r => .ok r                                                       -- line 264
  | .error .typeError =>                                                 -- line 265
    match f.predict xTest with
    | .ok mu => .ok (mu, onesLike mu)                                    -- lines 266-267
    | .error e => .error e
  | .error e => .error e

/-- `train_predict` (lines 260-268), without a checkpoint directory. -/
def trainPredict (xTrain : Features D) (yTrain : Arr) (xTest : Features D) (e : Estimator D) : Py (Arr × Arr) := do
  let f ← e xTrain yTrain                                                -- line 262
  predictOf f xTest

/-- The checks of `get_gauss_pred` (lines 250-256); gives the number of test points. -/
def predChecks (xTrain : Features D) (yTrain : Arr) (xTest : Features D) (minStd : Flt ℝ) : Py Nat := do
  let nTest ← shapeAt xTest 0                                            -- line 250
  pyAssert (decide (0 < nTest))                                          -- line 251
  pyAssert (decide (xTrain.shape.length = 2))                            -- line 252
  let nTrain ← shapeAt xTrain 0
  pyAssert (decide (yTrain.shape = [nTrain]))                            -- line 253
  pyAssert (decide (xTest.shape.length = 2))                             -- line 254
  let a ← shapeAt xTest 1
  let b ← shapeAt xTrain 1
  pyAssert (decide (a = b))
  pyAssert (decide (xTrain.kind = xTest.kind))                           -- line 255
  pyAssert ((Flt.fin 0).le minStd)                                       -- line 256
  return nTest

/-- The rest of the loop body of `get_gauss_pred` (lines 276-280), after `train_predict`. -/
def storePred (nTest : Nat) (minStd : Flt ℝ) (cols : Cols (Str × Str) ℝ) (name : Str) (r : Arr × Arr) :
    Py (Cols (Str × Str) ℝ) := do
  pyAssert (decide (r.1.shape = [nTest]) && decide (r.2.shape = [nTest]))   -- line 276
  let std := r.2.data.map fun v => Flt.maximum minStd v                  -- line 278
  let cols ← setCol nTest cols (name, muName) r.1.data                   -- line 279
  setCol nTest cols (name, stdName) std                                  -- line 280

/-- One pass of the loop of `get_gauss_pred` (lines 272-280) with the given way to obtain the predictions. -/
def predStep (nTest : Nat) (minStd : Flt ℝ) (run : Estimator D → Py (Arr × Arr)) (cols : Cols (Str × Str) ℝ)
    (m : Str × Estimator D) : Py (Cols (Str × Str) ℝ) := do
  let r ← run m.2                                                        -- line 275
  storePred nTest minStd cols m.1 r

/-- `get_gauss_pred` (lines 207-281) with `checkpointdir=None`. -/
def getGaussPred (xTrain : Features D) (yTrain : Arr) (xTest : Features D) (methods : List (Str × Estimator D))
    (minStd : Flt ℝ) : Py GaussTable := do
  let nTest ← predChecks xTrain yTrain xTest minStd                      -- lines 250-256
  let names := methods.map fun m => m.1
  let cols ← methods.foldlM (predStep nTest minStd (trainPredict xTrain yTrain xTest))
    (emptyCols nTest (product names [muName, stdName]))                  -- lines 270-280
  return ⟨sortLevel names, sortLevel [muName, stdName], nTest, cols⟩

/-- `just_benchmark` (lines 284-357) with the default confidence 0.95 of `loss_summary_table`.  The dtypes of
the targets, which only the check of line 353 uses, are given by name.  The result has the metrics and methods of the loss table. -/
def justBenchmark (T : Nat → Paper.RefDist) (trainDtype testDtype : Str) (xTrain : Features D) (yTrain : Arr) (xTest : Features D) (yTest : Arr)
    (methods : List (Str × Estimator D)) (losses : List (Str × Loss)) (refMethod : Str) (minStd : Flt ℝ)
    (pairwise : Bool) (methodEB : Paper.EBMethod) (limits : List (Str × (Flt ℝ × Flt ℝ)))
    (draws : Str → Str → Paper.Draws) : Py FullTable := do
  pyAssert (decide (trainDtype = testDtype))                             -- line 353
  let t ← getGaussPred xTrain yTrain xTest methods minStd                -- line 354
  let tbl ← lossTable t yTest losses                                     -- line 355
  let l ← Paper.lossSummaryTable T tbl refMethod pairwise Paper.defaultConfidence methodEB limits draws   -- line 356
  return ⟨tbl.metrics, tbl.methods, l⟩

end
end Mlp.Regr
