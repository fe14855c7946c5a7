import Verif.Model.ClassTable
import Verif.Model.PerfCurves
import Verif.Model.BootUtil

/-!
# Summaries of performance curves in `mlpaper/classification.py` (lines 272-620)

Line numbers refer to `/repo/mlpaper/classification.py`.  The outcome of the multinomial draws of a bootstrap is a
parameter (`counts`, one list for each replicate).  A curve function is any function with the interface of
those in `perf_curves.py`.  The checks of `ndim` hold by typing.
-/

namespace Mlp.Classif
open Mlp.Util Mlp.Frame Mlp.Perf Mlp.Boot

section
variable {K : Type} [Field K] [LinearOrder K] [IsStrictOrderedRing K] [FloorRing K]

/-- A curve function: labels, scores and perhaps weights to a curve and thresholds. -/
abbrev CurveF (K : Type) := List Bool → List (Flt K) → Option (Mat K) → Py (Curve K × List (Flt K))

/-- Interpolation methods of scipy that this package does not use (see `Mlp.Util.interp1d`). -/
abbrev Interp (K : Type) := List (Flt K) → List (Flt K) → List (Flt K) → Py (List (Flt K))

/-- The part of `check_curve` about the grid (lines 308-310). -/
def checkGrid (c : Curve K) : Option (List (Flt K)) → Py Unit
  | none => .ok ()
  | some [] => .error .indexError
  | some (g :: gs) => do
    pyAssert (c.x.rows.all fun r => (r.headD .nan).le g)                 -- line 309
    pyAssert (c.x.rows.all fun r => ((g :: gs).getLastD .nan).le (r.getLastD .nan))   -- line 310

/-- `check_curve` (lines 277-311). -/
def checkCurve (result : Curve K × List (Flt K)) (xGrid : Option (List (Flt K))) : Py (Curve K) := do
  let c := result.1                                                      -- lines 296-297
  pyAssert (decide (c.x.rows.length = c.y.rows.length) && decide (c.x.ncols = c.y.ncols))   -- line 301
  pyAssert (decide (2 ≤ c.x.ncols))                                      -- line 302
  pyAssert (c.x.rows.all fun r => r.all fun v => v.isFinite)             -- line 305
  pyAssert (c.y.rows.all fun r => r.all fun v => v.lt .pinf)             -- line 306
  pyAssert (c.x.rows.all fun r => (diff r).all fun d => (Flt.fin 0).le d)   -- line 307
  checkGrid c xGrid                                                      -- lines 308-310
  return c

/-- `v, = l`: the only element of a list, a ValueError if there is not exactly one. -/
def unpackOne {α : Type} : List α → Py α
  | [a] => .ok a
  | _ => .error .valueError

/-- `np.linspace(0.0, 1.0, 100)` (line 373; `DEFAULT_NGRID` is 100, line 17). -/
def defaultGrid : List (Flt K) := (List.range 100).map fun (i : Nat) => .fin ((i : K) / 99)

/-- `interp1d(x_grid, *curve)`: one interpolation for each row. -/
def interpRows (other : Interp K) (xGrid : List (Flt K)) (c : Curve K) : Py (List (List (Flt K))) :=
  (List.zip c.x.rows c.y.rows).mapM fun r => interp1d other xGrid r.1 r.2 c.kind

/-- The reference of `curve_boot`: the value of the summary, or predictions of another method. -/
inductive RefArg (K : Type) where
  | value (r : Flt K)
  | preds (p : Mat K)

/-- The checks of lines 365 and 366. -/
def RefArg.check (p : Mat K) : RefArg K → Py Unit
  | .value r => pyAssert (!r.isNaN)
  | .preds q => do
    pyAssert (decide (q.rows.length = p.rows.length) && decide (q.ncols = p.ncols))
    pyAssert (!anyNaN q)

/-- `ref_boot` and `ref` (lines 399-404). -/
def refAreas (curveF : CurveF K) (y : List Bool) (weight : Mat K) (nBoot : Int) : RefArg K → Py (Ref K × Flt K)
  | .value r => .ok (.scalar r, r)                                       -- line 399
  | .preds q => do
    let cb ← curveF y (colAt q 1) (some weight)
    let cb ← checkCurve cb none
    let ab ← area cb.x cb.y cb.kind                                      -- line 401
    pyAssert (decide ((ab.length : Int) = nBoot))                        -- line 402
    let c ← curveF y (colAt q 1) none
    let c ← checkCurve c none
    let a ← area c.x c.y c.kind
    let a ← unpackOne a                                                  -- line 403
    return (.paired ab, a)

/-- `auc_boot - ref_boot`. -/
def minusRef (boot : List (Flt K)) : Ref K → List (Flt K)
  | .scalar r => boot.map fun b => b.sub r
  | .paired r => List.zipWith Flt.sub boot r

/-- A row of the curve table: grid point, curve, lower and upper end of the envelope (lines 418-420). -/
abbrev CurveRow (K : Type) := Flt K × Flt K × Flt K × Flt K

/-- `bu.percentile(y_grid_boot, confidence)` (line 417) at each grid point. -/
def envelope (boot : List (List (Flt K))) (nGrid : Nat) (confidence : Flt K) : Py (List (Flt K × Flt K)) :=
  (List.range nGrid).mapM fun j => percentile (boot.map fun r => r.getD j .nan) confidence

/-- `curve_boot` (lines 314-421).  `weight` of `bu.boot_weights` becomes an array of floats. -/
def curveBoot (other : Interp K) (y : LabelVec) (logPredProb : Mat K) (ref : RefArg K) (curveF : CurveF K)
    (xGrid : Option (List (Flt K))) (nBoot : Int) (pairwise : Bool) (confidence : Flt K) (counts : List (List Nat)) :
    Py ((Flt K × Flt K × Flt K) × List (CurveRow K)) := do
  let s ← shapeAndValidate y logPredProb                                 -- line 363
  pyAssert (decide (s.2 = 2))                                            -- line 364
  ref.check logPredProb                                                  -- lines 365-366
  pyAssert (decide (1 ≤ nBoot))                                          -- line 367
  pyAssert (!anyNaN logPredProb)                                         -- line 368
  let grid := xGrid.getD defaultGrid                                     -- line 373
  let yb := y.vals.map fun v => decide (v ≠ 0)                           -- line 377
  let score := colAt logPredProb 1                                       -- line 378
  let c0 ← curveF yb score none
  let c ← checkCurve c0 (some grid)                                      -- line 382
  let a0 ← area c.x c.y c.kind
  let auc ← unpackOne a0                                                 -- line 383
  let g0 ← interpRows other grid c
  let yGrid ← unpackOne g0                                               -- line 385
  pyAssert (decide (yGrid.length = grid.length))                         -- line 386
  let w ← bootWeights (s.1 : Int) nBoot ((1 : K) / 10000000000) counts   -- lines 371, 389
  let weight : Mat K := ⟨s.1, w.map fun r => r.map fun (v : K) => Flt.fin v⟩
  let cb0 ← curveF yb score (some weight)
  let cb ← checkCurve cb0 (some grid)                                    -- line 392
  let aucBoot ← area cb.x cb.y cb.kind                                   -- line 393
  pyAssert (decide ((aucBoot.length : Int) = nBoot))                     -- line 394
  let yGridBoot ← interpRows other grid cb                               -- line 395
  pyAssert (decide ((yGridBoot.length : Int) = nBoot) &&
    yGridBoot.all fun r => decide (r.length = grid.length))              -- line 396
  let r ← refAreas curveF yb weight nBoot ref                            -- lines 398-404
  let EB ← (if pairwise then errorBar (minusRef aucBoot r.1) (auc.sub r.2) confidence
    else errorBar aucBoot auc confidence : Py (Flt K))                   -- lines 407-411
  let pval ← significance aucBoot r.1                                    -- line 412
  let bounds ← envelope yGridBoot grid.length confidence                 -- line 417
  return ((auc, EB, pval), List.zip grid (List.zip yGrid bounds))        -- lines 413, 418-421

/-- Random draws for every method and curve, in the order in which they are taken. -/
abbrev BootDraws := Str → Str → List (List Nat)

/-- The three numbers of a cell of the summary table (lines 518-522). -/
def curveCell (isRef pairwise : Bool) (s : Flt K × Flt K × Flt K) : Flt K × Flt K × Flt K :=
  (s.1, if pairwise && isRef then .nan else s.2.1, if isRef then .nan else s.2.2)

/-- A curve summary table: rows are methods, columns the curves, each cell mean, error and p-value. -/
structure CurveTable (K : Type) where
  curves : List Str
  methods : List Str
  cells : List (List (Flt K × Flt K × Flt K))

/-- The curve dump: a table for each method and curve. -/
abbrev CurveDump (K : Type) := List ((Str × Str) × List (CurveRow K))

/-- The inner loop of `curve_summary_table` (lines 506-523) for one method. -/
def curveMethod (other : Interp K) (t : PredTable K) (y : LabelVec) (refPreds : Mat K) (refMethod : Str)
    (curves : List (Str × CurveF K)) (xGrid : Option (List (Flt K))) (nBoot : Int) (pairwise : Bool)
    (confidence : Flt K) (draws : BootDraws) (method : Str) :
    Py (List ((Flt K × Flt K × Flt K) × ((Str × Str) × List (CurveRow K)))) := do
  let p ← t.matrix method                                                -- lines 502-504
  curves.mapM fun c => do
    let R ← curveBoot other y p (.preds refPreds) c.2 xGrid nBoot pairwise confidence (draws method c.1)   -- lines 507-516
    return (curveCell (decide (method = refMethod)) pairwise R.1, ((method, c.1), R.2))

/-- `curve_summary_table` (lines 424-524). -/
def curveSummaryTable (other : Interp K) (t : PredTable K) (y : LabelVec) (curves : List (Str × CurveF K))
    (refMethod : Str) (xGrid : Option (List (Flt K))) (nBoot : Int) (pairwise : Bool) (confidence : Flt K)
    (draws : BootDraws) : Py (CurveTable K × CurveDump K) := do
  pyAssert (decide (y.vals.length = t.nrows))                            -- line 485
  pyAssert (decide (refMethod ∈ t.methods))                              -- line 486
  pyAssert (decide (1 ≤ t.nrows) && decide (1 ≤ t.labels.length) && decide (1 ≤ curves.length))   -- line 487
  let refPreds ← t.matrix refMethod                                      -- lines 489-491
  let R ← t.methods.mapM
    (curveMethod other t y refPreds refMethod curves xGrid nBoot pairwise confidence draws)
  return (⟨curves.map fun c => c.1, t.methods, R.map fun r => r.map fun c => c.1⟩,
    R.flatMap fun r => r.map fun c => c.2)

/-- The column of curve number `j` for the given methods; a method without a row gets NaN. -/
def CurveTable.column (t : CurveTable K) (methods : List Str) (j : Nat) : List (Flt K × Flt K × Flt K) :=
  methods.map fun m => ((t.cells.getD (t.methods.idxOf m) []).getD j (.nan, .nan, .nan))

end

noncomputable section

/-- A summary table: for each metric (loss or curve) the cells (mean, error, p) of all methods. -/
structure FullTable where
  metrics : List Str
  methods : List Str
  columns : List (List (Flt ℝ × Flt ℝ × Flt ℝ))

/-- `summary_table` (lines 527-620).  `pd.concat(axis=1)` lines up the rows of the two tables by method.  (The
order of the rows is that of the loss table, which is sorted; so it is also the sorted union of the two
indices, which pandas uses should they differ.) -/
def summaryTable (T : Nat → Paper.RefDist) (other : Interp ℝ) (t : PredTable ℝ) (y : LabelVec)
    (losses : List (Str × Metric)) (curves : List (Str × CurveF ℝ)) (refMethod : Str) (xGrid : Option (List (Flt ℝ)))
    (nBoot : Int) (pairwise : Bool) (confidence : Flt ℝ) (methodEB : Paper.EBMethod)
    (limits : List (Str × (Flt ℝ × Flt ℝ))) (curveDraws : BootDraws) (lossDraws : Str → Str → Paper.Draws) :
    Py (FullTable × CurveDump ℝ) := do
  let c ← curveSummaryTable other t y curves refMethod xGrid nBoot pairwise confidence curveDraws   -- lines 601-610
  let lossTbl ← lossTable t y losses false                               -- line 613
  let l ← Paper.lossSummaryTable T lossTbl refMethod pairwise confidence methodEB limits lossDraws   -- lines 614-616
  return (⟨lossTbl.metrics ++ c.1.curves, lossTbl.methods,
    l ++ (List.range c.1.curves.length).map fun j => c.1.column lossTbl.methods j⟩, c.2)   -- lines 619-620

/-- `STD_BINARY_CURVES` (line 630). -/
def stdBinaryCurves : List (Str × CurveF ℝ) :=
  [("AUC".toList, rocCurve), ("AP".toList, recallPrecisionCurve), ("AUPRG".toList, prgCurve)]

/-- `just_benchmark` (lines 741-828) with the default grid (`None`), number of replicates (1000) and confidence
(0.95) of `summary_table`.  A dtype is modelled by its kind. -/
def justBenchmark {D : Type} (T : Nat → Paper.RefDist) (other : Interp ℝ) (xTrain : Features D) (yTrain : LabelVec)
    (xTest : Features D) (yTest : LabelVec) (nLabels : Nat) (methods : List (Str × Estimator D))
    (losses : List (Str × Metric)) (curves : List (Str × CurveF ℝ)) (refMethod : Str) (minPredLogProb : Flt ℝ)
    (pairwise : Bool) (methodEB : Paper.EBMethod) (limits : List (Str × (Flt ℝ × Flt ℝ)))
    (curveDraws : BootDraws) (lossDraws : Str → Str → Paper.Draws) : Py (FullTable × CurveDump ℝ) := do
  pyAssert (decide (yTrain.kind = yTest.kind))                           -- line 823
  let t ← getPredLogProb xTrain yTrain xTest nLabels methods minPredLogProb   -- line 824
  summaryTable T other t yTest losses curves refMethod none 1000 pairwise (.fin (95 / 100)) methodEB limits
    curveDraws lossDraws                                                 -- lines 825-828

end
end Mlp.Classif
