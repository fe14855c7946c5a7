import Verif.Model.CurveBoot
import Verif.Model.BootRound

/-!
# Areas, interpolation and `curve_boot` in floating point arithmetic

The functions of `Verif/Model/Util.lean` (`area`, `interp1d`) and `Verif/Model/CurveBoot.lean` once more, with every arithmetic
operation on floats rounded by `rnd`; `sumR` is `np.sum`, which adds in an order of its own.  Overflow and underflow are
not modelled here; property C127 shows that they do not happen.
-/

namespace Mlp.CurveR
open Mlp.Util Mlp.Frame Mlp.Perf Mlp.PerfR Mlp.Boot Mlp.BootR Mlp.Classif

section
variable {K : Type} [Field K] [LinearOrder K] (rnd : K → K) (sumR : List K → K)

/-- The numbers in a vector of floats. -/
def numbers (l : List (Flt K)) : List K := l.filterMap finPart

/-- `np.sum` of a vector of floats: with an infinity or NaN there is nothing to round. -/
def sumFR (l : List (Flt K)) : Flt K := if l.all fun v => v.isFinite then .fin (sumR (numbers l)) else Flt.sum l

/-- One row of `np.nansum(y_curve[:, :-1] * np.diff(x_curve, axis=1), axis=1)` (util.py line 350); NaN counts as 0. -/
def areaPrevR (x y : List (Flt K)) : Flt K :=
  sumFR sumR ((List.zipWith (fun a d => rF rnd (Flt.mul a d)) y.dropLast (diffFR rnd x)).map fun v =>
    if v.isNaN then .fin 0 else v)

/-- One row of `np.trapz(y_curve, x_curve, axis=1)` (util.py line 352): the sum of `d * (y[1:] + y[:-1]) / 2.0`. -/
def trapzR (x y : List (Flt K)) : Flt K :=
  sumFR sumR (List.zipWith (fun d s => rF rnd ((rF rnd (Flt.mul d s)).div (.fin 2))) (diffFR rnd x)
    (List.zipWith (fun a b => rF rnd (Flt.add a b)) y.tail y.dropLast))

/-- `area` (util.py lines 322-360). -/
def areaR (xCurve yCurve : Mat K) (kind : Kind) : Py (List (Flt K)) := do
  pyAssert (decide (2 ≤ xCurve.ncols))                                   -- line 342
  pyAssert (!(xCurve.rows.any fun r => r.any fun v => v.isNaN))          -- line 343
  pyAssert (decide (yCurve.rows.length = xCurve.rows.length) &&
    decide (yCurve.ncols = xCurve.ncols))                                -- line 344
  pyAssert (!(yCurve.rows.any fun r => r.any fun v => v.isNaN))          -- line 345
  let auc ← (match kind with
    | .previous => pure (List.zipWith (areaPrevR rnd sumR) xCurve.rows yCurve.rows)  -- line 350
    | .linear => pure (List.zipWith (trapzR rnd sumR) xCurve.rows yCurve.rows)       -- line 352
    | _ => .error .notImplemented : Py (List (Flt K)))                   -- line 356
  pyAssert (!(auc.any fun v => v.isNaN))                                 -- line 359
  return auc

/-- `unique_take_last` (util.py lines 148-184). -/
def uniqueTakeLastR {β : Type} (xp : List (Flt K)) (yp : Option (List β)) :
    Py (List (Flt K) × Option (List β)) := do
  pyAssert (!(xp.any fun v => v.isNaN))                                  -- line 173
  pyAssert (match yp with | none => true | some y => decide (xp.length = y.length))   -- line 174
  pyAssert (yp.isNone || !(xp.any fun v => v.isNaN))                     -- line 175
  let deltas := diffFR rnd xp                                            -- line 178
  pyAssert (deltas.all fun d => (Flt.fin 0).le d)                        -- line 179
  let idx := if xp.length = 0 then [] else (deltas.map fun d => (Flt.fin 0).lt d) ++ [true]   -- line 181
  return (mask idx xp, yp.map (mask idx))                                -- lines 182-183

/-- `eval_step_func` (util.py lines 213-266). -/
def evalStepFuncR {β : Type} (argsort : List (Flt K) → List Nat) (xGrid xp : List (Flt K)) (yp : List β)
    (ival : Option β) (assumeSorted skipUniqueChk : Bool) : Py (List β) := do
  pyAssert (decide (xp.length = yp.length))                              -- line 247
  let p ← (if assumeSorted then pure (xp, yp) else do                    -- line 249
    let xs ← takeIdx (argsort xp) xp                                     -- lines 250-251
    let ys ← takeIdx (argsort xp) yp
    return (xs, ys) : Py (List (Flt K) × List β))
  pyAssert (skipUniqueChk || (diffFR rnd p.1).all fun d => (Flt.fin 0).lt d)   -- line 254
  let q ← (match ival with
    | none => do                                                         -- line 256
      if xGrid.length = 0 then pure p else
      let x0 ← pyIdx p.1 0                                               -- line 258
      pyAssert (xGrid.all fun v => x0.le v)
      return p
    | some i => pure (.ninf :: p.1, i :: p.2) : Py (List (Flt K) × List β))   -- lines 261-262
  xGrid.mapM fun v => pyIdx q.2 ((searchRight q.1 v : Int) - 1)          -- lines 264-265

/-- `np.interp` at one point (numpy 1.15): `slope * (x - xp[j]) + yp[j]` with the slope between points `j` and `j+1`. -/
def npInterpR (xp yp : List (Flt K)) (x : Flt K) : Py (Flt K) :=
  if x.isNaN then .ok .nan else
  let n := searchRight xp x
  if n = 0 then pyIdx yp 0 else
  if n = xp.length then pyIdx yp ((n : Int) - 1) else do
  let x0 ← pyIdx xp ((n : Int) - 1)
  let x1 ← pyIdx xp (n : Int)
  let y0 ← pyIdx yp ((n : Int) - 1)
  let y1 ← pyIdx yp (n : Int)
  let slope := rF rnd ((rF rnd (y1.sub y0)).div (rF rnd (x1.sub x0)))
  return rF rnd ((rF rnd (slope.mul (rF rnd (x.sub x0)))).add y0)

/-- `scipy.interpolate.interp1d(xp, yp, kind="linear", assume_sorted=True)(x_grid)` (scipy 1.1.0). -/
def scipyLinearR (xGrid xp yp : List (Flt K)) : Py (List (Flt K)) := do
  let r ← xGrid.mapM fun v => npInterpR rnd xp yp v
  let x0 ← pyIdx xp 0
  let xn ← pyIdx xp (-1)
  if xGrid.any fun v => v.lt x0 then .error .valueError else
  if xGrid.any fun v => xn.lt v then .error .valueError else
  return r

/-- `_interp1d` (util.py lines 269-315). -/
def interp1dR (scipyOther : List (Flt K) → List (Flt K) → List (Flt K) → Py (List (Flt K)))
    (xGrid xp yp : List (Flt K)) (kind : Kind) : Py (List (Flt K)) := do
  pyAssert (decide (xp.length = yp.length))                              -- line 295
  pyAssert (decide (2 ≤ xp.length))                                      -- line 296
  pyAssert ((diffFR rnd xp).all fun d => (Flt.fin 0).le d)               -- line 297
  match kind with
  | .previous => do                                                      -- line 299
    let r ← uniqueTakeLastR rnd xp (some yp)                             -- line 302
    evalStepFuncR rnd (fun _ => []) xGrid r.1 (r.2.getD []) none true false   -- line 303
  | .next => .error .notImplemented                                      -- line 307
  | .linear => scipyLinearR rnd xGrid xp yp                              -- lines 313-314
  | .other => scipyOther xGrid xp yp

end

section
variable {K : Type} [Field K] [LinearOrder K] [IsStrictOrderedRing K] [FloorRing K] (rnd : K → K) (sumR : List K → K)

/-- `check_curve` (classification.py lines 277-311). -/
def checkCurveR (result : Curve K × List (Flt K)) (xGrid : Option (List (Flt K))) : Py (Curve K) := do
  let c := result.1                                                      -- lines 296-297
  pyAssert (decide (c.x.rows.length = c.y.rows.length) && decide (c.x.ncols = c.y.ncols))   -- line 301
  pyAssert (decide (2 ≤ c.x.ncols))                                      -- line 302
  pyAssert (c.x.rows.all fun r => r.all fun v => v.isFinite)             -- line 305
  pyAssert (c.y.rows.all fun r => r.all fun v => v.lt .pinf)             -- line 306
  pyAssert (c.x.rows.all fun r => (diffFR rnd r).all fun d => (Flt.fin 0).le d)   -- line 307
  checkGrid c xGrid                                                      -- lines 308-310
  return c

/-- `np.linspace(0.0, 1.0, 100)` (line 373): numpy multiplies `0 ... 99` with the step, adds the start and sets the last entry to
the stop. -/
def defaultGridR : List (Flt K) :=
  ((List.range 99).map fun (i : Nat) => .fin (rnd (rnd ((i : K) * rnd (1 / 99)) + 0))) ++ [.fin 1]

/-- `interp1d(x_grid, *curve)`: one interpolation for each row. -/
def interpRowsR (other : Interp K) (xGrid : List (Flt K)) (c : Curve K) : Py (List (List (Flt K))) :=
  (List.zip c.x.rows c.y.rows).mapM fun r => interp1dR rnd other xGrid r.1 r.2 c.kind

/-- `ref_boot` and `ref` (lines 399-404). -/
def refAreasR (curveF : CurveF K) (y : List Bool) (weight : Mat K) (nBoot : Int) : RefArg K → Py (Ref K × Flt K)
  | .value r => .ok (.scalar r, r)                                       -- line 399
  | .preds q => do
    let cb ← curveF y (colAt q 1) (some weight)
    let cb ← checkCurveR rnd cb none
    let ab ← areaR rnd sumR cb.x cb.y cb.kind                            -- line 401
    pyAssert (decide ((ab.length : Int) = nBoot))                        -- line 402
    let c ← curveF y (colAt q 1) none
    let c ← checkCurveR rnd c none
    let a ← areaR rnd sumR c.x c.y c.kind
    let a ← unpackOne a                                                  -- line 403
    return (.paired ab, a)

/-- `auc_boot - ref_boot`. -/
def minusRefR (boot : List (Flt K)) : Ref K → List (Flt K)
  | .scalar r => boot.map fun b => rF rnd (b.sub r)
  | .paired r => List.zipWith (fun a b => rF rnd (Flt.sub a b)) boot r

/-- `bu.percentile(y_grid_boot, confidence)` (line 417) at each grid point. -/
def envelopeR (boot : List (List (Flt K))) (nGrid : Nat) (confidence : Flt K) : Py (List (Flt K × Flt K)) :=
  (List.range nGrid).mapM fun j => percentileR rnd (boot.map fun r => r.getD j .nan) confidence

/-- `curve_boot` (lines 314-421). -/
def curveBootR (other : Interp K) (y : LabelVec) (logPredProb : Mat K) (ref : RefArg K) (curveF : CurveF K)
    (xGrid : Option (List (Flt K))) (nBoot : Int) (pairwise : Bool) (confidence : Flt K) (counts : List (List Nat)) :
    Py ((Flt K × Flt K × Flt K) × List (CurveRow K)) := do
  let s ← shapeAndValidate y logPredProb                                 -- line 363
  pyAssert (decide (s.2 = 2))                                            -- line 364
  ref.check logPredProb                                                  -- lines 365-366
  pyAssert (decide (1 ≤ nBoot))                                          -- line 367
  pyAssert (!anyNaN logPredProb)                                         -- line 368
  let grid := xGrid.getD (defaultGridR rnd)                              -- line 373
  let yb := y.vals.map fun v => decide (v ≠ 0)                           -- line 377
  let score := colAt logPredProb 1                                       -- line 378
  let c0 ← curveF yb score none
  let c ← checkCurveR rnd c0 (some grid)                                 -- line 382
  let a0 ← areaR rnd sumR c.x c.y c.kind
  let auc ← unpackOne a0                                                 -- line 383
  let g0 ← interpRowsR rnd other grid c
  let yGrid ← unpackOne g0                                               -- line 385
  pyAssert (decide (yGrid.length = grid.length))                         -- line 386
  let w ← bootWeights (s.1 : Int) nBoot (rnd ((1 : K) / 10000000000)) counts   -- lines 371, 389
  let weight : Mat K := ⟨s.1, w.map fun r => r.map fun (v : K) => Flt.fin v⟩
  let cb0 ← curveF yb score (some weight)
  let cb ← checkCurveR rnd cb0 (some grid)                               -- line 392
  let aucBoot ← areaR rnd sumR cb.x cb.y cb.kind                         -- line 393
  pyAssert (decide ((aucBoot.length : Int) = nBoot))                     -- line 394
  let yGridBoot ← interpRowsR rnd other grid cb                          -- line 395
  pyAssert (decide ((yGridBoot.length : Int) = nBoot) &&
    yGridBoot.all fun r => decide (r.length = grid.length))              -- line 396
  let r ← refAreasR rnd sumR curveF yb weight nBoot ref                  -- lines 398-404
  let EB ← (if pairwise then errorBarR rnd (minusRefR rnd aucBoot r.1) (rF rnd (auc.sub r.2)) confidence
    else errorBarR rnd aucBoot auc confidence : Py (Flt K))              -- lines 407-411
  let pval ← significanceR rnd aucBoot r.1                               -- line 412
  let bounds ← envelopeR rnd yGridBoot grid.length confidence            -- line 417
  return ((auc, EB, pval), List.zip grid (List.zip yGrid bounds))        -- lines 413, 418-421

/-- The inner loop of `curve_summary_table` (lines 506-523) for one method. -/
def curveMethodR (other : Interp K) (t : PredTable K) (y : LabelVec) (refPreds : Mat K) (refMethod : Str)
    (curves : List (Str × CurveF K)) (xGrid : Option (List (Flt K))) (nBoot : Int) (pairwise : Bool)
    (confidence : Flt K) (draws : BootDraws) (method : Str) :
    Py (List ((Flt K × Flt K × Flt K) × ((Str × Str) × List (CurveRow K)))) := do
  let p ← t.matrix method                                                -- lines 502-504
  curves.mapM fun c => do
    let R ← curveBootR rnd sumR other y p (.preds refPreds) c.2 xGrid nBoot pairwise confidence (draws method c.1)   -- lines 507-516
    return (curveCell (decide (method = refMethod)) pairwise R.1, ((method, c.1), R.2))

/-- `curve_summary_table` (lines 424-524). -/
def curveSummaryTableR (other : Interp K) (t : PredTable K) (y : LabelVec) (curves : List (Str × CurveF K))
    (refMethod : Str) (xGrid : Option (List (Flt K))) (nBoot : Int) (pairwise : Bool) (confidence : Flt K)
    (draws : BootDraws) : Py (CurveTable K × CurveDump K) := do
  pyAssert (decide (y.vals.length = t.nrows))                            -- line 485
  pyAssert (decide (refMethod ∈ t.methods))                              -- line 486
  pyAssert (decide (1 ≤ t.nrows) && decide (1 ≤ t.labels.length) && decide (1 ≤ curves.length))   -- line 487
  let refPreds ← t.matrix refMethod                                      -- lines 489-491
  let R ← t.methods.mapM
    (curveMethodR rnd sumR other t y refPreds refMethod curves xGrid nBoot pairwise confidence draws)
  return (⟨curves.map fun c => c.1, t.methods, R.map fun r => r.map fun c => c.1⟩,
    R.flatMap fun r => r.map fun c => c.2)

end
end Mlp.CurveR
