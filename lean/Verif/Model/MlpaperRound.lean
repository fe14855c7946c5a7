import Verif.Model.Mlpaper
import Verif.Model.BootRound

/-!
# `mlpaper/mlpaper.py` in floating point arithmetic

The functions of `Verif/Model/Mlpaper.lean` once more, with every arithmetic operation on floats rounded.
Line numbers refer to `/repo/mlpaper/mlpaper.py`.  Overflow and underflow are not modelled here; they are the subject of
properties C128 and C129.
-/

namespace Mlp.PaperR
open Mlp.Paper Mlp.PerfR Mlp.BootR

/-- The library functions that `mlpaper.py` calls, as floating point functions: the rounding of elementary operations,
`np.sum`, `np.sqrt`, `np.log`, `np.exp`, `np.roots` for a quadratic polynomial (`none` if the roots are not
real), `ss.t.interval` and `ss.t.sf` with the degrees of freedom first. -/
structure Lib (K : Type) where
  rnd : K → K
  sum : List K → K
  sqrt : K → K
  log : K → K
  exp : K → K
  roots : K → K → K → Option (K × K)
  tInterval : Nat → K → K × K
  tSf : Nat → Flt K → Flt K

section
variable {K : Type} [Field K] [LinearOrder K] [IsStrictOrderedRing K] [FloorRing K] (L : Lib K)

/-- `np.isclose(a, b)` with the default tolerances. -/
def iscloseR (a b : Flt K) : Bool :=
  match a, b with
  | .fin x, .fin y => allcloseR L.rnd x y
  | a, b => a.eq b

/-- `clip_chk` (util.py lines 14-18) for a scalar. -/
def clipChkR (a lo hi : Flt K) : Py (Flt K) := do
  let c := a.clip lo hi                                                  -- line 15
  pyAssert (a.eq c || iscloseR L a lo || iscloseR L a hi)                -- line 17
  return c

/-- `clip_EB` (lines 19-63). -/
def clipEBR (mu EB lower upper minEB : Flt K) : Py (Flt K) := do
  pyAssert ((Flt.fin 0).le (rF L.rnd (upper.sub lower)))                 -- line 49
  pyAssert ((Flt.fin 0).le minEB && minEB.lt .pinf)                      -- line 51
  if mu.lt lower || upper.lt mu then .error .valueError else             -- line 54
  if (rF L.rnd (upper.sub lower)).lt (rF L.rnd ((Flt.fin 2).mul minEB)) then .error .valueError else   -- line 56
  let trivialEB := Flt.fmax (rF L.rnd (upper.sub mu)) (rF L.rnd (mu.sub lower))   -- line 60
  pyAssert (!(trivialEB.lt minEB))                                       -- line 61
  return EB.clip minEB trivialEB                                         -- line 62

/-- `np.mean` of a vector of numbers. -/
def meanR (xs : List K) : K := L.rnd (L.sum xs / (xs.length : K))

/-- `np.mean` of a vector of floats: with an infinity or NaN there is nothing to round. -/
def meanFR (x : List (Flt K)) : Flt K :=
  if x.all fun v => v.isFinite then rF L.rnd ((Flt.fin (L.sum (finVals x))).div (.fin (x.length : K))) else Flt.mean x

/-- `np.var` of a vector of numbers with the given `ddof`: numpy subtracts the mean, squares, adds and divides. -/
def varR (ddof : K) (xs : List K) : K :=
  L.rnd (L.sum (xs.map fun (x : K) => L.rnd (L.rnd (x - meanR L xs) * L.rnd (x - meanR L xs))) /
    ((xs.length : K) - ddof))

/-- `t_test` (lines 66-93). -/
def tTestR (x : List (Flt K)) : Py (Flt K) := do
  pyAssert (!(x.any fun v => v.isNaN))                                   -- line 80
  if uninformative x then return .fin 1 else                             -- line 82
  let xs := finVals x
  let t := rF L.rnd ((Flt.fin (L.rnd (meanR L xs - 0))).div
    (.fin (L.sqrt (L.rnd (varR L 1 xs / xs.length)))))
  let pval := rF L.rnd ((L.tSf (xs.length - 1) (fabs t)).mul (.fin 2))   -- line 85
  let pval ← (if pval.isNaN then do                                      -- line 86
      pyAssert (decide (varR L 1 xs ≤ L.rnd (1 / 10 ^ 100)))             -- line 88
      return (if meanR L xs = 0 then Flt.fin 1 else .fin 0)              -- line 91
    else pure pval : Py (Flt K))
  pyAssert ((Flt.fin 0).le pval && pval.le (.fin 1))                     -- line 92
  return pval

/-- `0.0 < confidence and confidence < 1.0` (lines 115 and 236). -/
def confOkR (confidence : Flt K) : Bool := (Flt.fin 0).lt confidence && confidence.lt (.fin 1)

/-- The number a float stands for (only used for a confidence that passed `confOkR`). -/
def numOf : Flt K → K
  | .fin x => x
  | _ => 0

/-- `t_EB` (lines 96-127). -/
def tEBR (x : List (Flt K)) (confidence : Flt K) : Py (Flt K) := do
  pyAssert (!(x.any fun v => v.isNaN))                                   -- line 113
  pyAssert (confOkR confidence)                                          -- line 115
  if uninformative x then return .pinf else                              -- line 118
  let xs := finVals x
  let I := L.tInterval (xs.length - 1) (numOf confidence)                -- line 122
  pyAssert (decide (¬ I.2 < I.1))                                        -- line 123
  let sem := L.rnd (L.sqrt (varR L 1 xs) / L.sqrt xs.length)
  let EB := L.rnd (L.rnd ((1 / 2) * sem) * L.rnd (I.2 - I.1))            -- line 125
  pyAssert (decide (0 ≤ EB))                                             -- line 126
  return .fin EB

/-- `bernstein_test` (lines 130-190). -/
def bernsteinTestR (x : List (Flt K)) (lower upper : Flt K) : Py (Flt K) := do
  pyAssert (!(x.any fun v => v.isNaN))                                   -- line 155
  pyAssert ((Flt.fin 0).le (rF L.rnd (upper.sub lower)))                 -- lines 157-158
  pyAssert (within lower upper x)                                        -- line 159
  if uninformative x then return .fin 1 else                             -- line 161
  match rF L.rnd (upper.sub lower) with
  | .fin R =>
    if R = 0 then return .fin 1 else do                                  -- line 163
    let xs := finVals x
    let N : K := xs.length                                               -- line 171
    let mu := meanR L xs
    let std := L.sqrt (varR L 0 xs)
    -- line 175; the coefficients are finite (line 176)
    match L.roots (L.rnd (L.rnd (3 * R) / N)) (L.rnd (std * L.sqrt (L.rnd (2 / N)))) (-|mu|) with   -- line 177
    | none => .error .assertion                                          -- line 179
    | some (r₁, r₂) => do
      pyAssert (decide (r₁ ≤ 0) || decide (r₂ ≤ 0))                      -- line 182
      pyAssert (decide (0 ≤ r₁) || decide (0 ≤ r₂))                      -- line 183
      let B := L.rnd ((max r₁ r₂) * (max r₁ r₂))                         -- line 184
      let delta := L.rnd (3 * L.exp (-B))                                -- line 187
      let pval := min 1 delta                                            -- line 188
      pyAssert (decide (0 ≤ pval) && decide (pval ≤ 1))                  -- line 189
      return .fin pval
  | _ => return .fin 1                                                   -- line 163: range is inf

/-- `bernstein_EB` (lines 193-247). -/
def bernsteinEBR (x : List (Flt K)) (lower upper : Flt K) (confidence : Flt K) : Py (Flt K) := do
  pyAssert (!(x.any fun v => v.isNaN))                                   -- line 230
  pyAssert ((Flt.fin 0).le (rF L.rnd (upper.sub lower)))                 -- lines 232-233
  pyAssert (within lower upper x)                                        -- line 234
  pyAssert (confOkR confidence)                                          -- line 236
  if uninformative x then return rF L.rnd (upper.sub lower) else         -- line 239
  let xs := finVals x
  let N : K := xs.length
  let delta := L.rnd (1 - numOf confidence)                              -- line 243
  let A := L.log (L.rnd (3 / delta))                                     -- line 244
  let EB := rF L.rnd ((Flt.fin (L.rnd (L.sqrt (varR L 0 xs) * L.sqrt (L.rnd (L.rnd (2 * A) / N))))).add
    (rF L.rnd ((rF L.rnd ((Flt.fin (L.rnd (3 * A))).mul (rF L.rnd (upper.sub lower)))).div (.fin N))))   -- line 245
  pyAssert ((Flt.fin 0).le EB)                                           -- line 246
  return EB

/-- `_boot_EB_and_test` (lines 250-275).  `counts` is the outcome of the multinomial draws. -/
def bootEBTestR (x : List (Flt K)) (confidence : Flt K) (nBoot : Nat) (counts : List (List Nat))
    (returnEB returnTest returnCI : Bool) : Py (Flt K × Flt K × (Flt K × Flt K)) := do
  pyAssert (!(x.any fun v => v.isNaN))                                   -- line 254
  if uninformative x then return (.pinf, .fin 1, (.ninf, .pinf)) else    -- line 258
  let xs := finVals x
  let weight ← Boot.bootWeights (K := K) xs.length nBoot 0 counts        -- line 261
  let muBoot := weight.map fun (w : List K) =>
    Flt.fin (meanR L (List.zipWith (fun (a b : K) => L.rnd (a * b)) xs w))   -- line 262
  let pval ← (if returnTest then significanceR L.rnd muBoot (.scalar (.fin 0))
    else pure (.fin 1) : Py (Flt K))                                     -- line 264
  let EB ← (if returnEB then errorBarR L.rnd muBoot (.fin (meanR L xs)) confidence
    else pure .pinf : Py (Flt K))                                        -- lines 266-269
  let CI ← (if returnCI then percentileR L.rnd muBoot confidence
    else pure (.ninf, .pinf) : Py (Flt K × Flt K))                       -- lines 272-274
  return (EB, pval, CI)

/-- `boot_test` (lines 278-296).  The confidence is not used. -/
def bootTestR (x : List (Flt K)) (nBoot : Nat) (counts : List (List Nat)) : Py (Flt K) := do
  let r ← bootEBTestR L x (.fin (L.rnd (95 / 100))) nBoot counts false true false
  pyAssert ((Flt.fin 0).le r.2.1 && r.2.1.le (.fin 1))                   -- line 295
  return r.2.1

/-- `boot_EB` (lines 299-320). -/
def bootEBR (x : List (Flt K)) (confidence : Flt K) (nBoot : Nat) (counts : List (List Nat)) : Py (Flt K) := do
  let r ← bootEBTestR L x confidence nBoot counts true false false
  pyAssert ((Flt.fin 0).le r.1)                                          -- line 319
  return r.1

/-- `get_mean_and_EB` (lines 323-365). -/
def getMeanEBR (x : List (Flt K)) (confidence minEB lower upper : Flt K)
    (method : EBMethod) (counts : List (List Nat)) : Py (Flt K × Flt K) := do
  pyAssert (within lower upper x)                                        -- line 351
  let EB ← (match method with
    | .t => tEBR L x confidence                                          -- line 354
    | .bernstein => bernsteinEBR L x lower upper confidence              -- line 356
    | .boot => bootEBR L x confidence defaultNBoot counts                -- line 358
    | .other => .error .assertion : Py (Flt K))                          -- line 360
  let mu ← clipChkR L (meanFR L x) lower upper                           -- line 363
  let EB ← clipEBR L mu EB lower upper minEB                             -- line 364
  return (mu, EB)

/-- `get_test` (lines 368-398). -/
def getTestR (x : List (Flt K)) (lower upper : Flt K) (method : EBMethod) (counts : List (List Nat)) : Py (Flt K) :=
  match method with
  | .t => tTestR L x                                                     -- line 391
  | .bernstein => bernsteinTestR L x lower upper                         -- line 393
  | .boot => bootTestR L x defaultNBoot counts                           -- line 395
  | .other => .error .assertion                                          -- line 397

/-- `get_mean_EB_test` (lines 401-449). -/
def getMeanEBTestR (x : List (Flt K)) (confidence minEB lower upper : Flt K)
    (method : EBMethod) (counts : List (List Nat)) : Py (Flt K × Flt K × Flt K) := do
  pyAssert (within lower upper x)                                        -- line 433
  let r ← (match method with
    | .t => do
      let EB ← tEBR L x confidence                                       -- line 436
      let pval ← tTestR L x                                              -- line 437
      return (EB, pval)
    | .bernstein => do
      let EB ← bernsteinEBR L x lower upper confidence                   -- line 439
      let pval ← bernsteinTestR L x lower upper                          -- line 440
      return (EB, pval)
    | .boot => do
      let r ← bootEBTestR L x confidence defaultNBoot counts true true false   -- line 442
      return (r.1, r.2.1)
    | .other => .error .assertion : Py (Flt K × Flt K))                  -- line 444
  let mu ← clipChkR L (meanFR L x) lower upper                           -- line 447
  let EB ← clipEBR L mu r.1 lower upper minEB                            -- line 448
  return (mu, EB, r.2)

/-- One cell of `loss_summary_table` for the losses of a method and of the reference (lines 518-538). -/
def cellOfR (loss lossRef : List (Flt K)) (self pairwise : Bool) (confidence : Flt K) (methodEB : EBMethod)
    (lower upper : Flt K) (draws : Draws) : Py (Flt K × Flt K × Flt K) := do
  pyAssert (!(loss.any fun v => v.isNaN))                                -- line 518
  pyAssert (within lower upper loss)                                     -- line 519
  let mu := meanFR L loss                                                -- line 521
  let deltas := List.zipWith (fun a b => rF L.rnd (Flt.sub a b)) loss lossRef   -- line 523
  let range := rF L.rnd (upper.sub lower)                                -- line 524
  if pairwise then                                                       -- line 528
    if self then return (mu, .nan, .nan) else do
    let r ← getMeanEBTestR L deltas confidence (.fin 0) range.neg range methodEB draws.eb   -- line 530
    return (mu, r.2.1, r.2.2)
  else do
    let r ← getMeanEBR L loss confidence (.fin 0) lower upper methodEB draws.eb   -- line 532
    pyAssert (r.1.eq mu)                                                 -- line 533
    let pval ← (if self then pure .nan                                   -- line 534
      else getTestR L deltas range.neg range methodEB draws.test : Py (Flt K))   -- line 535
    return (mu, r.2, pval)

end

noncomputable section

/-- One cell of `loss_summary_table` (lines 515-538). -/
def lossCellR (L : Lib ℝ) (lossRef : List (Flt ℝ)) (tbl : LossTable) (refMethod : Str)
    (pairwise : Bool) (confidence : Flt ℝ) (methodEB : EBMethod) (lower upper : Flt ℝ) (metric : Str)
    (draws : Draws) (method : Str) : Py (Flt ℝ × Flt ℝ × Flt ℝ) := do
  let loss ← tbl.column metric method                                    -- lines 516-517
  cellOfR L loss lossRef (decide (method = refMethod)) pairwise confidence methodEB lower upper draws

/-- `loss_summary_table` (lines 457-539). -/
def lossSummaryTableR (L : Lib ℝ) (tbl : LossTable) (refMethod : Str) (pairwise : Bool)
    (confidence : Flt ℝ) (methodEB : EBMethod) (limits : List (Str × (Flt ℝ × Flt ℝ)))
    (draws : Str → Str → Draws) : Py (List (List (Flt ℝ × Flt ℝ × Flt ℝ))) := do
  pyAssert (decide (refMethod ∈ tbl.methods))                            -- line 501
  pyAssert (decide (1 ≤ tbl.nrows) && decide (1 ≤ tbl.metrics.length))   -- line 502
  tbl.metrics.mapM fun metric => do                                      -- line 508
    let lim := limitsGet limits metric                                   -- line 509
    pyAssert (lim.1.le lim.2)                                            -- line 510
    let lossRef ← tbl.column metric refMethod                            -- lines 511-512
    pyAssert (!(lossRef.any fun v => v.isNaN))                           -- line 513
    pyAssert (within lim.1 lim.2 lossRef)                                -- line 514
    tbl.methods.mapM fun method =>                                       -- line 515
      lossCellR L lossRef tbl refMethod pairwise confidence methodEB lim.1 lim.2 metric
        (draws metric method) method

end
end Mlp.PaperR
