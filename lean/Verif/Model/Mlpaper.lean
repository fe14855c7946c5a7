import Verif.Model.BootUtil
import Verif.Model.ClipChk
import Mathlib.Analysis.SpecialFunctions.Log.Basic
import Mathlib.Analysis.SpecialFunctions.Sqrt
import Mathlib.Algebra.Order.Archimedean.Real.Basic

/-!
# `mlpaper/mlpaper.py`

Line numbers refer to `/repo/mlpaper/mlpaper.py`.  A float is a `Flt ℝ`: special values are explicit,
arithmetic on finite numbers is exact.  The outcome of the random number generator is a parameter.
The reference distribution of the t-test is a parameter (`RefDist`), one for each number of degrees
of freedom.  Assertions about `ndim` hold by typing (a vector is a list).
-/

namespace Mlp.Paper

section general
variable {K : Type} [Field K] [LinearOrder K]

/-- `clip_EB` (lines 19-63). -/
def clipEB (mu EB lower upper minEB : Flt K) : Py (Flt K) := do
  pyAssert ((Flt.fin 0).le (upper.sub lower))                            -- line 49
  pyAssert ((Flt.fin 0).le minEB && minEB.lt .pinf)                      -- line 51
  if mu.lt lower || upper.lt mu then .error .valueError else             -- line 54
  if (upper.sub lower).lt ((Flt.fin 2).mul minEB) then .error .valueError else   -- line 56
  let trivialEB := Flt.fmax (upper.sub mu) (mu.sub lower)                -- line 60
  pyAssert (!(trivialEB.lt minEB))                                       -- line 61
  return EB.clip minEB trivialEB                                         -- line 62

/-- The numbers of a vector (used after the code has checked that all entries are finite). -/
def finVals (x : List (Flt K)) : List K :=
  x.filterMap fun v => match v with
    | .fin r => some r
    | _ => none

/-- `len(x) <= 1 or not np.all(np.isfinite(x))` (lines 82, 118, 161, 239, 258). -/
def uninformative (x : List (Flt K)) : Bool :=
  decide (x.length ≤ 1) || !(x.all fun v => v.isFinite)

/-- `np.all(lower <= x) and np.all(x <= upper)`. -/
def within (lower upper : Flt K) (x : List (Flt K)) : Bool :=
  (x.all fun v => lower.le v) && (x.all fun v => v.le upper)

/-- `np.mean` of a vector of numbers. -/
def meanK (xs : List K) : K := xs.sum / (xs.length : K)

/-- `np.var` of a vector of numbers with the given `ddof`. -/
def varK (ddof : K) (xs : List K) : K :=
  (xs.map fun (x : K) => (x - meanK xs) ^ 2).sum / ((xs.length : K) - ddof)

/-- `np.abs` of a float. -/
def fabs : Flt K → Flt K
  | .fin x => .fin |x|
  | .ninf => .pinf
  | v => v

end general

/-- A continuous reference distribution: distribution function and quantile function. -/
structure RefDist where
  cdf : ℝ → ℝ
  ppf : ℝ → ℝ

noncomputable section

/-- The survival function `sf` at a float. -/
def RefDist.sf (D : RefDist) : Flt ℝ → Flt ℝ
  | .fin t => .fin (1 - D.cdf t)
  | .pinf => .fin 0
  | .ninf => .fin 1
  | .nan => .nan

/-- `t_test` (lines 66-93).  `ss.ttest_1samp(x, 0.0)` is written out: the statistic is
`mean / sqrt(var(ddof=1)/n)` with float division and the p-value is `2*sf(|t|)`.  `T df` is the
t distribution with `df` degrees of freedom. -/
def tTest (T : Nat → RefDist) (x : List (Flt ℝ)) : Py (Flt ℝ) := do
  pyAssert (!(x.any fun v => v.isNaN))                                   -- line 80
  if uninformative x then return .fin 1 else                             -- line 82
  let xs := finVals x
  let t := (Flt.fin (meanK xs - 0)).div (.fin (Real.sqrt (varK 1 xs / xs.length)))
  let pval := ((T (xs.length - 1)).sf (fabs t)).mul (.fin 2)             -- line 85
  let pval ← (if pval.isNaN then do                                      -- line 86
      pyAssert (decide (varK 1 xs ≤ 1 / 10 ^ 100))                       -- line 88
      return (if meanK xs = 0 then Flt.fin 1 else .fin 0)                -- line 91
    else pure pval : Py (Flt ℝ))
  pyAssert ((Flt.fin 0).le pval && pval.le (.fin 1))                     -- line 92
  return pval

/-- `0.0 < confidence and confidence < 1.0` (lines 115 and 236). -/
def confOk (confidence : Flt ℝ) : Bool := (Flt.fin 0).lt confidence && confidence.lt (.fin 1)

/-- The number a float stands for (only used for a confidence that passed `confOk`). -/
def realOf : Flt ℝ → ℝ
  | .fin x => x
  | _ => 0

/-- `t_EB` (lines 96-127).  `ss.t.interval(c, df)` is `(ppf((1-c)/2), ppf((1+c)/2))`; `ss.sem(x)` is
`std(ddof=1)/sqrt(n)`. -/
def tEB (T : Nat → RefDist) (x : List (Flt ℝ)) (confidence : Flt ℝ) : Py (Flt ℝ) := do
  pyAssert (!(x.any fun v => v.isNaN))                                   -- line 113
  pyAssert (confOk confidence)                                           -- line 115
  if uninformative x then return .pinf else                              -- line 118
  let xs := finVals x
  let c := realOf confidence
  let LB := (T (xs.length - 1)).ppf ((1 - c) / 2)                        -- line 122
  let UB := (T (xs.length - 1)).ppf ((1 + c) / 2)
  pyAssert (decide (¬ UB < LB))                                          -- line 123
  let sem := Real.sqrt (varK 1 xs) / Real.sqrt xs.length
  let EB := (1 / 2) * sem * (UB - LB)                                    -- line 125
  pyAssert (decide (0 ≤ EB))                                             -- line 126
  return .fin EB

/-- `np.roots([a, b, c])` for `a ≠ 0`, `none` if the roots are not real. -/
def quadRoots (a b c : ℝ) : Option (ℝ × ℝ) :=
  if b ^ 2 - 4 * a * c < 0 then none
  else some ((-b - Real.sqrt (b ^ 2 - 4 * a * c)) / (2 * a),
    (-b + Real.sqrt (b ^ 2 - 4 * a * c)) / (2 * a))

/-- `bernstein_test` (lines 130-190). -/
def bernsteinTest (x : List (Flt ℝ)) (lower upper : Flt ℝ) : Py (Flt ℝ) := do
  pyAssert (!(x.any fun v => v.isNaN))                                   -- line 155
  pyAssert ((Flt.fin 0).le (upper.sub lower))                            -- line 158
  pyAssert (within lower upper x)                                        -- line 159
  if uninformative x then return .fin 1 else                             -- line 161
  match upper.sub lower with
  | .fin R =>
    if R = 0 then return .fin 1 else do                                  -- line 163
    let xs := finVals x
    let N : ℝ := xs.length                                               -- line 171
    let mu := meanK xs
    let std := Real.sqrt (varK 0 xs)
    -- line 175; the coefficients are finite (line 176)
    match quadRoots (3 * R / N) (std * Real.sqrt (2 / N)) (-|mu|) with   -- line 177
    | none => .error .assertion                                          -- line 179
    | some (r₁, r₂) => do
      pyAssert (decide (r₁ ≤ 0) || decide (r₂ ≤ 0))                      -- line 182
      pyAssert (decide (0 ≤ r₁) || decide (0 ≤ r₂))                      -- line 183
      let B := (max r₁ r₂) ^ 2                                           -- line 184
      let delta := 3 * Real.exp (-B)                                     -- line 187
      let pval := min 1 delta                                            -- line 188
      pyAssert (decide (0 ≤ pval) && decide (pval ≤ 1))                  -- line 189
      return .fin pval
  | _ => return .fin 1                                                   -- line 163: range is inf

/-- `bernstein_EB` (lines 193-247). -/
def bernsteinEB (x : List (Flt ℝ)) (lower upper : Flt ℝ) (confidence : Flt ℝ) : Py (Flt ℝ) := do
  pyAssert (!(x.any fun v => v.isNaN))                                   -- line 230
  pyAssert ((Flt.fin 0).le (upper.sub lower))                            -- line 233
  pyAssert (within lower upper x)                                        -- line 234
  pyAssert (confOk confidence)                                           -- line 236
  if uninformative x then return upper.sub lower else                    -- line 239
  let xs := finVals x
  let N : ℝ := xs.length
  let delta := 1 - realOf confidence                                     -- line 243
  let A := Real.log (3 / delta)                                          -- line 244
  let EB := (Flt.fin (Real.sqrt (varK 0 xs) * Real.sqrt (2 * A / N))).add
    (((Flt.fin (3 * A)).mul (upper.sub lower)).div (.fin N))             -- line 245
  pyAssert ((Flt.fin 0).le EB)                                           -- line 246
  return EB

/-- `_boot_EB_and_test` (lines 250-275).  `counts` is the outcome of the multinomial draws. -/
def bootEBTest (x : List (Flt ℝ)) (confidence : Flt ℝ) (nBoot : Nat) (counts : List (List Nat))
    (returnEB returnTest returnCI : Bool) : Py (Flt ℝ × Flt ℝ × (Flt ℝ × Flt ℝ)) := do
  pyAssert (!(x.any fun v => v.isNaN))                                   -- line 254
  if uninformative x then return (.pinf, .fin 1, (.ninf, .pinf)) else    -- line 258
  let xs := finVals x
  let weight ← Boot.bootWeights (K := ℝ) xs.length nBoot 0 counts        -- line 261
  let muBoot := weight.map fun (w : List ℝ) =>
    Flt.fin (meanK (List.zipWith (fun (a b : ℝ) => a * b) xs w))         -- line 262
  let pval ← (if returnTest then Boot.significance muBoot (.scalar (.fin 0))
    else pure (.fin 1) : Py (Flt ℝ))                                     -- line 264
  let EB ← (if returnEB then Boot.errorBar muBoot (.fin (meanK xs)) confidence
    else pure .pinf : Py (Flt ℝ))                                        -- lines 266-269
  let CI ← (if returnCI then Boot.percentile muBoot confidence
    else pure (.ninf, .pinf) : Py (Flt ℝ × Flt ℝ))                       -- lines 272-274
  return (EB, pval, CI)

/-- The default `confidence=0.95`. -/
def defaultConfidence : Flt ℝ := .fin (95 / 100)

/-- `N_BOOT` (line 12). -/
def defaultNBoot : Nat := 1000

/-- `boot_test` (lines 278-296). -/
def bootTest (x : List (Flt ℝ)) (nBoot : Nat) (counts : List (List Nat)) : Py (Flt ℝ) := do
  let r ← bootEBTest x defaultConfidence nBoot counts false true false
  pyAssert ((Flt.fin 0).le r.2.1 && r.2.1.le (.fin 1))                   -- line 295
  return r.2.1

/-- `boot_EB` (lines 299-320). -/
def bootEB (x : List (Flt ℝ)) (confidence : Flt ℝ) (nBoot : Nat) (counts : List (List Nat)) :
    Py (Flt ℝ) := do
  let r ← bootEBTest x confidence nBoot counts true false false
  pyAssert ((Flt.fin 0).le r.1)                                          -- line 319
  return r.1

/-- The `method` strings. -/
inductive EBMethod where
  | t
  | bernstein
  | boot
  | other
  deriving DecidableEq

/-- `get_mean_and_EB` (lines 323-365). -/
def getMeanEB (T : Nat → RefDist) (x : List (Flt ℝ)) (confidence minEB lower upper : Flt ℝ)
    (method : EBMethod) (counts : List (List Nat)) : Py (Flt ℝ × Flt ℝ) := do
  pyAssert (within lower upper x)                                        -- line 351
  let EB ← (match method with
    | .t => tEB T x confidence                                           -- line 354
    | .bernstein => bernsteinEB x lower upper confidence                 -- line 356
    | .boot => bootEB x confidence defaultNBoot counts                   -- line 358
    | .other => .error .assertion : Py (Flt ℝ))                          -- line 360
  let mu ← Util.clipChk (Flt.mean x) lower upper                         -- line 363
  let EB ← clipEB mu EB lower upper minEB                                -- line 364
  return (mu, EB)

/-- `get_test` (lines 368-398). -/
def getTest (T : Nat → RefDist) (x : List (Flt ℝ)) (lower upper : Flt ℝ) (method : EBMethod)
    (counts : List (List Nat)) : Py (Flt ℝ) :=
  match method with
  | .t => tTest T x                                                      -- line 391
  | .bernstein => bernsteinTest x lower upper                            -- line 393
  | .boot => bootTest x defaultNBoot counts                              -- line 395
  | .other => .error .assertion                                          -- line 397

/-- `get_mean_EB_test` (lines 401-449). -/
def getMeanEBTest (T : Nat → RefDist) (x : List (Flt ℝ)) (confidence minEB lower upper : Flt ℝ)
    (method : EBMethod) (counts : List (List Nat)) : Py (Flt ℝ × Flt ℝ × Flt ℝ) := do
  pyAssert (within lower upper x)                                        -- line 433
  let r ← (match method with
    | .t => do
      let EB ← tEB T x confidence                                        -- line 436
      let pval ← tTest T x                                               -- line 437
      return (EB, pval)
    | .bernstein => do
      let EB ← bernsteinEB x lower upper confidence                      -- line 439
      let pval ← bernsteinTest x lower upper                             -- line 440
      return (EB, pval)
    | .boot => do
      let r ← bootEBTest x confidence defaultNBoot counts true true false   -- line 442
      return (r.1, r.2.1)
    | .other => .error .assertion : Py (Flt ℝ × Flt ℝ))                  -- line 444
  let mu ← Util.clipChk (Flt.mean x) lower upper                         -- line 447
  let EB ← clipEB mu r.1 lower upper minEB                               -- line 448
  return (mu, EB, r.2)

/-- A loss table: the two levels of its column index (sorted, without repetition), the number of
rows and the columns with their (metric, method) labels. -/
structure LossTable where
  metrics : List Str
  methods : List Str
  nrows : Nat
  cols : List ((Str × Str) × List (Flt ℝ))

/-- `loss_table.loc[:, (metric, method)].values` followed by the check that it is one column: no such
column is a KeyError, several are a two-dimensional array (lines 511-512, 516-517). -/
def LossTable.column (tbl : LossTable) (metric method : Str) : Py (List (Flt ℝ)) :=
  match tbl.cols.filter fun c => decide (c.1 = (metric, method)) with
  | [] => .error .keyError
  | [c] => .ok c.2
  | _ => .error .assertion

/-- `limits.get(metric, (-inf, inf))` (line 509) for a dictionary given as a list of items. -/
def limitsGet (limits : List (Str × (Flt ℝ × Flt ℝ))) (metric : Str) : Flt ℝ × Flt ℝ :=
  ((limits.find? fun p => decide (p.1 = metric)).map (·.2)).getD (.ninf, .pinf)

/-- The outcomes of the random number generator while one cell of the table is computed: for the
error bar and for the test.  (With `pairwise_CI` only the first is used.) -/
structure Draws where
  eb : List (List Nat)
  test : List (List Nat)

/-- One cell of `loss_summary_table` (lines 515-538). -/
def lossCell (T : Nat → RefDist) (lossRef : List (Flt ℝ)) (tbl : LossTable) (refMethod : Str)
    (pairwise : Bool) (confidence : Flt ℝ) (methodEB : EBMethod) (lower upper : Flt ℝ) (metric : Str)
    (draws : Draws) (method : Str) : Py (Flt ℝ × Flt ℝ × Flt ℝ) := do
  let loss ← tbl.column metric method                                    -- lines 516-517
  pyAssert (!(loss.any fun v => v.isNaN))                                -- line 518
  pyAssert (within lower upper loss)                                     -- line 519
  let mu := Flt.mean loss                                                -- line 521
  let deltas := List.zipWith Flt.sub loss lossRef                        -- line 523
  let range := upper.sub lower                                           -- line 524
  let self := decide (method = refMethod)                                -- line 525
  if pairwise then                                                       -- line 528
    if self then return (mu, .nan, .nan) else do
    let r ← getMeanEBTest T deltas confidence (.fin 0) range.neg range methodEB draws.eb   -- line 530
    return (mu, r.2.1, r.2.2)
  else do
    let r ← getMeanEB T loss confidence (.fin 0) lower upper methodEB draws.eb   -- line 532
    pyAssert (r.1.eq mu)                                                 -- line 533
    let pval ← (if self then pure .nan                                   -- line 534
      else getTest T deltas range.neg range methodEB draws.test : Py (Flt ℝ))   -- line 535
    return (mu, r.2, pval)

/-- `loss_summary_table` (lines 457-539).  The result lists, for each metric, the (mean, error, p)
triples of all methods.  The check of the column names (line 499) holds by typing. -/
def lossSummaryTable (T : Nat → RefDist) (tbl : LossTable) (refMethod : Str) (pairwise : Bool)
    (confidence : Flt ℝ) (methodEB : EBMethod) (limits : List (Str × (Flt ℝ × Flt ℝ)))
    (draws : Str → Str → Draws) : Py (List (List (Flt ℝ × Flt ℝ × Flt ℝ))) := do
  pyAssert (decide (refMethod ∈ tbl.methods))                            -- line 501
  pyAssert (decide (1 ≤ tbl.nrows) && decide (1 ≤ tbl.metrics.length))   -- line 502
  tbl.metrics.mapM fun metric => do                                      -- line 508
    let lim := limitsGet limits metric                                   -- line 509
    pyAssert (lim.1.le lim.2)                                            -- line 510
    let lossRef ← tbl.column metric refMethod                            -- lines 511-512
    pyAssert (!(lossRef.any fun v => v.isNaN))                           -- line 513
    pyAssert (within lim.1 lim.2 lossRef)                                -- line 514
    tbl.methods.mapM fun method =>                                       -- line 515
      lossCell T lossRef tbl refMethod pairwise confidence methodEB lim.1 lim.2 metric
        (draws metric method) method

end
end Mlp.Paper
