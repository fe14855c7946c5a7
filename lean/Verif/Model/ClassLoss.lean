import Verif.Model.Util
import Mathlib.Analysis.SpecialFunctions.Sqrt

/-!
# Loss functions of `mlpaper/classification.py` (lines 21-210)

Line numbers refer to `/repo/mlpaper/classification.py`.  Vectors of labels are `LabelVec` (the dtype kind
and the values); matrices are `Mat`.  Checks of `ndim` hold by typing, and a matrix is assumed to have
rows of equal length (`Mat.Ok`).  Arithmetic on finite numbers is exact.
-/

namespace Mlp.Classif
open Mlp.Util

section
variable {K : Type}

/-- `shape_and_validate` (lines 21-51).  The number of rows is positive where the minimum and the maximum
of `y` are taken, so these exist, and bounding them is bounding all entries. -/
def shapeAndValidate (y : LabelVec) (logPredProb : Mat K) : Py (Nat × Nat) := do
  let nSamples := logPredProb.rows.length                                -- line 46
  let nLabels := logPredProb.ncols
  pyAssert (decide (1 ≤ nSamples))                                       -- line 47
  pyAssert (decide (1 ≤ nLabels))                                        -- line 48
  pyAssert (decide (y.vals.length = nSamples) &&
    (decide (y.kind = 'b') || decide (y.kind = 'i')))                    -- line 49
  pyAssert ((y.vals.all fun v => decide (0 ≤ v)) &&
    y.vals.all fun v => decide (v < (nLabels : Int)))                    -- line 50
  return (nSamples, nLabels)

/-- `y.astype(int)`. -/
def asInt (y : LabelVec) : LabelVec := ⟨'i', y.vals⟩

/-- Column `j` of a matrix, `m[:, j]` (the index is in range where this is used). -/
def colAt (m : Mat K) (j : Nat) : List (Flt K) := m.rows.map fun r => r.getD j .nan

/-- `m[np.arange(n), idx]`: the entry number `idx[i]` of row `i`. -/
def pick (m : Mat K) (idx : List Int) : Py (List (Flt K)) :=
  (List.zip m.rows idx).mapM fun p => pyIdx p.1 p.2

end

section
variable {K : Type} [Field K] [LinearOrder K]

/-- The loop of `np.argmin`: the position of the first smallest entry, or of the first NaN. -/
def argminLoop (best : Flt K) (bestIdx i : Nat) : List (Flt K) → Nat
  | [] => bestIdx
  | v :: l =>
    if best.isNaN then bestIdx
    else if best.le v then argminLoop best bestIdx (i + 1) l
    else argminLoop v i (i + 1) l

/-- `np.argmin` of a row: a ValueError if it is empty. -/
def argmin : List (Flt K) → Py Nat
  | [] => .error .valueError
  | v :: l => .ok (argminLoop v 0 1 l)

/-- `np.argmin` of a matrix with `axis=1`: a ValueError if there are no columns, even if there are no rows either. -/
def argminRows (m : Mat K) : Py (List Nat) :=
  if m.ncols = 0 then .error .valueError else m.rows.mapM argmin

/-- `np.dot` of a row with a matrix that has as many rows as the row has entries. -/
def dotRow (r : List (Flt K)) (m : Mat K) : List (Flt K) :=
  (List.range m.ncols).map fun a => Flt.sum (List.zipWith Flt.mul r (colAt m a))

/-- `np.dot` of two matrices: a ValueError if the inner sizes differ. -/
def dot (a b : Mat K) : Py (Mat K) :=
  if a.ncols = b.rows.length then .ok ⟨b.ncols, a.rows.map fun r => dotRow r b⟩ else .error .valueError

/-- `1.0 - np.eye(n)` (line 112). -/
def zeroOneMat (n : Nat) : Mat K :=
  ⟨n, (List.range n).map fun i => (List.range n).map fun j => (Flt.fin 1).sub (if i = j then .fin 1 else .fin 0)⟩

/-- True as 1.0 and False as 0.0. -/
def boolFlt (b : Bool) : Flt K := if b then .fin 1 else .fin 0

end

noncomputable section

/-- `np.exp` of a matrix. -/
def expMat (m : Mat ℝ) : Mat ℝ := ⟨m.ncols, m.rows.map fun r => r.map fexp⟩

/-- `hard_loss_decision` (lines 59-82). -/
def hardLossDecision (logPredProb lossMat : Mat ℝ) : Py (List Nat) := do
  let eLoss ← dot (expMat logPredProb) lossMat                           -- lines 79-80
  argminRows eLoss                                                       -- line 81

/-- `hard_loss` (lines 85-121).  The checks of lines 118 and 120 hold by construction. -/
def hardLoss (lossMat : Option (Mat ℝ)) (y : LabelVec) (logPredProb : Mat ℝ) : Py (List (Flt ℝ)) := do
  let s ← shapeAndValidate y logPredProb                                 -- line 111
  let lossMat := lossMat.getD (zeroOneMat s.2)                           -- line 112
  pyAssert (decide (lossMat.rows.length = s.2))                          -- line 113
  pyAssert (decide (1 ≤ lossMat.ncols))                                  -- line 114
  let action ← hardLossDecision logPredProb lossMat                      -- line 116
  (List.zip y.vals action).mapM fun (p : Int × Nat) => do                -- line 119
    let row ← pyIdx lossMat.rows p.1
    pyIdx row (p.2 : Int)

/-- `log_loss` (lines 124-143). -/
def logLoss (y : LabelVec) (logPredProb : Mat ℝ) : Py (List (Flt ℝ)) := do
  let _ ← shapeAndValidate y logPredProb                                 -- line 141
  let v ← pick logPredProb y.vals                                        -- line 142
  return v.map Flt.neg

/-- `brier_loss` (lines 146-175). -/
def brierLoss (rescale : Bool) (y : LabelVec) (logPredProb : Mat ℝ) : Py (List (Flt ℝ)) := do
  let s ← shapeAndValidate y logPredProb                                 -- line 167
  let yBin ← oneHot (asInt y) (s.2 : Int)                                -- line 169
  let loss := List.zipWith (fun (r : List (Flt ℝ)) (b : List Bool) => Flt.sum
    (List.zipWith (fun v (k : Bool) => ((fexp v).sub (boolFlt k)).mul ((fexp v).sub (boolFlt k))) r b))
    logPredProb.rows yBin                                                -- line 170
  if rescale && decide (1 < s.2) then                                    -- line 172
    return loss.map fun l => (Flt.fin ((s.2 : ℝ) / ((s.2 : ℝ) - 1))).mul l   -- line 174
  else return loss

/-- `spherical_loss` (lines 178-210). -/
def sphericalLoss (rescale : Bool) (y : LabelVec) (logPredProb : Mat ℝ) : Py (List (Flt ℝ)) := do
  let s ← shapeAndValidate y logPredProb                                 -- line 199
  let logNormalizer := logPredProb.rows.map fun r =>
    (Flt.fin (1 / 2)).mul (logsumexp (r.map fun v => (Flt.fin 2).mul v)) -- line 201
  let v ← pick logPredProb y.vals
  let loss := List.zipWith (fun a b => (fexp (Flt.sub a b)).neg) v logNormalizer   -- line 203
  if rescale then                                                        -- line 205
    let c : ℝ := if 1 < s.2 then 1 - 1 / Real.sqrt (s.2 : ℝ) else 1      -- line 208
    return loss.map fun l => ((Flt.fin 1).add l).div (.fin c)            -- line 209
  else return loss

end
end Mlp.Classif
