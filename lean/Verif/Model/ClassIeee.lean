import Verif.Model.LossRound
import Verif.Model.RegrIeee

/-!
# `normalize` and the Brier loss in IEEE 754 double precision

`normalize` of `mlpaper/util.py` and `brier_loss` of `mlpaper/classification.py` once more, with the smallest and the largest exponent of the
doubles.  Sums are those of the library `L`, whose additions are rounded with gradual underflow; the theorems are about sums of numbers of at most 1,
which do not overflow.
-/

namespace Mlp.ClassI
open Mlp.Util Mlp.PerfR Mlp.PaperR Mlp.CurveR Mlp.LossR Mlp.RegrI Mlp.Classif

noncomputable section
variable (L : Lib ℝ)

/-- `scipy.special.logsumexp` of a row (scipy 1.1.0), used in util.py line 67. -/
def logsumexpI (r : List (Flt ℝ)) : Flt ℝ :=
  let m := if (amax r).isFinite then amax r else .fin 0
  iF ((flogR L (sumFR L.sum (r.map fun v => fexpR L (iF (v.sub m))))).add m)

/-- `normalize` (util.py lines 48-69). -/
def normalizeRowsI (p : Mat ℝ) : Py (Mat ℝ) := do
  pyAssert (decide (1 ≤ p.ncols))                                        -- line 65
  return ⟨p.ncols, p.rows.map fun r => r.map fun v => iF (v.sub (logsumexpI L r))⟩   -- lines 67-68

/-- `(np.exp(v) - k) ** 2` for a log-probability and an entry of a one-hot vector (classification.py line 170). -/
def brierTermI (v : Flt ℝ) (k : Bool) : Flt ℝ :=
  let d := iF ((fexpR L v).sub (boolFlt k))
  iF (d.mul d)

/-- `brier_loss` (classification.py lines 146-175). -/
def brierLossI (rescale : Bool) (y : LabelVec) (logPredProb : Mat ℝ) : Py (List (Flt ℝ)) := do
  let s ← shapeAndValidate y logPredProb                                 -- line 167
  let yBin ← oneHot (asInt y) (s.2 : Int)                                -- line 169
  let loss := List.zipWith (fun (r : List (Flt ℝ)) (b : List Bool) =>
    sumFR L.sum (List.zipWith (brierTermI L) r b)) logPredProb.rows yBin -- line 170
  if rescale && decide (1 < s.2) then                                    -- line 172
    return loss.map fun l => iF ((iF (Flt.fin ((s.2 : ℝ) / ((s.2 : ℝ) - 1)))).mul l)   -- line 174
  else return loss

end
end Mlp.ClassI
