import Verif.Model.LossRound
import Verif.Model.Ieee

/-!
# Losses of regressors in IEEE 754 double precision

The losses of `mlpaper/regression.py` once more, with the smallest and the largest exponent of the doubles: a result that is too large becomes
an infinity, and the rest of the computation goes on with it.
-/

namespace Mlp.RegrI
open Mlp.Regr Mlp.PaperR Mlp.LossR Mlp.Round

noncomputable section

/-- The result of an elementary operation of numpy, from the exact one. -/
def iF : Flt ℝ → Flt ℝ
  | .fin x => ieee64 x
  | v => v

/-- `square_loss` (regression.py lines 52-74). -/
def squareLossI : Loss := fun y mu std => do
  let _ ← shapeAndValidate y mu std                                      -- line 72
  return List.zipWith (fun a b => iF ((iF (Flt.sub a b)).mul (iF (Flt.sub a b)))) y.data mu.data   -- line 73

/-- `abs_loss` (regression.py lines 77-99). -/
def absLossI : Loss := fun y mu std => do
  let _ ← shapeAndValidate y mu std                                      -- line 97
  return List.zipWith (fun a b => Paper.fabs (iF (Flt.sub a b))) y.data mu.data   -- line 98

variable (L : Lib ℝ)

/-- `scipy.stats.norm.logpdf(x, loc, scale)` (scipy 1.1.0), used in regression.py line 123, for finite arguments with positive scale.  `np.log` and
the constant `log(sqrt(2 pi))`, which scipy computes when it is imported, are those of the library `L`. -/
def normLogpdfI (x loc scale : Flt ℝ) : Flt ℝ :=
  let z := iF ((iF (x.sub loc)).div scale)
  iF ((iF ((iF (((iF (z.mul z)).neg).div (.fin 2))).sub (.fin (normLogCR L)))).sub (flogR L scale))

/-- `log_loss` (regression.py lines 102-124). -/
def logLossI : Loss := fun y mu std => do
  let _ ← shapeAndValidate y mu std                                      -- line 122
  return List.zipWith (fun (a : Flt ℝ) (ms : Flt ℝ × Flt ℝ) => (normLogpdfI L a ms.1 ms.2).neg) y.data
    (mu.data.zip std.data)                                               -- line 123

/-- `STD_REGR_LOSS` (regression.py line 181). -/
def stdRegrLossI : List (Str × Loss) :=
  [("NLL".toList, logLossI L), ("MSE".toList, squareLossI), ("MAE".toList, absLossI)]

end
end Mlp.RegrI
