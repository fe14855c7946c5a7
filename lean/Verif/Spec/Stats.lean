import Verif.Model.Mlpaper
import Verif.Spec.Boot

/-! # Specification vocabulary for means, tests and error bars -/

namespace Mlp.Spec
open Mlp.Paper

/-- The plain average. -/
noncomputable def avg (xs : List ℝ) : ℝ := xs.sum / (xs.length : ℝ)

/-- The sum of squared deviations from the average. -/
noncomputable def sqDev (xs : List ℝ) : ℝ := (xs.map fun (x : ℝ) => (x - avg xs) ^ 2).sum

/-- The standard error of the mean: sample standard deviation over root n. -/
noncomputable def stdErr (xs : List ℝ) : ℝ :=
  Real.sqrt (sqDev xs / ((xs.length : ℝ) - 1)) / Real.sqrt (xs.length : ℝ)

/-- What the theorems assume about a reference distribution: symmetric about 0, strictly increasing
distribution function below 1, and the quantile function inverts it on (0,1). -/
structure IsSymmetric (D : RefDist) : Prop where
  strictMono : StrictMono D.cdf
  lt_one : ∀ t, D.cdf t < 1
  symm : ∀ t, D.cdf (-t) = 1 - D.cdf t
  cdf_ppf : ∀ q, 0 < q → q < 1 → D.cdf (D.ppf q) = q

end Mlp.Spec
