import Verif.Spec.Resample
import Mathlib.MeasureTheory.Measure.Real
import Mathlib.Probability.Independence.Basic

/-! # The ideal bootstrap: infinitely many replicates -/

namespace Mlp.Spec
open MeasureTheory ProbabilityTheory

variable {Ω : Type} [MeasurableSpace Ω]

/-- An endless stream of replicates of an estimate: independent and of the same distribution. -/
structure Replicates (P : Measure Ω) (Z : ℕ → Ω → ℝ) : Prop where
  meas : ∀ i, Measurable (Z i)
  indep : iIndepFun Z P
  same : ∀ i, P.map (Z i) = P.map (Z 0)

/-- The two-sided p-value of the distribution of the replicates for the reference `r`. -/
noncomputable def idealPValue (P : Measure Ω) (Z : Ω → ℝ) (r : ℝ) : ℝ :=
  min 1 (2 * min (P.real {ω | Z ω ≤ r}) (P.real {ω | r ≤ Z ω}))

/-- An endless stream of bootstrap draws from `N` points: independent, and each of the `N ^ N` ways to draw is equally likely. -/
structure DrawStream (P : Measure Ω) {N : ℕ} (D : ℕ → Ω → (Fin N → Fin N)) : Prop where
  meas : ∀ i, Measurable (D i)
  indep : iIndepFun D P
  uniform : ∀ i f, P.real {ω | D i ω = f} = 1 / (N : ℝ) ^ N

/-- The mean of the resample that a draw selects. -/
noncomputable def resampleMean (xs : List ℝ) (f : Fin xs.length → Fin xs.length) : ℝ := (∑ j, xs[f j]) / xs.length

open Classical in
/-- The proportion of the `N ^ N` ways to draw with some property. -/
noncomputable def drawShare {N : ℕ} (p : (Fin N → Fin N) → Prop) : ℝ := ((Finset.univ.filter p).card : ℝ) / (N : ℝ) ^ N

/-- The outcome of the random number generator for `n` replicates: the first `n` draws of the stream. -/
def drawRows {N : ℕ} (D : ℕ → Ω → (Fin N → Fin N)) (n : ℕ) (ω : Ω) : List (List ℕ) := List.ofFn fun i : Fin n => drawCounts (D i ω)

/-- The p-value of the ideal bootstrap of the mean: all `N ^ N` resamples, equally likely, against 0. -/
noncomputable def idealBootP (xs : List ℝ) : ℝ :=
  min 1 (2 * min (drawShare fun f => resampleMean xs f ≤ 0) (drawShare fun f => 0 ≤ resampleMean xs f))

end Mlp.Spec
