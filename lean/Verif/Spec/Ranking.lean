import Mathlib.Probability.Independence.Basic
import Verif.Spec.Curves

/-! # Specification: how well scores rank the cases of two populations -/

namespace Mlp.Spec
open MeasureTheory ProbabilityTheory

variable {S Ω : Type} [MeasurableSpace S] [MeasurableSpace Ω]

/-- The probability that a new positive case has a higher score than a new negative case, ties counting one half. -/
noncomputable def rankProb (pos neg : Measure S) (g : S → ℝ) : ℝ :=
  (pos.prod neg).real {p | g p.2 < g p.1} + (pos.prod neg).real {p | g p.1 = g p.2} / 2

/-- The cases `draw i` of a test set with labels `lab` are drawn independently, the positive ones from the population `pos`, the others from `neg`. -/
structure DrawnCases (P : Measure Ω) (pos neg : Measure S) {n : ℕ} (lab : Fin n → Bool) (draw : Fin n → Ω → S) : Prop where
  meas : ∀ i, Measurable (draw i)
  law : ∀ i, P.map (draw i) = if lab i then pos else neg
  indep : iIndepFun draw P

/-- The number of cases with a label. -/
def numLab {n : ℕ} (lab : Fin n → Bool) (b : Bool) : ℕ := (Finset.univ.filter fun i => lab i = b).card

end Mlp.Spec
