import Verif.Model.Flt
import Verif.Lemmas.Flt
import Verif.Spec.Boot
import Mathlib.Analysis.SpecialFunctions.Log.Basic

/-! # Specification vocabulary for rows of log-probabilities -/

namespace Mlp.Spec

/-- The probability a log-probability stands for (`-inf` stands for 0). -/
noncomputable def prob : Flt ℝ → ℝ
  | .fin x => Real.exp x
  | _ => 0

/-- A row of unnormalised log-probabilities with a positive total: numbers or `-inf`, not only `-inf`. -/
def Proper (r : List (Flt ℝ)) : Prop := (∀ v ∈ r, v ≠ .nan ∧ v ≠ .pinf) ∧ ∃ x : ℝ, .fin x ∈ r

/-- The row stands for a probability distribution. -/
def IsDist (r : List (Flt ℝ)) : Prop := (∀ v ∈ r, v ≠ .nan ∧ v ≠ .pinf) ∧ (r.map prob).sum = 1

/-- The row with `c` subtracted from every entry. -/
noncomputable def shiftRow (c : ℝ) (r : List (Flt ℝ)) : List (Flt ℝ) := r.map fun v => v.sub (.fin c)

end Mlp.Spec
