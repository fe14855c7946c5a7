import Verif.Spec.Ranking

/-! # Specification: how many test points have changed -/

namespace Mlp.Spec

open Classical in
/-- The number of positions in which two lists differ. -/
noncomputable def changes {α : Type} (l l' : List α) : ℕ := (List.zip l l').countP fun p => decide (p.1 ≠ p.2)

open Classical in
/-- The number of cases with label `b` that have another score. -/
noncomputable def rescored {n : ℕ} (lab : Fin n → Bool) (s s' : Fin n → ℝ) (b : Bool) : ℕ :=
  (Finset.univ.filter fun i => lab i = b ∧ s i ≠ s' i).card

end Mlp.Spec
