import Verif.Spec.BenchRisk

/-! # Conclusions that a reader draws from a whole table of results -/

namespace Mlp.Spec

/-- The error bar of the first cell lies entirely below that of the second. -/
def Below (a b : Flt ℝ × Flt ℝ × Flt ℝ) : Prop :=
  ∃ mu e mu' e' : ℝ, a.1 = .fin mu ∧ a.2.1 = .fin e ∧ b.1 = .fin mu' ∧ b.2.1 = .fin e' ∧ mu + e < mu' - e'

/-- The risk `r` exceeds the risk `r'` at most by the sum of the error bars of the two cells. -/
def WithinBars (a b : Flt ℝ × Flt ℝ × Flt ℝ) (r r' : ℝ) : Prop :=
  ∃ e e' : ℝ, a.2.1 = .fin e ∧ b.2.1 = .fin e' ∧ r ≤ r' + e + e'

/-- Two conclusions from the cells shown for the methods in `s`, whose risks are `r`: a method whose error bar lies below that of
another method has the smaller risk; and if a method with the smallest mean is picked, its risk exceeds the risk of every method, so also
the best one, at most by the error bars of the two. -/
def Conclusions (shows : Str → Flt ℝ × Flt ℝ × Flt ℝ → Prop) (s : Finset Str) (r : Str → ℝ) : Prop :=
  (∀ m ∈ s, ∀ m' ∈ s, ∀ a b, shows m a → shows m' b → Below a b → r m < r m') ∧
  ∀ m ∈ s, ∀ a, shows m a → (∀ m' ∈ s, ∀ b, shows m' b → a.1 ≤ b.1) → ∀ m' ∈ s, ∀ b, shows m' b → WithinBars a b (r m) (r m')

/-- With `pairwise_CI`: the mean of the method is below that of the reference by more than the error bar of the method. -/
def Ahead (cell cellRef : Flt ℝ × Flt ℝ × Flt ℝ) : Prop :=
  ∃ mu e muRef : ℝ, cell.1 = .fin mu ∧ cell.2.1 = .fin e ∧ cellRef.1 = .fin muRef ∧ mu + e < muRef

/-- With `pairwise_CI`: the mean of the method is above that of the reference by more than the error bar of the method. -/
def Behind (cell cellRef : Flt ℝ × Flt ℝ × Flt ℝ) : Prop :=
  ∃ mu e muRef : ℝ, cell.1 = .fin mu ∧ cell.2.1 = .fin e ∧ cellRef.1 = .fin muRef ∧ muRef < mu - e

end Mlp.Spec
