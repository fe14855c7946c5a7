import Verif.Model.Regression
import Verif.Spec.Frames
import Verif.Spec.Stats

/-! # Specification vocabulary for regression -/

namespace Mlp.Spec
open Mlp.Regr

/-- Targets and predictions that fit together: vectors of the same length `n ≥ 1` of numbers, the standard deviations
positive. -/
structure RegrInput (y mu std : Arr) (n : Nat) : Prop where
  nonempty : 1 ≤ n
  shapes : y.shape = [n] ∧ mu.shape = [n] ∧ std.shape = [n]
  numbers : ∀ v, v ∈ y.data ∨ v ∈ mu.data ∨ v ∈ std.data → ∃ x : ℝ, v = .fin x
  positive : ∀ v ∈ std.data, Flt.fin 0 < v

/-- The result `L` has one entry for each sample: the number `f` of its target, its mean and its standard deviation. -/
def PerPoint (f : ℝ → ℝ → ℝ → ℝ) (y mu std : Arr) (L : List (Flt ℝ)) : Prop :=
  L.length = y.data.length ∧ ∀ (i : Nat) (a m s : ℝ), y.data[i]? = some (.fin a) → mu.data[i]? = some (.fin m) →
    std.data[i]? = some (.fin s) → L[i]? = some (.fin (f a m s))

/-- The population variance: the mean square deviation from the mean. -/
noncomputable def popVar (xs : List ℝ) : ℝ := sqDev xs / (xs.length : ℝ)

/-- A vector of numbers as an array. -/
noncomputable def realArr (xs : List ℝ) : Arr := ⟨[xs.length], xs.map fun (x : ℝ) => Flt.fin x⟩

/-- The same number `n` times, as an array. -/
noncomputable def constArr (n : Nat) (x : ℝ) : Arr := ⟨[n], List.replicate n (.fin x)⟩

end Mlp.Spec
