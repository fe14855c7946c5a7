import Verif.Spec.FloatLib
import Verif.Spec.Losses

/-!
# What the theorems on losses in floating point arithmetic ask of the libraries and of the data

None of this says how accurate `np.exp` and `np.log` are, only that they are right at 0 and 1 and on the right side of 1 and 0 elsewhere.
-/

namespace Mlp.Spec
open Mlp.PaperR Mlp.Round

/-- Values and signs of the exponential, the logarithm and the square root. -/
structure GoodExpLog (L : Lib ℝ) : Prop where
  exp_zero : L.exp 0 = 1
  exp_le_one : ∀ x, x ≤ 0 → L.exp x ≤ 1
  log_one : L.log 1 = 0
  log_nonneg : ∀ x, 1 ≤ x → 0 ≤ L.log x
  /-- the root of an integer above 1 is so far above 1 that its inverse is not rounded to 1 -/
  sqrt_nat : ∀ n : Nat, 2 ≤ n → L.rnd (1 / L.sqrt n) < 1

/-- The numbers in the row are floats. -/
def FloatRow (rnd : ℝ → ℝ) (r : List (Flt ℝ)) : Prop := ∀ x : ℝ, .fin x ∈ r → rnd x = x

/-- The entries are numbers up to 0 or `-inf`: log-probabilities of probabilities up to 1. -/
def AtMostZero (r : List (Flt ℝ)) : Prop := ∀ v ∈ r, v = .ninf ∨ ∃ x : ℝ, x ≤ 0 ∧ v = .fin x

/-- The prediction that is certain of label `k`. -/
def Certain (r : List (Flt ℝ)) (k : Nat) : Prop :=
  k < r.length ∧ ∀ j < r.length, r.getD j .nan = if j = k then .fin 0 else .ninf

/-- The prediction that is certain of a label other than `k`. -/
def CertainlyNot (r : List (Flt ℝ)) (k : Nat) : Prop := ∃ j, j ≠ k ∧ Certain r j

/-- The inner product of two vectors of length `n` has an error of at most `g` times the sum of the absolute values of the products, whatever the
order of the additions and with or without fused operations. -/
def DotError (g : ℝ) (n : Nat) (dotR : List ℝ → List ℝ → ℝ) : Prop := ∀ a b : List ℝ, a.length = n → b.length = n →
  |dotR a b - ∑ i ∈ Finset.range n, a.getD i 0 * b.getD i 0| ≤ g * ∑ i ∈ Finset.range n, |a.getD i 0 * b.getD i 0|

end Mlp.Spec
