import Verif.Spec.Ieee
import Verif.Model.Ieee
import Verif.Model.MlpaperRound

/-!
# What the theorems on overflow in `mlpaper.py` ask of the libraries

Signs, ranges and rough magnitudes only.
-/

namespace Mlp.Spec
open Mlp.PaperR Mlp.Round

/-- Coefficients of a quadratic polynomial, none of which is extremely large and the first of which is not extremely small. -/
def RootsRange (a b c : ℝ) : Prop := 1 / 2 ^ 240 ≤ a ∧ a ≤ 2 ^ 240 ∧ 0 ≤ b ∧ b ≤ 2 ^ 240 ∧ c ≤ 0 ∧ -c ≤ 2 ^ 240

/-- A library for IEEE doubles.  Elementary operations are those of IEEE 754 where they do not overflow, and nothing is known about
the result of an operation that overflows. -/
structure IeeeLib (L : Lib ℝ) (order : List ℝ → SumTree ℝ) : Prop where
  rnd : FollowsIeee L.rnd
  /-- `np.sum` adds in some order, rounding after each addition -/
  is_order : IsOrder order
  sum : ∀ l, L.sum l = sumBy order L.rnd l
  sqrt_zero : L.sqrt 0 = 0
  sqrt_nonneg : ∀ x, 0 ≤ x → 0 ≤ L.sqrt x
  /-- square roots of doubles are right up to a factor of two -/
  sqrt_le : ∀ x, ieeeRound x = x → 0 ≤ x → L.sqrt x * L.sqrt x ≤ 4 * x
  sqrt_ge : ∀ x, ieeeRound x = x → 0 ≤ x → x ≤ 4 * (L.sqrt x * L.sqrt x)
  log_ge : ∀ x, 2 ≤ x → 1 / 2 ≤ L.log x
  log_le : ∀ x, 2 ≤ x → L.log x ≤ x
  exp_nonneg : ∀ x, 0 ≤ L.exp x
  exp_le : ∀ x, x ≤ 0 → L.exp x ≤ 1
  /-- a quadratic polynomial with these signs has one root on either side of 0 -/
  roots : ∀ a b c, RootsRange a b c → ∃ r₁ r₂, L.roots a b c = some (r₁, r₂) ∧
    (r₁ ≤ 0 ∨ r₂ ≤ 0) ∧ (0 ≤ r₁ ∨ 0 ≤ r₂) ∧ |r₁| ≤ 2 ^ 500 ∧ |r₂| ≤ 2 ^ 500
  tInterval : ∀ n c, 0 < c → c < 1 → (L.tInterval n c).1 ≤ (L.tInterval n c).2
  tInterval_le : ∀ n c, ieeeRound c = c → 0 < c → c < 1 → |(L.tInterval n c).1| ≤ 2 ^ 100 ∧ |(L.tInterval n c).2| ≤ 2 ^ 100
  tSf : ∀ n t, 0 ≤ t → ∃ p, L.tSf n (.fin t) = .fin p ∧ 0 ≤ p ∧ p ≤ 1 / 2
  tSf_inf : ∀ n, ∃ p, L.tSf n .pinf = .fin p ∧ 0 ≤ p ∧ p ≤ 1 / 2
  tSf_nan : ∀ n, L.tSf n .nan = .nan

open Classical in
/-- The library with doubles that have no largest exponent. -/
noncomputable def wideLib (L : Lib ℝ) (order : List ℝ → SumTree ℝ) : Lib ℝ :=
  { L with
    rnd := ieeeRound
    sum := sumBy order ieeeRound
    roots := fun a b c => if RootsRange a b c then L.roots a b c else some (0, 0) }

/-- The limits of a metric are infinite or doubles up to `2 ^ 200` (about `1.6e60`); if both are finite they are equal or at least
`2 ^ -200` apart. -/
def ModerateLimits (lower upper : Flt ℝ) : Prop :=
  (∀ l, lower = .fin l → ieeeRound l = l ∧ |l| ≤ 2 ^ 200) ∧ (∀ h, upper = .fin h → ieeeRound h = h ∧ |h| ≤ 2 ^ 200) ∧
    ∀ l h, lower = .fin l → upper = .fin h → l = h ∨ 1 / 2 ^ 200 ≤ h - l

end Mlp.Spec
