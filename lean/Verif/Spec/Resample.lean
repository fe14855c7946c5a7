import Mathlib.Data.Real.Basic
import Mathlib.Data.Fintype.BigOperators
import Mathlib.Data.Fintype.Pi

/-! # The distribution of bootstrap draws -/

namespace Mlp.Spec

/-- The row `np.random.multinomial(N, [1/N] * N)` for one of the `N ^ N` equally likely ways `f` to draw `N` times from `N`
points: draw `j` gives point `f j`; the row says how often each point is drawn. -/
def drawCounts {N : ℕ} (f : Fin N → Fin N) : List ℕ :=
  List.ofFn fun i => (Finset.univ.filter fun j => f j = i).card

/-- The expected value over the `N ^ N` equally likely ways to draw. -/
noncomputable def meanDraw {N : ℕ} (g : (Fin N → Fin N) → ℝ) : ℝ := (∑ f, g f) / (N : ℝ) ^ N

end Mlp.Spec
