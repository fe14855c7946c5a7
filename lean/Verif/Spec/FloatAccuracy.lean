import Verif.Model.MlpaperRound
import Verif.Model.Round
import Mathlib.Analysis.SpecialFunctions.Log.Basic
import Mathlib.Analysis.SpecialFunctions.Sqrt

/-! # Specification vocabulary: how accurate the library is -/

namespace Mlp.Spec
open Mlp.PaperR Mlp.Round

/-- Elementary operations, `exp`, `log` and `sqrt` have a relative error of at most `u`.  They need not be rounded correctly: `u` may be
several units in the last place. -/
structure AccurateLib (u : ℝ) (L : Lib ℝ) : Prop where
  nonneg : 0 ≤ u
  rnd : RelError u L.rnd
  exp : ∀ x, |L.exp x - Real.exp x| ≤ u * Real.exp x
  log : ∀ x, 0 < x → |L.log x - Real.log x| ≤ u * |Real.log x|
  sqrt : ∀ x, 0 ≤ x → |L.sqrt x - Real.sqrt x| ≤ u * Real.sqrt x

end Mlp.Spec
