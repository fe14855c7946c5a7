import Verif.Spec.Curves

/-! # Specification: the data set of a bootstrap replicate -/

namespace Mlp.Spec

/-- How often a replicate uses each sample: as often as it was drawn, but once for every sample of a class of which none was
drawn. -/
def usedCounts (y : List Bool) (k : List Nat) : List Nat :=
  List.zipWith (fun b n => if ∃ p ∈ y.zip k, p.1 = b ∧ 1 ≤ p.2 then n else 1) y k

end Mlp.Spec
