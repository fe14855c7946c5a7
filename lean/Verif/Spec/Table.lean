import Verif.Spec.Shift

/-! # Specification: formatted columns -/

namespace Mlp.Spec
open Mlp.Sciprint

/-- Lower crap limit `k`: everything below `-10^k` is clipped; no limit means `-inf`. -/
def lowClip : Option Int → Dec
  | some k => .fin true 1 k
  | none => .inf true

/-- Upper crap limit `k`: everything above `10^k` is clipped; no limit means `+inf`. -/
def highClip : Option Int → Dec
  | some k => .fin false 1 k
  | none => .inf false

open Classical in
/-- The entries of a column that are not clipped, in order. -/
noncomputable def unclipped (lo hi : Dec) (col : List DecCell) : List DecCell :=
  col.filter fun x => decide (DLe lo x.mean ∧ DLe x.mean hi)

/-- The shift of a column: none at all, or the best shift of the unclipped entries. -/
def ColShift (sortAbs : List Int → List Int) (shiftMod : Option Int) (kept : List DecCell)
    (s : Int) : Prop :=
  match shiftMod with
  | none => s = 0
  | some m => findShift sortAbs (kept.map fun x => x.mean) (kept.map fun x => x.err) m = .ok s

/-- All finite p-values have the same last place. -/
def SamePlaces (col : List DecCell) : Prop :=
  ∀ x ∈ col, ∀ y ∈ col, ∀ n c e n' c' e', x.pval = .fin n c e → y.pval = .fin n' c' e' → e = e'

end Mlp.Spec
