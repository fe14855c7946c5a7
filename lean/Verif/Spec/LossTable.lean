import Verif.Model.Mlpaper
import Verif.Spec.Stats
import Verif.Spec.Split

/-! # Specification vocabulary for loss tables -/

namespace Mlp.Spec
open Mlp.Paper

/-- `l` is the one column of the table with the labels `(metric, method)`. -/
def HasLoss (tbl : LossTable) (metric method : Str) (l : List (Flt ℝ)) : Prop :=
  ∃ before after, tbl.cols = before ++ ((metric, method), l) :: after ∧
    (∀ c ∈ before, c.1 ≠ (metric, method)) ∧ ∀ c ∈ after, c.1 ≠ (metric, method)

/-- Every metric and method has its column, with one entry for each row. -/
def Complete (tbl : LossTable) : Prop :=
  ∀ metric ∈ tbl.metrics, ∀ method ∈ tbl.methods, ∃ l, HasLoss tbl metric method l ∧ l.length = tbl.nrows

/-- The limits that apply to a metric: the first entry of the dictionary for it, otherwise none. -/
inductive LimitsOf (limits : List (Str × (Flt ℝ × Flt ℝ))) (metric : Str) : Flt ℝ → Flt ℝ → Prop
  | given (before after lo hi) : limits = before ++ (metric, (lo, hi)) :: after →
      (∀ p ∈ before, p.1 ≠ metric) → LimitsOf limits metric lo hi
  | default : (∀ p ∈ limits, p.1 ≠ metric) → LimitsOf limits metric .ninf .pinf

/-- The entries of a list in the order `σ`: first entry number `σ 0`, and so on. -/
def reorder {α : Type} (σ : List Nat) (l : List α) : List α := σ.filterMap fun i => l[i]?

/-- The table with its rows in the order `σ`. -/
def reorderRows (σ : List Nat) (tbl : LossTable) : LossTable :=
  { tbl with cols := tbl.cols.map fun c => (c.1, reorder σ c.2) }

/-- The outcomes of the random draws, with the data points in the order `σ`. -/
def reorderDraws (σ : List Nat) (d : Draws) : Draws := ⟨d.eb.map (reorder σ), d.test.map (reorder σ)⟩

end Mlp.Spec
