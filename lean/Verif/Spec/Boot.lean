import Verif.Model.Flt
import Mathlib.Algebra.BigOperators.Group.List.Basic

/-! # Specification vocabulary for the bootstrap functions -/

namespace Mlp.Spec

/-- A possible outcome of drawing `N` times from `N` equally likely data points: how often each
point was drawn. -/
def IsMultinomial (N : Nat) (row : List Nat) : Prop := row.length = N ∧ row.sum = N

/-- `v` is the `k`-th smallest entry (counted from 0): it is an entry, at most `k` entries are
smaller and more than `k` entries are at most `v`. -/
def IsOrderStat {α : Type} [LinearOrder α] (l : List α) (k : Nat) (v : α) : Prop :=
  v ∈ l ∧ l.countP (fun a => decide (a < v)) ≤ k ∧ k < l.countP (fun a => decide (a ≤ v))

/-- No entry is NaN. -/
def NoNaN {K : Type} (l : List (Flt K)) : Prop := Flt.nan ∉ l

/-- A vector of finite numbers. -/
def finVec {K : Type} (xs : List K) : List (Flt K) := xs.map fun (x : K) => Flt.fin x

end Mlp.Spec
