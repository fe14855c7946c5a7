import Verif.Model.Round
import Mathlib.Algebra.BigOperators.Group.List.Basic

/-! # Specification of sums in floating point arithmetic -/

namespace Mlp.Spec

section
variable {K : Type} [Field K] [LinearOrder K]

/-- A way of adding up whose relative error, on numbers that are not negative, is at most that of one
rounding by `u` for each number.  Every order of summation has this property. -/
def SumError (u : K) (sumR : List K → K) : Prop :=
  ∀ l : List K, (∀ v ∈ l, 0 ≤ v) → |sumR l - l.sum| ≤ ((1 + u) ^ l.length - 1) * l.sum

/-- An order of summation: the numbers are added along a binary tree. -/
inductive SumTree (K : Type) where
  | leaf (v : K)
  | node (a b : SumTree K)

/-- The numbers of a tree. -/
def SumTree.leaves : SumTree K → List K
  | .leaf v => [v]
  | .node a b => a.leaves ++ b.leaves

/-- The result of adding along a tree, rounding after each addition. -/
def SumTree.eval (rnd : K → K) : SumTree K → K
  | .leaf v => v
  | .node a b => rnd (a.eval rnd + b.eval rnd)

/-- `sumR` adds the numbers along some tree that has them as its leaves, in some order. -/
def AddsAlongTrees (rnd : K → K) (sumR : List K → K) : Prop :=
  sumR [] = 0 ∧ ∀ l : List K, l ≠ [] → ∃ t : SumTree K, t.leaves.Perm l ∧ sumR l = t.eval rnd

end
end Mlp.Spec
