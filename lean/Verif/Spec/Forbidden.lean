import Verif.Spec.Losses

/-! # Specification of decisions under a loss matrix with infinite losses -/

namespace Mlp.Spec

/-- The loss of action `a` for label `k`. -/
def lossOf (M : List (List (Flt ℝ))) (k a : Nat) : Flt ℝ := (M.getD k []).getD a .nan

/-- Action `a` has an infinite loss for some label. -/
def Forbidden (M : List (List (Flt ℝ))) (a : Nat) : Prop := ∃ k < M.length, lossOf M k a = .pinf

/-- Action `a` has an infinite loss for a label whose probability is exactly 0. -/
def ForbiddenAtZero (q : List ℝ) (M : List (List (Flt ℝ))) (a : Nat) : Prop :=
  ∃ k < M.length, lossOf M k a = .pinf ∧ pr q k = 0

/-- The number in a float (0 for the special values). -/
def numOf : Flt ℝ → ℝ
  | .fin x => x
  | _ => 0

/-- The expected loss of an action without infinite losses. -/
noncomputable def finiteLoss (q : List ℝ) (M : List (List (Flt ℝ))) (a : Nat) : ℝ :=
  ∑ k ∈ Finset.range q.length, pr q k * numOf (lossOf M k a)

/-- `a` is the first of the positions with property `P` at which `e` is least. -/
def IsFirstLeastOf (n : Nat) (P : Nat → Prop) (e : Nat → ℝ) (a : Nat) : Prop :=
  a < n ∧ P a ∧ ∀ b < n, P b → e a ≤ e b ∧ (b < a → e a < e b)

/-- `a` is the first of `n` positions with property `P`. -/
def IsFirst (n : Nat) (P : Nat → Prop) (a : Nat) : Prop := a < n ∧ P a ∧ ∀ b < a, ¬ P b

/-- What is decided for one row of predictions with probabilities `q`: the first action that has an
infinite loss for a label of probability 0; without such actions the first action of least expected
loss among those without an infinite loss; without those action 0. -/
def DecisionFor (m : Nat) (M : List (List (Flt ℝ))) (q : List ℝ) (a : Nat) : Prop :=
  ((∃ b < m, ForbiddenAtZero q M b) → IsFirst m (ForbiddenAtZero q M) a) ∧
  ((∀ b < m, ¬ ForbiddenAtZero q M b) → (∃ b < m, ¬ Forbidden M b) →
    IsFirstLeastOf m (fun b => ¬ Forbidden M b) (finiteLoss q M) a) ∧
  ((∀ b < m, ¬ ForbiddenAtZero q M b) → (∀ b < m, Forbidden M b) → a = 0)

/-- A loss matrix with `n` labels and `m` actions whose losses are numbers or plus infinity. -/
structure IsLossMat (n m : Nat) (M : List (List (Flt ℝ))) : Prop where
  labels : M.length = n
  actions : 1 ≤ m
  width : ∀ row ∈ M, row.length = m
  entries : ∀ row ∈ M, ∀ v ∈ row, v ≠ .nan ∧ v ≠ .ninf

end Mlp.Spec
