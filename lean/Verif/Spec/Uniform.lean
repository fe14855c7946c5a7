import Mathlib.Data.Fintype.Perm
import Mathlib.Data.Nat.Choose.Basic

/-! # Equally likely outcomes -/

namespace Mlp.Spec

/-- The result of `np.random.permutation(n)` for a permutation `σ`: all `n!` of them are equally likely. -/
def shuffle {n : ℕ} (σ : Equiv.Perm (Fin n)) : List ℕ := List.ofFn fun i => (σ i : ℕ)

/-- An event that depends on a permutation of `n` things, `n!` equally likely cases, has probability `a / b`. -/
def HasProb (n : ℕ) (E : Equiv.Perm (Fin n) → Prop) (a b : ℕ) : Prop :=
  ∃ s : Finset (Equiv.Perm (Fin n)), (∀ σ, σ ∈ s ↔ E σ) ∧ s.card * b = a * n.factorial ∧ 0 < b

end Mlp.Spec
