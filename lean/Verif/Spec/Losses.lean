import Verif.Model.Util
import Verif.Spec.Prob
import Mathlib.Analysis.SpecialFunctions.Sqrt

/-! # Specification vocabulary for losses of probabilistic predictions -/

namespace Mlp.Spec
open Mlp.Util

/-- Labels and predictions that fit together: at least one sample and one label, one label for each row,
of type int or bool, every label the number of a column. -/
structure ClassInput {K : Type} (y : LabelVec) (p : Mat K) : Prop where
  kind : y.kind = 'b' ∨ y.kind = 'i'
  labels : 1 ≤ p.ncols
  nonempty : p.rows ≠ []
  length : y.vals.length = p.rows.length
  rows : ∀ r ∈ p.rows, r.length = p.ncols
  range : ∀ v ∈ y.vals, 0 ≤ v ∧ v < (p.ncols : Int)

/-- The result `L` has one entry for each sample, which is related to the row and the label of that
sample. -/
def PerSample {K : Type} (R : List (Flt K) → Nat → Flt K → Prop) (y : LabelVec) (p : Mat K) (L : List (Flt K)) :
    Prop :=
  L.length = p.rows.length ∧ ∀ (i k : Nat) (r : List (Flt K)), p.rows[i]? = some r →
    y.vals[i]? = some (k : Int) → ∃ v, L[i]? = some v ∧ R r k v

/-- A row of log-probabilities: no NaN, no plus infinity. -/
def LogProbs (r : List (Flt ℝ)) : Prop := ∀ v ∈ r, v ≠ .nan ∧ v ≠ .pinf

/-- The probabilities a row stands for. -/
noncomputable def probs (r : List (Flt ℝ)) : List ℝ := r.map prob

/-- Entry `k` of a vector of probabilities. -/
def pr (q : List ℝ) (k : Nat) : ℝ := q.getD k 0

/-- The vector `q` is a probability distribution. -/
def IsProbVec (q : List ℝ) : Prop := (∀ v ∈ q, 0 ≤ v) ∧ q.sum = 1

/-- Minus the logarithm of a probability, plus infinity for 0. -/
noncomputable def nll (q : ℝ) : Flt ℝ := if q = 0 then .pinf else .fin (-Real.log q)

/-- The row of log-probabilities of a distribution. -/
noncomputable def logRow (q : List ℝ) : List (Flt ℝ) :=
  q.map fun (v : ℝ) => if v = 0 then .ninf else .fin (Real.log v)

/-- The expected loss when the label has distribution `q` and `L` are the losses for the labels: labels of
probability 0 do not count. -/
noncomputable def expected (q : List ℝ) (L : List (Flt ℝ)) : Flt ℝ :=
  Flt.sum (List.zipWith (fun (a : ℝ) l => if a = 0 then .fin 0 else (Flt.fin a).mul l) q L)

/-- One sample of every label. -/
def everyLabel (n : Nat) : LabelVec := ⟨'i', (List.range n).map fun (i : Nat) => (i : Int)⟩

/-- The same prediction for one sample of every label. -/
def everyRow (r : List (Flt ℝ)) : Mat ℝ := ⟨r.length, List.replicate r.length r⟩

/-- The sum of the squares. -/
def sumSq (q : List ℝ) : ℝ := ∑ k ∈ Finset.range q.length, pr q k ^ 2

/-- Euclidean norm. -/
noncomputable def norm2 (q : List ℝ) : ℝ := Real.sqrt (sumSq q)

/-- Brier's loss: the squared distance of the probabilities from certainty of label `k`. -/
def brierAt (q : List ℝ) (k : Nat) : ℝ :=
  ∑ j ∈ Finset.range q.length, (pr q j - if j = k then 1 else 0) ^ 2

/-- The expected loss of action `a` (a column of the loss matrix) under the probabilities `q`. -/
def actionLoss (q : List ℝ) (M : List (List ℝ)) (a : Nat) : ℝ :=
  ∑ k ∈ Finset.range q.length, pr q k * (M.getD k []).getD a 0

/-- `a` is the first of the `n` positions at which `e` is least. -/
def IsFirstLeast (n : Nat) (e : Nat → ℝ) (a : Nat) : Prop :=
  a < n ∧ (∀ b < n, e a ≤ e b) ∧ ∀ b < a, e a < e b

end Mlp.Spec
