import Verif.Model.Frame
import Verif.Spec.LossTable
import Verif.Spec.Losses

/-! # Specification vocabulary for prediction tables -/

namespace Mlp.Spec
open Mlp.Util Mlp.Frame

/-- `v` is the one column with the label `key`. -/
def HasCol {κ K : Type} (cols : List (κ × List (Flt K))) (key : κ) (v : List (Flt K)) : Prop :=
  ∃ before after, cols = before ++ (key, v) :: after ∧ (∀ c ∈ before, c.1 ≠ key) ∧ ∀ c ∈ after, c.1 ≠ key

/-- The second labels of the columns of a method, from left to right. -/
def labelsOf {K : Type} (t : PredTable K) (method : Str) : List Int :=
  t.cols.filterMap fun c => if c.1.1 = method then some c.1.2 else none

/-- The columns of the method are those of the labels `0, 1, ..., n-1`, in this order. -/
def InOrder {K : Type} (t : PredTable K) (method : Str) : Prop :=
  labelsOf t method = (List.range t.labels.length).map fun (i : Nat) => (i : Int)

/-- The matrix `p` contains the columns of the method: one row for each sample and one column for each
label. -/
def IsMatrix {K : Type} (t : PredTable K) (method : Str) (p : Mat K) : Prop :=
  p.ncols = t.labels.length ∧ p.rows.length = t.nrows ∧ (∀ r ∈ p.rows, r.length = p.ncols) ∧
  ∀ k < t.labels.length, ∃ col, HasCol t.cols (method, (k : Int)) col ∧
    ∀ (i : Nat) (r : List (Flt K)), p.rows[i]? = some r → r[k]? = some (col.getD i .nan)

/-- The rows of `q` are the rows of `p`, each with a constant subtracted that turns it into a probability
distribution. -/
def NormalisedRows (p q : Mat ℝ) : Prop :=
  q.ncols = p.ncols ∧ List.Forall₂ (fun r r' => Proper r → IsDist r' ∧ ∃ c : ℝ, r' = shiftRow c r) p.rows q.rows

/-- The table with `c method i` subtracted from all entries of the method in row `i`. -/
noncomputable def shiftTable (c : Str → Nat → ℝ) (t : PredTable ℝ) : PredTable ℝ :=
  { t with cols := t.cols.map fun col => (col.1, col.2.mapIdx fun i v => v.sub (.fin (c col.1.1 i))) }

end Mlp.Spec
