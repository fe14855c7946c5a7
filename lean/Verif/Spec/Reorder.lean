import Verif.Spec.Curves
import Verif.Spec.Frames
import Verif.Spec.Regr
import Verif.Model.Regression

/-! # Specification vocabulary: the test points in another order -/

namespace Mlp.Spec
open Mlp.Util Mlp.Frame

/-- A matrix with its rows in the order `σ`. -/
def reorderMat {K : Type} (σ : List Nat) (p : Mat K) : Mat K := ⟨p.ncols, reorder σ p.rows⟩

/-- Labels in the order `σ`. -/
def reorderLabels (σ : List Nat) (y : LabelVec) : LabelVec := ⟨y.kind, reorder σ y.vals⟩

/-- A table of predictions with its rows in the order `σ`. -/
def reorderPred {K : Type} (σ : List Nat) (t : PredTable K) : PredTable K :=
  { t with cols := t.cols.map fun c => (c.1, reorder σ c.2) }

/-- The entries of a vector in the order `σ`. -/
def reorderArr (σ : List Nat) (a : Regr.Arr) : Regr.Arr := ⟨a.shape, reorder σ a.data⟩

/-- A table of Gaussian predictions with its rows in the order `σ`. -/
def reorderGauss (σ : List Nat) (t : Regr.GaussTable) : Regr.GaussTable :=
  { t with cols := t.cols.map fun c => (c.1, reorder σ c.2) }

/-- A loss function of each sample on its own: for samples in another order it gives the losses in that order. -/
def SymMetric (f : Classif.Metric) : Prop :=
  ∀ (σ : List Nat) (y : LabelVec) (p : Mat ℝ) (L : List (Flt ℝ)), p.Ok → y.vals.length = p.rows.length →
    IsPerm σ p.rows.length → L.length = p.rows.length → f y p = .ok L →
    f (reorderLabels σ y) (reorderMat σ p) = .ok (reorder σ L)

/-- A loss function of each sample on its own, for regression. -/
def SymLoss (f : Regr.Loss) : Prop :=
  ∀ (σ : List Nat) (n : Nat) (y mu std : Regr.Arr) (L : List (Flt ℝ)), IsPerm σ n → y.shape = [n] → y.data.length = n →
    mu.shape = [n] → mu.data.length = n → std.shape = [n] → std.data.length = n → L.length = n → f y mu std = .ok L →
    f (reorderArr σ y) (reorderArr σ mu) (reorderArr σ std) = .ok (reorder σ L)

/-- A curve function for which the order of the samples does not matter. -/
def SymCurve {K : Type} [Field K] [LinearOrder K] (f : Classif.CurveF K) : Prop :=
  ∀ (σ : List Nat) (y : List Bool) (s : List (Flt K)) (M : Option (Mat K)), IsPerm σ y.length → s.length = y.length →
    (∀ m, M = some m → m.ncols = y.length ∧ ∀ r ∈ m.rows, r.length = y.length) →
    f (reorder σ y) (reorder σ s) (M.map (reorderCols σ)) = f y s M

end Mlp.Spec
