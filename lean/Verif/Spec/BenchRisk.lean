import Verif.Spec.Losses
import Verif.Spec.Frames
import Verif.Props.ClassPred
import Verif.Model.CurveBoot
import Verif.Props.RegrPred
import Verif.Spec.Regr
import Mathlib.Probability.Independence.Basic

/-! # What a benchmark measures: the expected loss of a trained method on a new test point -/

namespace Mlp.Spec
open Mlp Mlp.Util Mlp.Classif Mlp.Frame Mlp.Boot Mlp.Props MeasureTheory ProbabilityTheory
open Mlp.Regr (Arr)

/-- The probabilities that count as the prediction of a row of (unnormalised) log-probabilities: entries below the floor are raised to the floor,
and the row is scaled to total 1. -/
noncomputable def predicted (floor : Flt ℝ) (r : List (Flt ℝ)) : List ℝ :=
  r.map fun v => prob (max floor v) / (r.map fun v => prob (max floor v)).sum

/-- The metric scores each sample on its own: the loss of a sample with label `k` and predicted probabilities `q` is `f q k`. -/
def Scores (nLabels : ℕ) (metric : Metric) (f : List ℝ → ℕ → ℝ) : Prop :=
  ∀ (y : LabelVec) (p : Mat ℝ), ClassInput y p → p.ncols = nLabels → (∀ r ∈ p.rows, IsDist r ∧ ∀ v ∈ r, v.isFinite = true) →
    ∃ L, metric y p = .ok L ∧ PerSample (fun r k v => v = .fin (f (probs r) k)) y p L

/-- The four standard losses of a prediction `q` when the label is `k`, for two labels. -/
noncomputable def nllAt (q : List ℝ) (k : ℕ) : ℝ := -Real.log (pr q k)

noncomputable def brier2At (q : List ℝ) (k : ℕ) : ℝ := 2 * ((pr q 0 - if k = 0 then 1 else 0) ^ 2 + (pr q 1 - if k = 1 then 1 else 0) ^ 2)

noncomputable def sphere2At (q : List ℝ) (k : ℕ) : ℝ := (1 - pr q k / Real.sqrt (pr q 0 ^ 2 + pr q 1 ^ 2)) / (1 - 1 / Real.sqrt 2)

/-- Label 0 is guessed unless label 1 is more probable. -/
noncomputable def zeroOne2At (q : List ℝ) (k : ℕ) : ℝ :=
  if pr q 0 < pr q 1 then (if k = 1 then 0 else 1) else (if k = 0 then 0 else 1)

variable {D : Type}

/-- A test set of `n` points: the labels, and for each trained method the row it predicts for each point. -/
structure TestSet (xTrain : Features D) (yTrain : LabelVec) (xTest : Features D) (yTest : LabelVec) (nLabels : ℕ)
    (methods : List (Str × Estimator D)) (floor : Flt ℝ) {n : ℕ} (lab : Fin n → ℕ) (row : Str → Fin n → List (Flt ℝ)) : Prop where
  labels : yTest.vals = List.ofFn fun i => (lab i : ℤ)
  range : ∀ i, lab i < nLabels
  preds : ∀ m ∈ methods, Predicts xTrain yTrain xTest m.2 ⟨nLabels, List.ofFn (row m.1)⟩
  width : ∀ m ∈ methods, ∀ i, (row m.1 i).length = nLabels
  finite : ∀ m ∈ methods, ∀ i, ∀ v ∈ row m.1 i, (max floor v).isFinite = true

/-- The regression loss scores each sample on its own: the loss of a sample with target `a`, predicted mean `m` and predicted standard deviation `s`
is `f a m s`. -/
def ScoresR (loss : Regr.Loss) (f : ℝ → ℝ → ℝ → ℝ) : Prop :=
  ∀ (y mu std : Arr) (n : ℕ), RegrInput y mu std n → y.Ok → mu.Ok → std.Ok → ∃ L, loss y mu std = .ok L ∧ PerPoint f y mu std L

/-- A regression test set of `n` points: the targets, and for each trained method the mean and standard deviation it predicts for each point. -/
structure RegrTestSet (xTrain : Features D) (yTrain : Arr) (xTest : Features D) (yTest : Arr)
    (methods : List (Str × Regr.Estimator D)) (minStd : ℝ) {n : ℕ} (target : Fin n → ℝ) (mean std : Str → Fin n → ℝ) : Prop where
  targets : yTest = realArr (List.ofFn target)
  preds : ∀ m ∈ methods, PredictsGauss xTrain yTrain xTest m.2 (realArr (List.ofFn (mean m.1))) (realArr (List.ofFn (std m.1)))
  pos : ∀ m ∈ methods, ∀ i, 0 < max minStd (std m.1 i)

/-- The cell (mean, error, p) of the summary table for a metric and a method. -/
def FullCell (full : FullTable) (metric method : Str) (cell : Flt ℝ × Flt ℝ × Flt ℝ) : Prop :=
  ∃ (i j : ℕ) (col : List (Flt ℝ × Flt ℝ × Flt ℝ)), full.metrics[i]? = some metric ∧ full.methods[j]? = some method ∧
    full.columns[i]? = some col ∧ col[j]? = some cell

/-- The points `draw i` are independent draws from the population `μ`. -/
structure Drawn {Ω S ι : Type} [MeasurableSpace Ω] [MeasurableSpace S] (P : Measure Ω) (μ : Measure S) (draw : ι → Ω → S) : Prop where
  meas : ∀ i, Measurable (draw i)
  law : ∀ i, P.map (draw i) = μ
  indep : iIndepFun draw P

/-- The risk: the expected loss of the trained method on a new point of the population, whose label is `lab s` and for which the method
predicts the row `row s`. -/
noncomputable def risk {S : Type} [MeasurableSpace S] (μ : Measure S) (f : List ℝ → ℕ → ℝ) (floor : Flt ℝ) (lab : S → ℕ) (row : S → List (Flt ℝ)) : ℝ :=
  ∫ s, f (predicted floor (row s)) (lab s) ∂μ

/-- The regression risk: the expected loss of a trained method that predicts the mean `mean s` and the standard deviation `std s`, on a new point
whose target is `target s`. -/
noncomputable def regrRisk {S : Type} [MeasurableSpace S] (μ : Measure S) (f : ℝ → ℝ → ℝ → ℝ) (minStd : ℝ) (target mean std : S → ℝ) : ℝ :=
  ∫ s, f (target s) (mean s) (max minStd (std s)) ∂μ

/-- The finished benchmark shows the cell (mean, error, p) for the metric and the method. -/
def Shows {C : Type} (run : Py (FullTable × C)) (metric method : Str) (cell : Flt ℝ × Flt ℝ × Flt ℝ) : Prop :=
  ∃ full dump, run = .ok (full, dump) ∧ FullCell full metric method cell

/-- The finished regression benchmark shows the cell (mean, error, p) for the metric and the method. -/
def ShowsR (run : Py FullTable) (metric method : Str) (cell : Flt ℝ × Flt ℝ × Flt ℝ) : Prop :=
  ∃ full, run = .ok full ∧ FullCell full metric method cell

/-- The mean and the error bar of the cell contain `r`. -/
def BarHolds (cell : Flt ℝ × Flt ℝ × Flt ℝ) (r : ℝ) : Prop :=
  ∃ mu e : ℝ, cell.1 = .fin mu ∧ cell.2.1 = .fin e ∧ mu - e ≤ r ∧ r ≤ mu + e

/-- The difference between the means of two cells and the error bar of the first contain `d`. -/
def PairHolds (cell cellRef : Flt ℝ × Flt ℝ × Flt ℝ) (d : ℝ) : Prop :=
  ∃ mu muRef e : ℝ, cell.1 = .fin mu ∧ cellRef.1 = .fin muRef ∧ cell.2.1 = .fin e ∧ (mu - muRef) - e ≤ d ∧ d ≤ (mu - muRef) + e

/-- The p-value of the cell is at most `α`. -/
def Flagged (cell : Flt ℝ × Flt ℝ × Flt ℝ) (α : ℝ) : Prop := ∃ p : ℝ, cell.2.2 = .fin p ∧ p ≤ α

end Mlp.Spec
