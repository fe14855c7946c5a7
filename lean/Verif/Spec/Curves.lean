import Verif.Model.Util
import Verif.Spec.Boot
import Verif.Spec.LossTable

/-! # Specification of curves and their counts -/

namespace Mlp.Spec
open Mlp.Util

section
variable {K : Type}

/-- A table with finite entries. -/
def finMat (n : Nat) (rows : List (List K)) : Mat K := ⟨n, rows.map finVec⟩

/-- A scored, labelled and weighted sample. -/
structure Sample (K : Type) where
  score : K
  label : Bool
  weight : K

/-- The samples with labels `y`, scores `s` and weights `w`. -/
def samples (y : List Bool) (s w : List K) : List (Sample K) :=
  List.zipWith (fun b (p : K × K) => ⟨p.1, b, p.2⟩) y (s.zip w)

variable [Field K] [LinearOrder K]

/-- The total weight of the samples with a property. -/
def wsum (S : List (Sample K)) (p : Sample K → Bool) : K :=
  (S.map fun s => if p s then s.weight else 0).sum

/-- The total weight of the positive samples with score at least `θ`. -/
def posAbove (S : List (Sample K)) (θ : Flt K) : K := wsum S fun s => s.label && decide (θ ≤ .fin s.score)

/-- The total weight of the negative samples with score at least `θ`. -/
def negAbove (S : List (Sample K)) (θ : Flt K) : K := wsum S fun s => !s.label && decide (θ ≤ .fin s.score)

/-- The total weight of the positive samples. -/
def posTotal (S : List (Sample K)) : K := wsum S fun s => s.label

/-- The total weight of the negative samples. -/
def negTotal (S : List (Sample K)) : K := wsum S fun s => !s.label

/-- The false positive count at a threshold.  If there are no negative samples it is `1e-10` times the
true positive count. -/
def fpCount (S : List (Sample K)) (θ : Flt K) : K :=
  if negTotal S = 0 then 1 / 10000000000 * posAbove S θ else negAbove S θ

/-- The true positive count at a threshold.  If there are no positive samples it is `1e-10` times the
false positive count. -/
def tpCount (S : List (Sample K)) (θ : Flt K) : K :=
  if posTotal S = 0 then 1 / 10000000000 * negAbove S θ else posAbove S θ

/-- The final false positive count. -/
def fpTotal (S : List (Sample K)) : K := if negTotal S = 0 then 1 / 10000000000 * posTotal S else negTotal S

/-- The final true positive count. -/
def tpTotal (S : List (Sample K)) : K := if posTotal S = 0 then 1 / 10000000000 * negTotal S else posTotal S

/-- The false positive rate at a threshold. -/
def fprAt (S : List (Sample K)) (θ : Flt K) : K := fpCount S θ / fpTotal S

/-- The recall (true positive rate) at a threshold. -/
def recallAt (S : List (Sample K)) (θ : Flt K) : K := tpCount S θ / tpTotal S

/-- The precision at a threshold: the share of positives among the samples with at least that score. -/
def precisionAt (S : List (Sample K)) (θ : Flt K) : K := tpCount S θ / (tpCount S θ + fpCount S θ)

/-- The share of positives among all samples. -/
def prevalence (S : List (Sample K)) : K := tpTotal S / (tpTotal S + fpTotal S)

/-- The gain of a proportion `v` over the baseline `π` (Flach and Kull, 2015). -/
def gain (π v : K) : K := (v - π) / ((1 - π) * v)

/-- The recall gain at a threshold, clipped at 0; the gain of recall 0 is minus infinity. -/
def recGainAt (S : List (Sample K)) (θ : Flt K) : K :=
  if recallAt S θ = 0 then 0 else max 0 (gain (prevalence S) (recallAt S θ))

/-- The precision gain at a threshold; the gain of precision 0 is minus infinity. -/
def precGainAt (S : List (Sample K)) (θ : Flt K) : Flt K :=
  if precisionAt S θ = 0 then .ninf else .fin (gain (prevalence S) (precisionAt S θ))

/-- How well a positive score `a` and a negative score `b` are ordered: 1 if `a` is higher, one half if they
are equal. -/
def ordered (a b : K) : K := if b < a then 1 else if a = b then 1 / 2 else 0

/-- The total, over all pairs of a positive and a negative sample, of how well they are ordered, weighted by
the product of their weights. -/
def orderedPairs (S : List (Sample K)) : K :=
  (S.map fun a => if a.label then
    (S.map fun b => if b.label then 0 else a.weight * b.weight * ordered a.score b.score).sum else 0).sum

/-- The Mann-Whitney statistic: the weighted share of correctly ordered pairs of a positive and a negative
sample, ties counting one half. -/
def mannWhitney (S : List (Sample K)) : K := orderedPairs S / (posTotal S * negTotal S)

/-- The rows of weights: a single row of ones if none are given. -/
def weightRows (n : Nat) (W : Option (List (List K))) : List (List K) := W.getD [List.replicate n 1]

/-- Valid input: labels and scores of the same positive number of samples, and (if given) at least one
row of weights, each with one positive weight per sample. -/
structure CurveInput (y : List Bool) (s : List K) (W : Option (List (List K))) : Prop where
  length : s.length = y.length
  nonempty : y ≠ []
  rows : weightRows y.length W ≠ []
  weights : ∀ w ∈ weightRows y.length W, w.length = y.length ∧ ∀ v ∈ w, 0 < v

/-- `thr` is `+inf` followed by the distinct scores in decreasing order. -/
def IsThresholds (s : List K) (thr : List (Flt K)) : Prop :=
  ∃ ds : List K, thr = .pinf :: finVec ds ∧ ds.Pairwise (· > ·) ∧ ∀ v, v ∈ ds ↔ v ∈ s

/-- The values of a function at the thresholds, where the value at `+inf` is that at the highest score. -/
def atThresholds {β : Type} (g : Flt K → β) : List (Flt K) → List β
  | _ :: θ :: thr => g θ :: g θ :: thr.map g
  | _ => []

/-- The weight table with its columns in the order `σ`. -/
def reorderCols (σ : List Nat) (m : Mat K) : Mat K := { m with rows := m.rows.map (reorder σ) }

/-- Every entry repeated as often as the counts say. -/
def repeated {α : Type} (k : List Nat) (l : List α) : List α := (List.zipWith (fun n a => List.replicate n a) k l).flatten

end
end Mlp.Spec
