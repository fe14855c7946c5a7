import Verif.Props.RankingTail
import Verif.Props.Sensitivity

/-! # C147 and C148 for the standard curves: the column with the label AUC -/

namespace Mlp.Props
open Mlp Mlp.Util Mlp.Spec Mlp.Classif Mlp.Lemmas Mlp.Frame Mlp.Boot Mlp.Perf Mlp.Paper MeasureTheory ProbabilityTheory

section
variable {D S Ω : Type} [MeasurableSpace S] [MeasurableSpace Ω] {P : Measure Ω} [IsProbabilityMeasure P] {pos neg : Measure S}
  [IsProbabilityMeasure pos] [IsProbabilityMeasure neg] {n : ℕ} {lab : Fin n → Bool} {draw : Fin n → Ω → S}

/-- **C147, the column AUC.**  With `STD_BINARY_CURVES` all this holds for the column labelled AUC. -/
theorem C147_standard {T : Nat → RefDist} {other : Interp ℝ} {xTrain : Features D} {yTrain : LabelVec} {xTest : Ω → Features D}
    {yTest : Ω → LabelVec} {methods : List (Str × Classif.Estimator D)} {losses : List (Str × Metric)}
    {refMethod : Str} {floor : Flt ℝ} {pairwise : Bool} {methodEB : EBMethod}
    {limits : List (Str × (Flt ℝ × Flt ℝ))} {cd : Ω → BootDraws} {ld : Ω → Str → Str → Draws}
    (hn : (methods.map fun m => m.1).Nodup) (hk : (losses.map fun m => m.1).Nodup)
    (hloss : "AUC".toList ∉ losses.map fun m => m.1) {row : Str → S → List (Flt ℝ)}
    (hd : DrawnCases P pos neg lab draw)
    (ht : ∀ ω, TestSet xTrain yTrain (xTest ω) (yTest ω) 2 methods floor (fun i => if lab i then 1 else 0) fun m i => row m (draw i ω))
    (h1 : 0 < numLab lab true) (h0 : 0 < numLab lab false)
    (hg : ∀ m ∈ methods, Measurable fun s => (predicted floor (row m.1 s)).getD 1 0) {θ : Str → ℝ}
    (hθ : ∀ m ∈ methods, θ m.1 = rankProb pos neg fun s => (predicted floor (row m.1 s)).getD 1 0) {N : ℝ}
    (hN : N = (min (numLab lab true) (numLab lab false) : ℕ)) :
    ∃ auc : Str → Ω → ℝ, (∀ m ∈ methods, ∀ ω cell, Shows (Classif.justBenchmark T other xTrain yTrain (xTest ω) (yTest ω) 2 methods losses stdBinaryCurves refMethod
        floor pairwise methodEB limits (cd ω) (ld ω)) "AUC".toList m.1 cell → cell.1 = .fin (auc m.1 ω)) ∧
      (∀ m ∈ methods, ∀ ε ≥ 0, P.real {ω | ε ≤ |auc m.1 ω - θ m.1|} ≤ 2 * Real.exp (-(2 * N * ε ^ 2))) ∧
      (∀ δ : ℝ, 0 < δ → δ ≤ 1 → P.real {ω | ∃ m ∈ methods, √(Real.log (2 * methods.length / δ) / (2 * N)) ≤ |auc m.1 ω - θ m.1|} ≤ δ) ∧
      (∀ m ∈ methods, ∀ m' ∈ methods, ∀ ε ≥ 0, P.real {ω | ε ≤ |auc m.1 ω - auc m'.1 ω - (θ m.1 - θ m'.1)|} ≤ 2 * Real.exp (-(N * ε ^ 2 / 2))) ∧
      (∀ m ∈ methods, ∀ m' ∈ methods, θ m'.1 ≤ θ m.1 → P.real {ω | auc m.1 ω ≤ auc m'.1 ω} ≤ Real.exp (-(N * (θ m.1 - θ m'.1) ^ 2 / 2))) :=
  C147_benchmark (curves := stdBinaryCurves) hn hk (by simp [stdBinaryCurves]) (by simp [stdBinaryCurves]) hloss hd ht h1 h0 hg hθ hN

end

variable {D : Type}

/-- **C148, the column AUC.**  With `STD_BINARY_CURVES` this holds for the column labelled AUC. -/
theorem C148_standard {T T' : Nat → RefDist} {other other' : Interp ℝ} {xTrain xTrain' : Features D} {yTrain yTrain' : LabelVec} {xTest xTest' : Features D}
    {yTest yTest' : LabelVec} {methods methods' : List (Str × Classif.Estimator D)} {losses : List (Str × Metric)}
    {refMethod refMethod' : Str} {floor floor' : Flt ℝ} {pairwise pairwise' : Bool} {methodEB methodEB' : EBMethod}
    {limits limits' : List (Str × (Flt ℝ × Flt ℝ))} {cd cd' : BootDraws} {ld ld' : Str → Str → Draws}
    (hn : (methods.map fun m => m.1).Nodup) (hn' : (methods'.map fun m => m.1).Nodup) (hk : (losses.map fun m => m.1).Nodup)
    (hloss : "AUC".toList ∉ losses.map fun m => m.1)
    {n : ℕ} {lab : Fin n → Bool} {row row' : Str → Fin n → List (Flt ℝ)}
    (ht : TestSet xTrain yTrain xTest yTest 2 methods floor (fun i => if lab i then 1 else 0) row)
    (ht' : TestSet xTrain' yTrain' xTest' yTest' 2 methods' floor' (fun i => if lab i then 1 else 0) row')
    (h1 : 0 < numLab lab true) (h0 : 0 < numLab lab false) {method : Str} (hm : method ∈ methods.map fun m => m.1)
    (hm' : method ∈ methods'.map fun m => m.1) {cell cell' : Flt ℝ × Flt ℝ × Flt ℝ}
    (hcell : Shows (Classif.justBenchmark T other xTrain yTrain xTest yTest 2 methods losses stdBinaryCurves refMethod floor pairwise methodEB limits cd ld)
      "AUC".toList method cell)
    (hcell' : Shows (Classif.justBenchmark T' other' xTrain' yTrain' xTest' yTest' 2 methods' losses stdBinaryCurves refMethod' floor' pairwise' methodEB' limits'
      cd' ld') "AUC".toList method cell')
    {s s' : Fin n → ℝ} (hs : ∀ i, s i = (predicted floor (row method i)).getD 1 0) (hs' : ∀ i, s' i = (predicted floor' (row' method i)).getD 1 0) :
    ∃ a a' : ℝ, cell.1 = .fin a ∧ cell'.1 = .fin a' ∧
      |a - a'| ≤ rescored lab s s' true / numLab lab true + rescored lab s s' false / numLab lab false :=
  C148_benchmark (curves := stdBinaryCurves) hn hn' hk (by simp [stdBinaryCurves]) (by simp [stdBinaryCurves]) hloss ht ht' h1 h0 hm hm' hcell hcell' hs hs'

/-- Two thousand cases: `look` fails to get the higher AUC with probability at most `exp(-N Δ²/2)`. -/
example (other : Interp ℝ) (ld : Str → Str → Draws) (cd : BootDraws) :=
  C147_standard (P := Measure.pi (caseLaw manyLab)) (T := studentT) (other := other) (xTrain := coinTrainX)
    (yTrain := ⟨'i', [1]⟩) (methods := lookMethods)
    (losses := stdClassLoss) (refMethod := "blind".toList) (floor := .ninf) (pairwise := false) (methodEB := .t) (limits := [])
    (cd := fun _ => cd) (ld := fun _ => ld) (by change ["look".toList, "blind".toList].Nodup; decide) (by decide) (by decide)
    (row := lookRow) (cases_drawn manyLab) (fun ω => look_testSet manyLab ω)
    (by rw [manyLab_num.1]; norm_num) (by rw [manyLab_num.2]; norm_num) (fun _ _ => .of_discrete)
    (θ := fun m => rankProb loadedCoin fairCoin fun s => (predicted .ninf (lookRow m s)).getD 1 0) (fun _ _ => rfl) rfl

/-- The AUC of `look` for any two outcomes of three cases: the hypotheses about the test sets hold. -/
example (other : Interp ℝ) (ld : Str → Str → Draws) (cd : BootDraws) (ω ω' : Fin 3 → Bool) {cell cell' : Flt ℝ × Flt ℝ × Flt ℝ}
    (hcell : Shows (Classif.justBenchmark studentT other coinTrainX ⟨'i', [1]⟩ (coinTestX ω) (labY threeLab) 2 lookMethods stdClassLoss stdBinaryCurves
      "blind".toList .ninf false .t [] cd ld) "AUC".toList "look".toList cell)
    (hcell' : Shows (Classif.justBenchmark studentT other coinTrainX ⟨'i', [1]⟩ (coinTestX ω') (labY threeLab) 2 lookMethods stdClassLoss stdBinaryCurves
      "blind".toList .ninf false .t [] cd ld) "AUC".toList "look".toList cell') :=
  have hn : (lookMethods.map fun m => m.1).Nodup := by change ["look".toList, "blind".toList].Nodup; decide
  have hm : "look".toList ∈ lookMethods.map fun m => m.1 := by change "look".toList ∈ ["look".toList, "blind".toList]; decide
  C148_standard hn hn (by decide) (by decide) (look_testSet threeLab ω) (look_testSet threeLab ω') (by rw [threeLab_num.1]; norm_num)
    (by rw [threeLab_num.2]; norm_num) hm hm hcell hcell' (fun _ => rfl) fun _ => rfl

end Mlp.Props
