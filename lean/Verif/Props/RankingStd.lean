import Verif.Props.RankingEx

/-! # C142 for the standard curves: the column with the label AUC -/

namespace Mlp.Props
open Mlp Mlp.Util Mlp.Spec Mlp.Classif Mlp.Lemmas Mlp.Frame Mlp.Boot Mlp.Perf Mlp.Paper MeasureTheory ProbabilityTheory

variable {D S Ω : Type} [MeasurableSpace S] [MeasurableSpace Ω] {P : Measure Ω} [IsProbabilityMeasure P] {pos neg : Measure S}
  [IsProbabilityMeasure pos] [IsProbabilityMeasure neg]

/-- **C142, the column AUC.**  With `STD_BINARY_CURVES` it is the column labelled AUC that has the expected value, variance and error probability. -/
theorem C142_standard {T : Nat → RefDist} {other : Interp ℝ} {xTrain : Features D} {yTrain : LabelVec} {xTest : Ω → Features D}
    {yTest : Ω → LabelVec} {methods : List (Str × Classif.Estimator D)} {losses : List (Str × Metric)} {refMethod : Str} {floor : Flt ℝ}
    {pairwise : Bool} {methodEB : EBMethod} {limits : List (Str × (Flt ℝ × Flt ℝ))} {cd : Ω → BootDraws} {ld : Ω → Str → Str → Draws}
    (hn : (methods.map fun m => m.1).Nodup) (hk : (losses.map fun m => m.1).Nodup) (hloss : "AUC".toList ∉ losses.map fun m => m.1)
    {n : ℕ} {lab : Fin n → Bool} {row : Str → S → List (Flt ℝ)} {draw : Fin n → Ω → S} (hd : DrawnCases P pos neg lab draw)
    (ht : ∀ ω, TestSet xTrain yTrain (xTest ω) (yTest ω) 2 methods floor (fun i => if lab i then 1 else 0) fun m i => row m (draw i ω))
    (h1 : 0 < numLab lab true) (h0 : 0 < numLab lab false) {method : Str} (hm : method ∈ methods.map fun m => m.1)
    (hg : Measurable fun s => (predicted floor (row method s)).getD 1 0) :
    ∃ auc : Ω → ℝ, (∀ ω cell, Shows (Classif.justBenchmark T other xTrain yTrain (xTest ω) (yTest ω) 2 methods losses stdBinaryCurves refMethod floor
        pairwise methodEB limits (cd ω) (ld ω)) "AUC".toList method cell → cell.1 = .fin (auc ω)) ∧
      Measurable auc ∧ Integrable auc P ∧ ∫ ω, auc ω ∂P = rankProb pos neg (fun s => (predicted floor (row method s)).getD 1 0) ∧
      ∫ ω, (auc ω - rankProb pos neg (fun s => (predicted floor (row method s)).getD 1 0)) ^ 2 ∂P ≤ (1 / numLab lab true + 1 / numLab lab false) / 4 ∧
      ∀ ε > 0, P.real {ω | ε ≤ |auc ω - rankProb pos neg (fun s => (predicted floor (row method s)).getD 1 0)|} ≤
        (1 / numLab lab true + 1 / numLab lab false) / (4 * ε ^ 2) :=
  C142_benchmark (curves := stdBinaryCurves) hn hk (by simp [stdBinaryCurves]) (by simp [stdBinaryCurves]) hloss hd ht h1 h0 hm hg

/-- The expected value of the column AUC in the example with three cases is 5/8. -/
example (other : Interp ℝ) (ld : Str → Str → Draws) :
    ∃ auc : (Fin 3 → Bool) → ℝ, (∀ ω cell, Shows (Classif.justBenchmark studentT other coinTrainX ⟨'i', [1]⟩ (coinTestX ω) (labY threeLab) 2 lookMethods
      stdClassLoss stdBinaryCurves "blind".toList .ninf false .t [] (fun _ _ => List.replicate 1000 (List.replicate 3 0)) ld) "AUC".toList "look".toList cell →
        cell.1 = .fin (auc ω)) ∧ ∫ ω, auc ω ∂(Measure.pi (caseLaw threeLab)) = 5 / 8 := by
  have hn : (lookMethods.map fun m => m.1).Nodup := by change ["look".toList, "blind".toList].Nodup; decide
  have hm : "look".toList ∈ lookMethods.map fun m => m.1 := by change "look".toList ∈ ["look".toList, "blind".toList]; decide
  obtain ⟨auc, h1, -, -, h2, -⟩ := C142_standard (T := studentT) (other := other) (xTrain := coinTrainX) (yTrain := ⟨'i', [1]⟩) (methods := lookMethods)
    (losses := stdClassLoss) (refMethod := "blind".toList) (floor := .ninf) (pairwise := false) (methodEB := .t) (limits := [])
    (cd := fun _ _ _ => List.replicate 1000 (List.replicate 3 0)) (ld := fun _ => ld) hn (by decide) (by decide) (row := lookRow)
    (cases_drawn threeLab) (fun ω => look_testSet threeLab ω) (by rw [threeLab_num.1]; norm_num) (by rw [threeLab_num.2]; norm_num) hm .of_discrete
  refine ⟨auc, h1, h2.trans (loaded_rank ?_)⟩
  rw [look_predicted.1, look_predicted.2.1]
  norm_num

end Mlp.Props
