import Verif.Model.LossRound
import Verif.Props.RoundExact
import Verif.Props.CurveRoundExact
import Verif.Props.RegrNoise

/-!
# Property C119: losses, prediction tables and `just_benchmark` with rounding extend the exact models

With a rounding that does nothing and exact library functions, every function of `Verif/Model/LossRound.lean` is the function of
the exact model, for all arguments, exceptions included.
-/

namespace Mlp.Props
open Mlp.Util Mlp.Frame Mlp.PerfR Mlp.PaperR Mlp.CurveR Mlp.LossR Mlp.Spec Mlp.Lemmas

noncomputable section
variable (T : Nat → Paper.RefDist)

theorem fexpR_exact (v : Flt ℝ) : fexpR (exactLib T) v = fexp v := by cases v <;> rfl

theorem flogR_exact (v : Flt ℝ) : flogR (exactLib T) v = flog v := by cases v <;> rfl

theorem rF_exact (v : Flt ℝ) : rF (exactLib T).rnd v = v := rF_id v

theorem sumFR_exact (l : List (Flt ℝ)) : sumFR (exactLib T).sum l = Flt.sum l := sumFR_id l

theorem logsumexpR_exact (r : List (Flt ℝ)) : logsumexpR (exactLib T) r = logsumexp r := by
  simp only [logsumexpR, logsumexp, rF_exact, flogR_exact, sumFR_exact, fexpR_exact]

/-- **C119, `normalize`.** -/
theorem C119_normalize (p : Mat ℝ) : normalizeRowsR (exactLib T) p = normalizeRows p := by
  simp only [normalizeRowsR, normalizeRows, rF_exact, logsumexpR_exact]

/-- The exact inner product. -/
def exactDot (a b : List ℝ) : ℝ := (List.zipWith (fun (x y : ℝ) => x * y) a b).sum

theorem dotFR_exact (a b : List (Flt ℝ)) : dotFR exactDot a b = Flt.sum (List.zipWith Flt.mul a b) := by
  unfold dotFR
  split_ifs with h
  · simp only [Bool.and_eq_true] at h
    obtain ⟨xs, rfl⟩ := (Flt.all_finite_iff _).1 h.1
    obtain ⟨ys, rfl⟩ := (Flt.all_finite_iff _).1 h.2
    change Flt.fin (exactDot (numbers (finVec xs)) (numbers (finVec ys))) = _
    rw [numbers_fin, numbers_fin, exactDot, ← sum_fin]
    congr 1
    simp only [finVec, List.zipWith_map, List.map_zipWith]
    rfl
  · rfl

/-- **C119, decisions.** -/
theorem C119_decision (p m : Mat ℝ) : hardLossDecisionR (exactLib T) exactDot p m = Classif.hardLossDecision p m := by
  have e : fexpR (exactLib T) = fexp := funext (fexpR_exact T)
  simp only [hardLossDecisionR, Classif.hardLossDecision, dotMatR, Classif.dot, Classif.expMat, Classif.dotRow, dotFR_exact, e]
  rfl

/-- **C119, hard losses.** -/
theorem C119_hard_loss (m : Option (Mat ℝ)) (y : LabelVec) (p : Mat ℝ) :
    hardLossR (exactLib T) exactDot m y p = Classif.hardLoss m y p := by
  simp only [hardLossR, Classif.hardLoss, C119_decision]

/-- **C119, Brier loss.** -/
theorem C119_brier_loss (rescale : Bool) (y : LabelVec) (p : Mat ℝ) :
    brierLossR (exactLib T) rescale y p = Classif.brierLoss rescale y p := by
  have e : brierTermR (exactLib T) = fun (v : Flt ℝ) (k : Bool) =>
      ((fexp v).sub (Classif.boolFlt k)).mul ((fexp v).sub (Classif.boolFlt k)) := by
    funext v k; simp only [brierTermR, rF_exact, fexpR_exact]
  simp only [brierLossR, Classif.brierLoss, e, rF_exact, sumFR_exact]
  rfl

/-- **C119, spherical loss.** -/
theorem C119_spherical_loss (rescale : Bool) (y : LabelVec) (p : Mat ℝ) :
    sphericalLossR (exactLib T) rescale y p = Classif.sphericalLoss rescale y p := by
  simp only [sphericalLossR, Classif.sphericalLoss, rF_exact, fexpR_exact, logsumexpR_exact]
  rfl

/-- **C119, the standard losses.** -/
theorem C119_std_class_loss : stdClassLossR (exactLib T) exactDot = Classif.stdClassLoss := by
  have h1 : brierLossR (exactLib T) true = Classif.brierLoss true := by funext y p; exact C119_brier_loss T true y p
  have h2 : sphericalLossR (exactLib T) true = Classif.sphericalLoss true := by funext y p; exact C119_spherical_loss T true y p
  have h3 : hardLossR (exactLib T) exactDot none = Classif.hardLoss none := by funext y p; exact C119_hard_loss T none y p
  simp only [stdClassLossR, Classif.stdClassLoss, h1, h2, h3]

/-- **C119, loss tables.** -/
theorem C119_loss_table (t : PredTable ℝ) (y : LabelVec) (metrics : List (Str × Classif.Metric)) (b : Bool) :
    lossTableR (exactLib T) t y metrics b = Classif.lossTable t y metrics b := by
  have e : lossMethodR (exactLib T) t y metrics b = Classif.lossMethod t y metrics b := by
    funext cols method
    simp only [lossMethodR, Classif.lossMethod, C119_normalize]
  simp only [lossTableR, Classif.lossTable, e]

/-- **C119, `JustNoise` for classification.** -/
theorem C119_class_noise {D : Type} (n : Nat) (c : ℝ) :
    justNoiseR (D := D) (exactLib T) n c = Classif.justNoise n c := by
  funext x y
  have e : justNoiseFitR (exactLib T) n c y = Classif.justNoiseFit n c y := by
    simp only [justNoiseFitR, Classif.justNoiseFit, rF_exact, flogR_exact]
    rfl
  simp only [justNoiseR, Classif.justNoise, e]

/-- **C119, `get_pred_log_prob`.** -/
theorem C119_predictions {D : Type} (xTrain : Classif.Features D) (yTrain : LabelVec) (xTest : Classif.Features D)
    (nLabels : Nat) (methods : List (Str × Classif.Estimator D)) (c : Flt ℝ) :
    getPredLogProbR (exactLib T) xTrain yTrain xTest nLabels methods c =
      Classif.getPredLogProb xTrain yTrain xTest nLabels methods c := by
  have e : flogR (exactLib T) = flog := funext (flogR_exact T)
  have h1 : trainPredictR (exactLib T) xTrain yTrain xTest = Classif.trainPredict xTrain yTrain xTest := by
    funext m
    simp only [trainPredictR, Classif.trainPredict]
    have e2 : predictOfR (D := D) (exactLib T) = Classif.predictOf := by
      funext f x
      simp only [predictOfR, Classif.predictOf, e, Classif.logMat]
      rfl
    rw [e2]
  have h2 : ∀ n run, predStepR (exactLib T) n nLabels c run = Classif.predStep (D := D) n nLabels c run := by
    intro n run
    funext cols m
    simp only [predStepR, Classif.predStep, storeProbR, Classif.storeProb, C119_normalize]
  simp only [getPredLogProbR, Classif.getPredLogProb, h1, h2]

/-- **C119, `summary_table`.** -/
theorem C119_summary_table (other : Classif.Interp ℝ) (t : PredTable ℝ) (y : LabelVec) (losses : List (Str × Classif.Metric))
    (curves : List (Str × Classif.CurveF ℝ)) (ref : Str) (g : Option (List (Flt ℝ))) (n : Int) (pairwise : Bool) (c : Flt ℝ)
    (m : Paper.EBMethod) (limits : List (Str × (Flt ℝ × Flt ℝ))) (d : Classif.BootDraws) (e : Str → Str → Paper.Draws) :
    summaryTableR (exactLib T) other t y losses curves ref g n pairwise c m limits d e =
      Classif.summaryTable T other t y losses curves ref g n pairwise c m limits d e := by
  have h : curveSummaryTableR (exactLib T).rnd (exactLib T).sum other t y curves ref g n pairwise c d =
      Classif.curveSummaryTable other t y curves ref g n pairwise c d := C113_table ..
  simp only [summaryTableR, Classif.summaryTable, h, C119_loss_table, C110_table]

/-- **C119, the standard curves.** -/
theorem C119_std_curves : stdBinaryCurvesR (exactLib T) = Classif.stdBinaryCurves := by
  have h1 : rocCurveR (exactLib T).rnd (exactLib T).sum = Perf.rocCurve := by funext a b c; exact C110_roc a b c
  have h2 : recallPrecisionCurveR (exactLib T).rnd (exactLib T).sum = Perf.recallPrecisionCurve := by
    funext a b c; exact C110_recall_precision a b c
  have h3 : prgCurveR (exactLib T).rnd (exactLib T).sum = Perf.prgCurve := by funext a b c; exact C110_prg a b c
  simp only [stdBinaryCurvesR, Classif.stdBinaryCurves, h1, h2, h3]

/-- **C119, `just_benchmark` for classification.** -/
theorem C119_class_benchmark {D : Type} (other : Classif.Interp ℝ) (xTrain : Classif.Features D) (yTrain : LabelVec)
    (xTest : Classif.Features D) (yTest : LabelVec) (nLabels : Nat) (methods : List (Str × Classif.Estimator D))
    (losses : List (Str × Classif.Metric)) (curves : List (Str × Classif.CurveF ℝ)) (ref : Str) (c : Flt ℝ) (pairwise : Bool)
    (m : Paper.EBMethod) (limits : List (Str × (Flt ℝ × Flt ℝ))) (d : Classif.BootDraws) (e : Str → Str → Paper.Draws) :
    justBenchmarkR (exactLib T) other xTrain yTrain xTest yTest nLabels methods losses curves ref c pairwise m limits d e =
      Classif.justBenchmark T other xTrain yTrain xTest yTest nLabels methods losses curves ref c pairwise m limits d e := by
  simp only [justBenchmarkR, Classif.justBenchmark, C119_predictions, C119_summary_table]
  rfl

/-- **C119, square loss.** -/
theorem C119_square_loss : squareLossR (exactLib T) = Regr.squareLoss := by
  funext y mu std; simp only [squareLossR, Regr.squareLoss, rF_exact]

/-- **C119, absolute loss.** -/
theorem C119_abs_loss : absLossR (exactLib T) = Regr.absLoss := by
  funext y mu std; simp only [absLossR, Regr.absLoss, rF_exact]

/-- **C119, log loss of Gaussian predictions.** -/
theorem C119_log_loss : logLossR (exactLib T) = Regr.logLoss := by
  funext y mu std; simp only [logLossR, Regr.logLoss, normLogpdfR, Regr.normLogpdf, rF_exact, flogR_exact]; rfl

/-- **C119, the standard losses for regression.** -/
theorem C119_std_regr_loss : stdRegrLossR (exactLib T) = Regr.stdRegrLoss := by
  simp only [stdRegrLossR, Regr.stdRegrLoss, C119_square_loss, C119_abs_loss, C119_log_loss]

/-- **C119, `JustNoise` for regression.** -/
theorem C119_regr_noise {D : Type} : regrNoiseR (D := D) (exactLib T) = Regr.justNoise := by
  funext x y
  have h : 2 ≤ y.data.length → npStdR (exactLib T) y.data = Regr.npStd y.data := by
    intro hn
    unfold npStdR
    split_ifs with h
    · obtain ⟨xs, hx⟩ := (Flt.all_finite_iff _).1 h
      have hne : xs ≠ [] := by rintro rfl; rw [hx] at hn; simp at hn
      rw [hx, npStd_real hne]
      change Flt.fin (Real.sqrt (varR (exactLib T) 0 (Paper.finVals (finVec xs)))) = _
      rw [finVals_finVec, varR_exact, Paper.varK, sub_zero]
      rfl
    · rfl
  have e : regrNoiseFitR (exactLib T) y = Regr.justNoiseFit y := by
    by_cases hn : 2 ≤ y.data.length
    · simp only [regrNoiseFitR, Regr.justNoiseFit, meanFR_exact, h hn]
    · simp only [regrNoiseFitR, Regr.justNoiseFit, decide_eq_false hn]
      rfl
  simp only [regrNoiseR, Regr.justNoise, e]

/-- **C119, `just_benchmark` for regression.** -/
theorem C119_regr_benchmark {D : Type} (a b : Str) (xTrain : Classif.Features D) (yTrain : Regr.Arr)
    (xTest : Classif.Features D) (yTest : Regr.Arr) (methods : List (Str × Regr.Estimator D)) (losses : List (Str × Regr.Loss))
    (ref : Str) (c : Flt ℝ) (pairwise : Bool) (m : Paper.EBMethod) (limits : List (Str × (Flt ℝ × Flt ℝ)))
    (d : Str → Str → Paper.Draws) :
    regrBenchmarkR (exactLib T) a b xTrain yTrain xTest yTest methods losses ref c pairwise m limits d =
      Regr.justBenchmark T a b xTrain yTrain xTest yTest methods losses ref c pairwise m limits d := by
  simp only [regrBenchmarkR, Regr.justBenchmark, C110_table]
  rfl

end
end Mlp.Props
