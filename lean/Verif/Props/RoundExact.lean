import Verif.Props.MeanRound
import Verif.Props.Gain

/-!
# Property C110: the models with rounding extend the exact models

With a rounding that does nothing and exact library functions, every function of the models with rounding is the function of the
exact model.
-/

namespace Mlp.Props
open Mlp.Paper Mlp.PaperR Mlp.PerfR Mlp.Perf Mlp.BootR Mlp.Boot Mlp.Util Mlp.Spec Mlp.Lemmas

section
variable {K : Type} [Field K] [LinearOrder K] [IsStrictOrderedRing K] [FloorRing K]

theorem rF_id (v : Flt K) : rF id v = v := by cases v <;> rfl

theorem diffR_id (l : List K) : diffR id l = diffK l := rfl

theorem diffFR_id (l : List (Flt K)) : diffFR id l = diff l := by
  simp only [diffFR, rF_id]; rfl

theorem cumsumR_id (acc : K) (l : List K) : cumsumR id acc l = cumsumFrom acc l := by
  induction l generalizing acc with
  | nil => rfl
  | cons a l ih => simp [cumsumR, cumsumFrom, ih]

theorem allcloseR_id (a b : K) : allcloseR id a b = allclose a b := rfl

theorem addPseudoPointsR_id (fps tps : List (List K)) : addPseudoPointsR id fps tps = addPseudoPoints fps tps := rfl

theorem countsWeightedR_id (y : List Bool) (idx tidx : List Nat) (w : List K) :
    countsWeightedR id List.sum y idx tidx w = countsWeighted y idx tidx w := by
  simp only [countsWeightedR, countsWeighted, cumsumR_id, allcloseR_id, id_eq]

theorem binaryClfCurveR_id (y : List Bool) (s : List (Flt K)) (w : Option (Mat K)) :
    binaryClfCurveR id List.sum y s w = binaryClfCurve y s w := by
  have h : ∀ y idx tidx, countsOfR (K := K) id List.sum y idx tidx w = countsOf y idx tidx w := by
    intro y idx tidx
    cases w <;> simp only [countsOfR, countsOf, countsWeightedR_id]
  simp only [binaryClfCurveR, binaryClfCurve, h, diffR_id, addPseudoPointsR_id]

/-- **C110, ROC curves.** -/
theorem C110_roc (y : List Bool) (s : List (Flt K)) (w : Option (Mat K)) :
    rocCurveR id List.sum y s w = rocCurve y s w := by
  have h : overLastR (K := K) id = overLast := by funext r; simp only [overLastR, overLast, rF_id]
  simp only [rocCurveR, rocCurve, binaryClfCurveR_id, h]

/-- **C110, recall-precision curves.** -/
theorem C110_recall_precision (y : List Bool) (s : List (Flt K)) (w : Option (Mat K)) :
    recallPrecisionCurveR id List.sum y s w = recallPrecisionCurve y s w := by
  have h : overLastR (K := K) id = overLast := by funext r; simp only [overLastR, overLast, rF_id]
  have h2 : precisionRowR (K := K) id = precisionRow := by funext r t; simp only [precisionRowR, precisionRow, rF_id, id_eq]
  simp only [recallPrecisionCurveR, recallPrecisionCurve, binaryClfCurveR_id, h, h2]

/-- **C110, precision-recall-gain curves.** -/
theorem C110_prg (y : List Bool) (s : List (Flt K)) (w : Option (Mat K)) :
    prgCurveR id List.sum y s w = prgCurve y s w := by
  have h : recGainRowR (K := K) id = recGainRow := by funext r t; simp only [recGainRowR, recGainRow, gainR, rF_id, id_eq]
  have h2 : precGainRowR (K := K) id = precGainRow := by funext r t; simp only [precGainRowR, precGainRow, gainR, rF_id, id_eq]
  simp only [prgCurveR, prgCurve, binaryClfCurveR_id, h, h2, diffFR_id]

theorem confidenceToPercentilesR_id (c : Flt K) : confidenceToPercentilesR id c = confidenceToPercentiles c := rfl

/-- **C110, bootstrap confidence intervals.** -/
theorem C110_percentile (b : List (Flt K)) (c : Flt K) : percentileR id b c = percentile b c := rfl

/-- **C110, basic bootstrap intervals.** -/
theorem C110_basic (b : List (Flt K)) (o c : Flt K) : basicR id b o c = basic b o c := by
  simp only [basicR, basic, rF_id, C110_percentile]

/-- **C110, bootstrap error bars.** -/
theorem C110_error_bar (b : List (Flt K)) (o c : Flt K) : errorBarR id b o c = errorBar b o c := by
  simp only [errorBarR, errorBar, rF_id, C110_percentile]

/-- **C110, bootstrap p-values.** -/
theorem C110_significance (b : List (Flt K)) (r : Ref K) : significanceR id b r = significance b r := by
  have h : meanBoolR (K := K) id = meanBool := by funext l; simp only [meanBoolR, meanBool, rF_id]
  simp only [significanceR, significance, rF_id, h]
  cases r <;> rfl

end

noncomputable section

/-- The library functions without any error, `T n` being the reference distribution with `n` degrees of freedom. -/
def exactLib (T : Nat → RefDist) : Lib ℝ where
  rnd := id
  sum := List.sum
  sqrt := Real.sqrt
  log := Real.log
  exp := Real.exp
  roots := quadRoots
  tInterval n c := ((T n).ppf ((1 - c) / 2), (T n).ppf ((1 + c) / 2))
  tSf n t := (T n).sf t

variable (T : Nat → RefDist)

theorem meanR_exact (xs : List ℝ) : meanR (exactLib T) xs = meanK xs := rfl

theorem sum_fin (xs : List ℝ) : Flt.sum (finVec xs) = .fin xs.sum := by
  induction xs with
  | nil => rfl
  | cons a l ih =>
    rw [show finVec (a :: l) = .fin a :: finVec l from rfl, flt_sum_cons, ih, List.sum_cons]
    rfl

theorem meanFR_exact (x : List (Flt ℝ)) : meanFR (exactLib T) x = Flt.mean x := by
  unfold meanFR
  split_ifs with h
  · obtain ⟨xs, rfl⟩ := (Flt.all_finite_iff _).1 h
    change rF id ((Flt.fin (finVals (finVec xs)).sum).div (.fin _)) = Flt.mean (finVec xs)
    rw [rF_id, finVals_finVec, Flt.mean, sum_fin]
    rfl
  · rfl

theorem varR_exact (d : ℝ) (xs : List ℝ) : varR (exactLib T) d xs = varK d xs := by
  unfold varR varK
  rw [meanR_exact]
  simp only [show (exactLib T).rnd = id from rfl, show (exactLib T).sum = List.sum from rfl, id_eq, pow_two]

/-- **C110, clipping.** -/
theorem C110_clip_chk (a lo hi : Flt ℝ) : clipChkR (exactLib T) a lo hi = clipChk a lo hi := by
  have h : ∀ a b : Flt ℝ, iscloseR (exactLib T) a b = isclose a b := by
    intro a b; cases a <;> cases b <;> rfl
  simp only [clipChkR, clipChk, h]

/-- **C110, clipping of error bars.** -/
theorem C110_clip_EB (mu EB lo hi b : Flt ℝ) : clipEBR (exactLib T) mu EB lo hi b = clipEB mu EB lo hi b := by
  simp only [clipEBR, clipEB, show (exactLib T).rnd = id from rfl, rF_id]

/-- **C110, t-test.** -/
theorem C110_t_test (x : List (Flt ℝ)) : tTestR (exactLib T) x = tTest T x := by
  simp only [tTestR, tTest, show (exactLib T).rnd = id from rfl, rF_id, id_eq, varR_exact, meanR_exact,
    show (exactLib T).sqrt = Real.sqrt from rfl, show (exactLib T).tSf = fun n t => (T n).sf t from rfl]
  congr!

/-- **C110, t error bars.** -/
theorem C110_t_EB (x : List (Flt ℝ)) (c : Flt ℝ) : tEBR (exactLib T) x c = tEB T x c := by
  have h : numOf c = realOf c := by cases c <;> rfl
  simp only [tEBR, tEB, show (exactLib T).rnd = id from rfl, rF_id, id_eq, varR_exact, meanR_exact, h,
    show (exactLib T).sqrt = Real.sqrt from rfl,
    show (exactLib T).tInterval = fun n c => ((T n).ppf ((1 - c) / 2), (T n).ppf ((1 + c) / 2)) from rfl]
  rfl

/-- **C110, Bernstein test.** -/
theorem C110_bernstein_test (x : List (Flt ℝ)) (lo hi : Flt ℝ) :
    bernsteinTestR (exactLib T) x lo hi = bernsteinTest x lo hi := by
  simp only [bernsteinTestR, bernsteinTest, show (exactLib T).rnd = id from rfl, rF_id, id_eq, varR_exact, meanR_exact,
    show (exactLib T).sqrt = Real.sqrt from rfl, show (exactLib T).exp = Real.exp from rfl,
    show (exactLib T).roots = quadRoots from rfl, ← pow_two]
  cases hi.sub lo with
  | fin R =>
    congr! 6
    dsimp only
    congr! 1
    rcases quadRoots _ _ _ with _ | ⟨r₁, r₂⟩ <;> congr!
  | _ => rfl

/-- **C110, Bernstein error bars.** -/
theorem C110_bernstein_EB (x : List (Flt ℝ)) (lo hi c : Flt ℝ) :
    bernsteinEBR (exactLib T) x lo hi c = bernsteinEB x lo hi c := by
  have h : numOf c = realOf c := by cases c <;> rfl
  simp only [bernsteinEBR, bernsteinEB, show (exactLib T).rnd = id from rfl, rF_id, id_eq, varR_exact, h,
    show (exactLib T).sqrt = Real.sqrt from rfl, show (exactLib T).log = Real.log from rfl]
  rfl

/-- **C110, bootstrap over the data.** -/
theorem C110_boot_EB_test (x : List (Flt ℝ)) (c : Flt ℝ) (n : Nat) (counts : List (List Nat)) (a b d : Bool) :
    bootEBTestR (exactLib T) x c n counts a b d = bootEBTest x c n counts a b d := by
  simp only [bootEBTestR, bootEBTest, show (exactLib T).rnd = id from rfl, id_eq, meanR_exact, C110_significance,
    C110_error_bar, C110_percentile]

theorem C110_boot_test (x : List (Flt ℝ)) (n : Nat) (counts : List (List Nat)) :
    bootTestR (exactLib T) x n counts = bootTest x n counts := by
  simp only [bootTestR, bootTest, C110_boot_EB_test, defaultConfidence, show (exactLib T).rnd = id from rfl, id_eq]

theorem C110_boot_EB (x : List (Flt ℝ)) (c : Flt ℝ) (n : Nat) (counts : List (List Nat)) :
    bootEBR (exactLib T) x c n counts = bootEB x c n counts := by
  simp only [bootEBR, bootEB, C110_boot_EB_test]

/-- **C110, mean and error bar.** -/
theorem C110_mean_EB (x : List (Flt ℝ)) (c b lo hi : Flt ℝ) (method : EBMethod) (counts : List (List Nat)) :
    getMeanEBR (exactLib T) x c b lo hi method counts = getMeanEB T x c b lo hi method counts := by
  cases method <;>
    simp only [getMeanEBR, getMeanEB, C110_t_EB, C110_bernstein_EB, C110_boot_EB, C110_clip_chk, C110_clip_EB, meanFR_exact]

/-- **C110, p-value.** -/
theorem C110_test (x : List (Flt ℝ)) (lo hi : Flt ℝ) (method : EBMethod) (counts : List (List Nat)) :
    getTestR (exactLib T) x lo hi method counts = getTest T x lo hi method counts := by
  cases method <;> simp only [getTestR, getTest, C110_t_test, C110_bernstein_test, C110_boot_test]

/-- **C110, mean, error bar and p-value.** -/
theorem C110_mean_EB_test (x : List (Flt ℝ)) (c b lo hi : Flt ℝ) (method : EBMethod) (counts : List (List Nat)) :
    getMeanEBTestR (exactLib T) x c b lo hi method counts = getMeanEBTest T x c b lo hi method counts := by
  cases method <;>
    simp only [getMeanEBTestR, getMeanEBTest, C110_t_EB, C110_bernstein_EB, C110_boot_EB_test, C110_t_test, C110_bernstein_test,
      C110_clip_chk, C110_clip_EB, meanFR_exact]

/-- **C110, tables.** -/
theorem C110_table (tbl : LossTable) (ref : Str) (pairwise : Bool) (c : Flt ℝ) (method : EBMethod)
    (limits : List (Str × (Flt ℝ × Flt ℝ))) (draws : Str → Str → Draws) :
    lossSummaryTableR (exactLib T) tbl ref pairwise c method limits draws =
      lossSummaryTable T tbl ref pairwise c method limits draws := by
  have h : ∀ lossRef lo hi metric d meth, lossCellR (exactLib T) lossRef tbl ref pairwise c method lo hi metric d meth =
      lossCell T lossRef tbl ref pairwise c method lo hi metric d meth := by
    intro lossRef lo hi metric d meth
    simp only [lossCellR, lossCell, cellOfR, show (exactLib T).rnd = id from rfl, rF_id, meanFR_exact, C110_mean_EB_test,
      C110_mean_EB, C110_test]
  simp only [lossSummaryTableR, lossSummaryTable, h]

end
end Mlp.Props
