import Verif.Props.CurveTableRound
import Verif.Props.TableDouble
import Verif.Props.AucDouble

/-! # Concrete cases for the properties C104 to C106 and C113 to C116 -/

namespace Mlp.Props
open Mlp.PerfR Mlp.Perf Mlp.BootR Mlp.Boot Mlp.Util Mlp.Spec Mlp.Lemmas Mlp.CurveR Mlp.Classif Mlp.Frame Mlp.Round

/-- C113: without rounding the area under the curve through (0, 0), (1/3, 1/2) and (1, 1) is the exact one. -/
example : areaR id List.sum (finMat 3 [[0, 1 / 3, (1 : ℚ)]]) (finMat 3 [[0, 1 / 2, 1]]) .linear = .ok [.fin (7 / 12)] := by
  rw [C113_area]
  decide +kernel

/-- C113: without rounding the step function with the points (1/3, 5) and (1/2, 7) and the initial value 2 is the exact one,
also if the points are not sorted. -/
example : evalStepFuncR id (fun _ => [1, 0]) [.fin 0, .fin (2 / 5), .fin 1] [.fin (1 / 2), .fin (1 / 3 : ℚ)] [7, 5] (some 2)
    false false = .ok [2, 5, 7] := by
  rw [(C113_step _ _ _ _ _ _ _).1]
  decide +kernel

/-- C114: the area under a step curve in double precision is not exact, but within `6u` of the exact one. -/
example : ∃ a : ℚ, areaR binary64 doubleSum (finMat 3 [[0, 1 / 3, (1 : ℚ)]]) (finMat 3 [[1, 1 / 2, 1]]) .previous = .ok [.fin a] ∧
    a ≠ 2 / 3 ∧ |a - 2 / 3| ≤ 6 / 2 ^ 53 := by
  obtain ⟨A, S, B, h1, h2, h3, h4, h5⟩ := C114_area (rnd := binary64) doubleSum_trees (u := (1 / 2 ^ 53 : ℚ)) (by positivity)
    binary64_relError (n := 3) (X := [[0, 1 / 3, 1]]) (Y := [[1, 1 / 2, 1]]) (by norm_num)
    (by decide +kernel) (by simp) rfl (kind := .previous) (Or.inl rfl)
  have e2 : area (finMat 3 [[0, 1 / 3, (1 : ℚ)]]) (finMat 3 [[1, 1 / 2, 1]]) .previous = .ok (finVec [2 / 3]) := by decide +kernel
  have e3 : area (finMat 3 [[0, 1 / 3, (1 : ℚ)]]) (finMat 3 ([[1, 1 / 2, 1]].map fun r => r.map fun v => |v|)) .previous =
      .ok (finVec [2 / 3]) := by decide +kernel
  have inj : ∀ {l m : List ℚ}, finVec l = finVec m → l = m := fun h => List.map_injective_iff.2 (fun a b hab => by simpa using hab) h
  obtain rfl := inj (Except.ok.inj (h2.symm.trans e2))
  obtain rfl := inj (Except.ok.inj (h3.symm.trans e3))
  obtain ⟨a, rfl⟩ := List.length_eq_one_iff.1 h4
  refine ⟨a, h1, ?_, ?_⟩
  · rintro rfl
    have : areaR binary64 doubleSum (finMat 3 [[0, 1 / 3, (1 : ℚ)]]) (finMat 3 [[1, 1 / 2, 1]]) .previous ≠ .ok [.fin (2 / 3)] := by
      decide +kernel
    exact this h1
  · have := h5 0 a (2 / 3) (2 / 3) rfl rfl rfl
    refine this.trans ?_
    norm_num

/-- C115: the hypotheses of `C115_table_success` hold for a table of two methods; so there is a table in double precision, to
which the other theorems apply. -/
theorem curveExampleR (other : Interp ℚ) : ∃ out, curveSummaryTableR binary64 doubleSum other curveTable2 ⟨'i', [0, 1]⟩
    [("AUC".toList, rocCurveR binary64 doubleSum), ("AP".toList, recallPrecisionCurveR binary64 doubleSum)] "a".toList none 2 true
    (.fin (95 / 100)) (fun _ _ => [[1, 1], [2, 0]]) = .ok out := by
  refine C115_table_success (y := ⟨'i', [0, 1]⟩) (n := 2) (xGrid := none) (draws := fun _ _ => [[1, 1], [2, 0]]) (conf := 95 / 100)
    doubleSum_trees other goodBinary2 rfl (Or.inr rfl) (by simp) (by simp) ?_ (by decide) (by simp) (by norm_num) (by norm_num)
    (fun _ _ => ⟨rfl, by simp [curveTable2]⟩) (by norm_num) (by norm_num)
  intro c hc
  simp only [List.mem_cons, List.not_mem_nil, or_false] at hc
  rcases hc with rfl | rfl
  · exact ⟨_, _, .roc, by decide, fun _ => rfl⟩
  · exact ⟨_, _, .recallPrecision, by decide, fun _ => rfl⟩

example (other : Interp ℚ) : ∃ tbl dump, curveSummaryTableR binary64 doubleSum other curveTable2 ⟨'i', [0, 1]⟩
    [("AUC".toList, rocCurveR binary64 doubleSum), ("AP".toList, recallPrecisionCurveR binary64 doubleSum)] "a".toList none 2 true
    (.fin (95 / 100)) (fun _ _ => [[1, 1], [2, 0]]) = .ok (tbl, dump) ∧ ("b".toList, "AP".toList) ∈ dump.map (·.1) := by
  obtain ⟨⟨tbl, dump⟩, h⟩ := curveExampleR other
  exact ⟨tbl, dump, h, ((C115_table_dump (by decide) (by decide) h).2 _).2 (by decide)⟩

/-! ### Curves with weights: three samples of both classes, weights 2, 1/2 and 3 -/

/-- The data are valid, with weights and without. -/
theorem roundInput : CurveInput [true, false, true] [3, 2, (2 : ℚ)] (some [[2, 1 / 2, 3]]) ∧
    CurveInput [true, false, true] [3, 2, (2 : ℚ)] none :=
  ⟨⟨rfl, by simp, by simp [weightRows], by decide +kernel⟩, ⟨rfl, by simp, by simp [weightRows], by decide +kernel⟩⟩

theorem roundSum : SumError (1 / 2 ^ 53 : ℚ) doubleSum := sumError_of_trees (by norm_num) binary64_relError doubleSum_trees

/-- C105: the three curves are computed for these data. -/
theorem roundCurves : (∃ v, rocCurveR binary64 doubleSum [true, false, true] (finVec [3, 2, (2 : ℚ)]) (some (finMat 3 [[2, 1 / 2, 3]])) = .ok v) ∧
    (∃ v, prgCurveR binary64 doubleSum [true, false, true] (finVec [3, 2, (2 : ℚ)]) (some (finMat 3 [[2, 1 / 2, 3]])) = .ok v) ∧
    ∃ v, recallPrecisionCurveR binary64 doubleSum [true, false, true] (finVec [3, 2, (2 : ℚ)]) (some (finMat 3 [[2, 1 / 2, 3]])) = .ok v := by
  obtain ⟨h1, h2⟩ := C105_weighted binary64_floatRounding roundInput.1 (u := 1 / 2 ^ 53) (by norm_num) binary64_relError roundSum
    (by norm_num) (by simp) (fun _ => by decide +kernel)
  exact ⟨h1, h2, C105_recall_precision binary64_floatRounding roundInput.1 (u := 1 / 2 ^ 53) (by norm_num) binary64_relError
    roundSum (by norm_num) (by simp) (fun _ => by decide +kernel)⟩

/-- C104, C106 and C116: so the hypotheses of the theorems about these curves hold for them. -/
example : ∃ (c : Curve ℚ) (thr : List (Flt ℚ)) (A : List ℚ),
    rocCurveR binary64 doubleSum [true, false, true] (finVec [3, 2, (2 : ℚ)]) (some (finMat 3 [[2, 1 / 2, 3]])) = .ok (c, thr) ∧
    (∀ r ∈ c.x.rows, Rises r) ∧ c.y.rows ≠ [] ∧ areaR binary64 doubleSum c.x c.y c.kind = .ok (finVec A) ∧
    ∀ a ∈ A, |a - 7 / 10| ≤ 2000 / 2 ^ 53 := by
  obtain ⟨⟨c, thr⟩, h⟩ := roundCurves.1
  obtain ⟨-, -, -, -, h2, -⟩ := C104_roc binary64_floatRounding roundInput.1 (by simp) h
  have h3 := (C106_roc binary64_floatRounding roundInput.1 (u := 1 / 2 ^ 53) (by norm_num) binary64_relError (by norm_num)
    (by simp) (by simp) (by simp) h).2
  obtain ⟨A, h4, h5⟩ := C116_roc binary64_floatRounding doubleSum_trees roundInput.1 (u := 1 / 2 ^ 53) (by norm_num)
    binary64_relError (by norm_num) (by simp) (by simp) (by simp) h
  refine ⟨c, thr, A, h, fun r hr => (h2 r hr).1, ?_, h4, ?_⟩
  · intro e
    rw [e] at h3
    simp [weightRows] at h3
  · obtain _ | ⟨h6, h8⟩ := h5
    cases h8
    have h7 := h6 (by decide +kernel)
    intro b hb
    obtain rfl := by simpa using hb
    have e1 : mannWhitney (samples [true, false, true] [3, 2, (2 : ℚ)] [2, 1 / 2, 3]) = 7 / 10 := by decide +kernel
    rw [e1] at h7
    refine h7.trans (by decide +kernel)

example : ∃ (c : Curve ℚ) (thr : List (Flt ℚ)),
    recallPrecisionCurveR binary64 doubleSum [true, false, true] (finVec [3, 2, (2 : ℚ)]) (some (finMat 3 [[2, 1 / 2, 3]])) = .ok (c, thr) ∧
    c.kind = .previous := by
  obtain ⟨⟨c, thr⟩, h⟩ := roundCurves.2.2
  exact ⟨c, thr, h, (C104_recall_precision binary64_floatRounding roundInput.1 (by simp) h).2.1⟩

example : ∃ (c : Curve ℚ) (thr : List (Flt ℚ)),
    prgCurveR binary64 doubleSum [true, false, true] (finVec [3, 2, (2 : ℚ)]) (some (finMat 3 [[2, 1 / 2, 3]])) = .ok (c, thr) ∧
    c.kind = .previous := by
  obtain ⟨⟨c, thr⟩, h⟩ := roundCurves.2.1
  exact ⟨c, thr, h, (C104_prg binary64_floatRounding roundInput.1 (by simp) h).2.1⟩

/-- C105, C106 and C116 without weights. -/
example := C105_unweighted (sumR := doubleSum) (W := none) binary64_floatRounding roundInput.2 rfl (binary64_nat (by norm_num))
example := C106_unweighted (sumR := doubleSum) binary64_floatRounding roundInput.2 (binary64_nat (by norm_num)) (by simp) (by simp)
example := C116_unweighted binary64_floatRounding doubleSum_trees roundInput.2 (u := 1 / 2 ^ 53) (by norm_num) binary64_relError
  (by norm_num) (binary64_nat (by norm_num)) (by simp) (by simp)

/-- C105: a bootstrap replicate of these data. -/
example := C105_bootstrap (K := ℚ) (sumR := doubleSum) (y := [true, false, true]) (s := [3, 2, 2]) rfl (nBoot := 1)
  (counts := [[2, 0, 1]]) (by simp) (W := [[2, binary64 (1 / 10000000000), 1]]) (by decide +kernel) doubleSum_trees (by norm_num)

/-- C114: linear interpolation. -/
example (other : Interp ℚ) := C114_linear (rnd := binary64) binary64_floatRounding (u := 1 / 2 ^ 53) (by norm_num) (by norm_num)
  binary64_relError other (xs := [0, 1 / 3, 1]) (ys := [0, 1 / 2, 1]) (by decide +kernel) rfl (by norm_num) (lo := 0) (hi := 1)
  (by norm_num) (grid := [0, 1 / 5, 1]) (by norm_num)

/-! ### `curve_boot` of the example of C82 in double precision -/

theorem doubleBoot (other : Interp ℚ) (ref : RefArg ℚ) (href : GoodRef bootP ref) (pairwise : Bool) : ∃ auc EB pval rows,
    curveBootR binary64 doubleSum other bootY bootP ref (rocCurveR binary64 doubleSum) none 2 pairwise (.fin (95 / 100)) bootCounts =
      .ok ((.fin auc, EB, pval), rows) ∧ 0 ≤ auc ∧ rows.length = 100 := by
  obtain ⟨a, b, c, d, e, h1, h2, h3, -, -, -, h4, -⟩ := C115_double doubleSum_trees other .roc bootInput (by decide) bootPreds.1 href
    (counts := bootCounts) (by decide) (by decide) (by decide) (xGrid := none) (by simp) (conf := 95 / 100) (by norm_num)
    (by norm_num) (pairwise := pairwise) (by simp)
  cases a with
  | fin x => exact ⟨x, b, c, d, e, by simpa using (h3 rfl).1, by rw [h4]; simp [defaultGridR]⟩
  | nan => exact absurd rfl h1
  | pinf => exact absurd rfl h2
  | ninf => exact absurd (h3 rfl).1 (by simp)

/-- C115: the error bar of a comparison with other predictions, in pairs. -/
example (other : Interp ℚ) : ∃ auc EB pval rows,
    curveBootR binary64 doubleSum other bootY bootP (.preds bootQ) (rocCurveR binary64 doubleSum) none 2 true (.fin (95 / 100)) bootCounts =
      .ok ((.fin auc, EB, pval), rows) ∧ Flt.fin 0 ≤ EB := by
  obtain ⟨auc, EB, pval, rows, h, -⟩ := doubleBoot other (.preds bootQ) ⟨rfl, _, bootPreds.2⟩ true
  obtain ⟨a, b, c, d, h', h0, -⟩ := C115_result binary64_floatRounding h bootPreds.1.score rfl
  refine ⟨auc, EB, pval, rows, h, ?_⟩
  obtain ⟨⟨c, thr, z, e1, e2, -⟩, -⟩ := C116_double (K := ℚ) doubleSum_trees
    (curveInput_none (y := boolLabels bootY) (s := [-1, -1, -1, -1]) (by decide) (by decide)) (by decide) (by decide) (by decide)
  have hz : AreaOfR binary64 doubleSum (rocCurveR binary64 doubleSum) (boolLabels bootY) (finVec [-1, -1, -1, (-1 : ℚ)]) none [.fin z] :=
    ⟨c, thr, e1, e2⟩
  exact (C115_paired binary64_floatRounding binary64_halves (by norm_num) (by norm_num) h bootPreds.2.score hz).1

/-- C115: a method compared with itself. -/
example (other : Interp ℚ) : ∃ auc pval rows,
    curveBootR binary64 doubleSum other bootY bootP (.preds bootP) (rocCurveR binary64 doubleSum) none 2 true (.fin (95 / 100)) bootCounts =
      .ok ((.fin auc, .fin 0, pval), rows) ∧ pval = .fin 1 := by
  obtain ⟨auc, EB, pval, rows, h, -⟩ := doubleBoot other (.preds bootP) ⟨rfl, _, bootPreds.1⟩ true
  obtain ⟨h1, h2⟩ := C115_self binary64_floatRounding binary64_halves (by norm_num) (by norm_num) h bootPreds.1.score bootPreds.1.score
  obtain rfl : EB = .fin 0 := by simpa [Flt.isFinite] using h2 rfl
  exact ⟨auc, pval, rows, h, h1⟩

/-- C115: a comparison with chance. -/
example (other : Interp ℚ) : ∃ auc EB pval rows,
    curveBootR binary64 doubleSum other bootY bootP (.value (.fin (1 / 2))) (rocCurveR binary64 doubleSum) none 2 false (.fin (95 / 100)) bootCounts =
      .ok ((.fin auc, EB, pval), rows) ∧ Flt.fin 0 ≤ EB := by
  obtain ⟨auc, EB, pval, rows, h, -⟩ := doubleBoot other (.value (.fin (1 / 2))) ⟨_, rfl⟩ false
  exact ⟨auc, EB, pval, rows, h, ((C115_coherent binary64_floatRounding binary64_halves (by norm_num) (by norm_num) h).2.1 rfl auc rfl).1⟩

/-- C116: the reported area of these data. -/
example (other : Interp ℚ) : ∃ auc EB pval rows,
    curveBootR binary64 doubleSum other bootY bootP (.value (.fin (1 / 2))) (rocCurveR binary64 doubleSum) none 2 false (.fin (95 / 100)) bootCounts =
      .ok ((.fin auc, EB, pval), rows) ∧ |auc - 7 / 8| ≤ 24 / 2 ^ 53 := by
  obtain ⟨auc, EB, pval, rows, h, -⟩ := doubleBoot other (.value (.fin (1 / 2))) ⟨_, rfl⟩ false
  obtain ⟨a, e, h1⟩ := C116_curve_boot doubleSum_trees h bootPreds.1.score (by decide) (by decide) (by decide) (by decide)
  cases e
  have e1 : mannWhitney (samples (boolLabels bootY) [-2, 0, -1, (-1 : ℚ)] (List.replicate bootP.rows.length 1)) = 7 / 8 := by
    decide +kernel
  rw [e1] at h1
  exact ⟨auc, EB, pval, rows, h, h1.trans (by decide +kernel)⟩

end Mlp.Props
