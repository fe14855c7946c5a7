import Verif.Props.CurveTable
import Verif.Props.AreaRound
import Verif.Props.Step
import Verif.Props.Gain

/-!
# Cases for the theorems about curves, their summaries and step functions
-/

namespace Mlp.Props
open Mlp.Util Mlp.Spec Mlp.Classif Mlp.Lemmas Mlp.Frame Mlp.Boot Mlp.Perf

/-! ### One curve -/

theorem bootRun (other : Interp ℚ) (pairwise : Bool) : ∃ auc EB pval rows,
    curveBoot other bootY bootP (.preds bootQ) rocCurve none 2 pairwise (.fin (95 / 100)) bootCounts = .ok ((auc, EB, pval), rows) := by
  obtain ⟨a, b, c, d, e, -⟩ := C82_success other (Or.inr rfl) unitCurves_std.1 bootInput bootPreds.1
    (ref := .preds bootQ) ⟨rfl, _, bootPreds.2⟩ (xGrid := none) (by simp) (counts := bootCounts) (by decide) (by decide)
    (conf := 95 / 100) (by norm_num) (by norm_num) (pairwise := pairwise) (by simp)
  exact ⟨a, b, c, d, e⟩

/-- The area of the curve of the data, and one row for each of the 100 grid points. -/
example (other : Interp ℚ) : ∃ auc EB pval rows,
    curveBoot other bootY bootP (.preds bootQ) rocCurve none 2 false (.fin (95 / 100)) bootCounts = .ok ((auc, EB, pval), rows) ∧
      AreaOf rocCurve (boolLabels bootY) (finVec [-2, 0, -1, -1]) none [auc] ∧ rows.length = 100 := by
  obtain ⟨auc, EB, pval, rows, h⟩ := bootRun other false
  obtain ⟨n, grid, Y0, A, RA, R0, Y, h1, h2, h3, h4, h5, h6, h7, h8, h9, h10, h11, h12, h13, h14, h15, h16, h17, h18, h19, h20, h21, -⟩ :=
    C82_result h bootPreds.1.3
  refine ⟨auc, EB, pval, rows, h, h6, ?_⟩
  rcases h5 with h5 | ⟨-, rfl⟩
  · cases h5
  · obtain ⟨g, e, hg, -⟩ := default_grid (K := ℚ)
    rw [h21, e, finVec, List.length_map, hg]

/-- The p-value is between 0 and 1, and the limits of the curve are in order. -/
example (other : Interp ℚ) : ∃ auc EB pval rows,
    curveBoot other bootY bootP (.preds bootQ) rocCurve none 2 true (.fin (95 / 100)) bootCounts = .ok ((auc, EB, pval), rows) ∧
      (∃ v : ℚ, pval = .fin v ∧ 0 ≤ v ∧ v ≤ 1) ∧ ∀ r ∈ rows, r.2.2.1 ≤ r.2.2.2 := by
  obtain ⟨auc, EB, pval, rows, h⟩ := bootRun other true
  obtain ⟨h1, -, -, h2, -⟩ := C82_coherent h
  exact ⟨auc, EB, pval, rows, h, h1, fun r hr => (h2 r hr).1⟩

/-- A finite area between 0 and 1. -/
example (other : Interp ℚ) : ∃ auc EB pval rows,
    curveBoot other bootY bootP (.preds bootQ) rocCurve none 2 true (.fin (95 / 100)) bootCounts = .ok ((auc, EB, pval), rows) ∧
      (∃ x : ℚ, auc = .fin x ∧ 0 ≤ x ∧ x ≤ 1) ∧ EB ≠ .nan := by
  obtain ⟨auc, EB, pval, rows, h⟩ := bootRun other true
  obtain ⟨h1, -, h2⟩ := C82_finite unitCurves_std.1 bootInput.5 bootPreds.1 (ref := .preds bootQ) ⟨rfl, _, bootPreds.2⟩ h
  exact ⟨auc, EB, pval, rows, h, h1, h2⟩

/-- Compared with itself the p-value is 1. -/
example (other : Interp ℚ) : ∃ auc EB rows,
    curveBoot other bootY bootP (.preds bootP) rocCurve none 2 true (.fin (95 / 100)) bootCounts = .ok ((auc, EB, .fin 1), rows) := by
  obtain ⟨a, b, c, d, e, -⟩ := C82_success other (Or.inr rfl) unitCurves_std.1 bootInput bootPreds.1
    (ref := .preds bootP) ⟨rfl, _, bootPreds.1⟩ (xGrid := none) (by simp) (counts := bootCounts) (by decide) (by decide)
    (conf := 95 / 100) (by norm_num) (by norm_num) (pairwise := true) (by simp)
  obtain ⟨h1, -⟩ := C82_self e bootPreds.1.3 bootPreds.1.3
  exact ⟨a, b, d, e.trans (by rw [h1])⟩

/-- No replicates; and a score of minus infinity. -/
example (other : Interp ℚ) :
    curveBoot other bootY bootP (.preds bootQ) rocCurve none 0 true (.fin (95 / 100)) bootCounts = .error .assertion ∧
    curveBoot other bootY ⟨2, [[.fin 0, .ninf], [.fin 0, .fin 0], [.fin 0, .fin 0], [.fin 0, .fin 0]]⟩ (.preds bootQ) prgCurve none 2 true (.fin (95 / 100))
      bootCounts = .error .assertion :=
  ⟨(C82_reject other bootInput.5 _ none 0 true _ _).1 (Or.inr (Or.inr (Or.inr (Or.inl (by norm_num))))),
    (C82_reject other (by unfold Mat.Ok; decide) _ none 2 true _ _).2 (Or.inr (Or.inr rfl)) ⟨[.fin 0, .ninf], by simp, rfl⟩⟩

/-! ### A table of curves -/

/-- The cell of the table of `curveExample` for method `b` and the AUC. -/
theorem cellExample (other : Interp ℚ) : ∃ cell entry, IsCurveCell other curveTable2 ⟨'i', [0, 1]⟩ "a".toList none 2 true (.fin (95 / 100))
    (fun _ _ => [[1, 1], [2, 0]]) "b".toList ("AUC".toList, rocCurve) cell entry := by
  obtain ⟨⟨tbl, dump⟩, h⟩ := curveExample other
  obtain ⟨-, -, entries, h3, h4, h5, -⟩ := C83_cells h
  rw [List.forall₂_iff_get] at h3
  obtain ⟨hlen, h3⟩ := h3
  obtain ⟨h6, h7, h8⟩ := h3 1 (by simp [curveTable2]) (by rw [← hlen]; simp [curveTable2])
  rw [List.forall₂_iff_get] at h6
  have := h6.2 0 (by simp) (by rw [← h6.1]; simp)
  exact ⟨_, _, this⟩

/-- Its p-value is a number. -/
example (other : Interp ℚ) : ∃ cell entry, IsCurveCell other curveTable2 ⟨'i', [0, 1]⟩ "a".toList none 2 true (.fin (95 / 100))
    (fun _ _ => [[1, 1], [2, 0]]) "b".toList ("AUC".toList, rocCurve) cell entry ∧ (∃ v : ℚ, cell.2.2 = .fin v ∧ 0 ≤ v ∧ v ≤ 1) ∧ cell.2.1 ≠ .nan ∧
      ∃ x : ℚ, cell.1 = .fin x := by
  obtain ⟨cell, entry, h⟩ := cellExample other
  obtain ⟨-, h1, -⟩ := C83_missing h
  obtain ⟨⟨x, hx, -⟩, h2, -⟩ := C83_error_missing goodBinary2 unitCurves_std.1 (by simp [curveTable2]) (by simp [curveTable2]) h
  refine ⟨cell, entry, h, h1 (by decide), fun e => ?_, x, hx⟩
  exact absurd (h2.1 e).1 (by decide)

/-- The same cell in the same table has one value only. -/
example (other : Interp ℚ) {cell cell' : Flt ℚ × Flt ℚ × Flt ℚ} {entry entry' : List (CurveRow ℚ)}
    (h : IsCurveCell other curveTable2 ⟨'i', [0, 1]⟩ "a".toList none 2 true (.fin (95 / 100)) (fun _ _ => [[1, 1], [2, 0]]) "b".toList
      ("AUC".toList, rocCurve) cell entry)
    (h' : IsCurveCell other { curveTable2 with methods := ["b".toList, "a".toList] } ⟨'i', [0, 1]⟩ "a".toList none 2 true (.fin (95 / 100))
      (fun _ _ => [[1, 1], [2, 0]]) "b".toList ("AUC".toList, rocCurve) cell' entry') : cell = cell' ∧ entry = entry' :=
  C83_local rfl rfl (fun _ _ _ _ => Iff.rfl) h h'

/-- A reference that is not in the table. -/
example (other : Interp ℚ) : curveSummaryTable other curveTable2 ⟨'i', [0, 1]⟩ [("AUC".toList, rocCurve)] "c".toList none 2 true (.fin (95 / 100))
    (fun _ _ => [[1, 1], [2, 0]]) = .error .assertion :=
  C83_reject other none 2 true _ _ (Or.inr (Or.inl (by decide)))

/-! ### Precision, recall and their gains -/

theorem dropThresholds : IsThresholds [2, (1 : ℚ)] [.pinf, .fin 2, .fin 1] := ⟨[2, 1], rfl, by decide +kernel, by simp⟩

example := C71_precision exampleDrop (by simp) (by simp) (recall_precision_of exampleDrop dropThresholds)
example := C72_recall_gain exampleDrop (prg_of exampleDrop dropThresholds)
example := C72_precision_gain exampleDrop (prg_of exampleDrop dropThresholds)
example := C72_rises exampleDrop (prg_of exampleDrop dropThresholds)

/-! ### Step functions -/

theorem stepsExample : StepsReady (fun _ => [1, 0, 2]) false (finVec [3, 1, (4 : ℚ)]) := by
  unfold StepsReady SortsList
  decide +kernel

example : ∃ out, evalStepFunc (fun _ => [1, 0, 2]) [.fin 1, .fin (7/2), .pinf] (finVec [3, 1, (4 : ℚ)]) ['a', 'b', 'c'] none false false = .ok out ∧
    List.Forall₂ (IsStep (finVec [3, 1, (4 : ℚ)]) ['a', 'b', 'c'] none) [.fin 1, .fin (7/2), .pinf] out :=
  C59_step (yp := ['a', 'b', 'c']) rfl stepsExample (by unfold NoNaN; decide +kernel) (by decide +kernel) [.fin 1, .fin (7/2), .pinf] none false fun _ => by unfold Covered; decide +kernel

example : evalStepFunc (fun _ => [1, 0, 2]) [.fin 1] (finVec [3, 3, (4 : ℚ)]) ['a', 'b', 'c'] none false false = .error .assertion :=
  C59_duplicate (xp := finVec [3, 3, (4 : ℚ)]) (yp := ['a', 'b', 'c']) (argsort := fun _ => [1, 0, 2]) (assumeSorted := false) rfl (by unfold StepsReady SortsList; decide +kernel) (by decide +kernel) _ none

example : evalStepFunc (fun _ => [1, 0, 2]) [.fin 0] (finVec [3, 1, (4 : ℚ)]) ['a', 'b', 'c'] none false true = .error .assertion :=
  (C59_before (yp := ['a', 'b', 'c']) rfl stepsExample (by unfold NoNaN; decide +kernel) (by decide +kernel) [.fin 0] true (by unfold Covered; decide +kernel)).trans (by rfl)

example : evalStepFunc (fun _ => [1, 0, 2]) [.fin 1] (finVec [3, 1, (4 : ℚ)]) ['a', 'b'] none false false = .error .assertion :=
  C59_shape (by decide) _ _ none false false

example : evalStepFunc (fun _ => [1, 0, 2]) [.fin 2] (finVec [3, 1, (4 : ℚ)]) ['a', 'b', 'c'] none false false =
    evalStepFunc (fun _ => [0, 1, 2]) [.fin 2] (finVec [1, 3, (4 : ℚ)]) ['b', 'a', 'c'] none false true :=
  C59_order (xp := finVec [3, 1, (4 : ℚ)]) (xp' := finVec [1, 3, (4 : ℚ)]) (yp := ['a', 'b', 'c']) (yp' := ['b', 'a', 'c'])
    (argsort := fun _ => [1, 0, 2]) (argsort' := fun _ => [0, 1, 2]) rfl rfl (by decide +kernel) (by unfold SortsList; decide +kernel) (by unfold SortsList; decide +kernel) (by unfold NoNaN; decide +kernel) (by decide +kernel)
    _ none false true

end Mlp.Props

namespace Mlp.Props
open Mlp.PerfR Mlp.Perf Mlp.BootR Mlp.Boot Mlp.Util Mlp.Spec Mlp.Lemmas Mlp.CurveR Mlp.Classif Mlp.Frame Mlp.Round

/-! ### Functions that do not round -/

example := C114_check (rnd := (binary64 : ℚ → ℚ)) binary64_floatRounding (⟨finMat 3 [[0, 0, 1]], ⟨3, [[.ninf, .ninf, .fin 0]]⟩, .previous⟩, [.pinf, .fin 2, .fin 1]) none
example := C114_take_last (rnd := (binary64 : ℚ → ℚ)) binary64_floatRounding (finVec [1, 1, 2]) (some ['a', 'b', 'c'])
example := C114_step (rnd := (binary64 : ℚ → ℚ)) binary64_floatRounding (fun _ => [1, 0, 2]) [.fin 2] (finVec [3, 1, 4]) ['a', 'b', 'c'] none false true
example (other : Interp ℚ) := C114_previous (rnd := (binary64 : ℚ → ℚ)) binary64_floatRounding other [.fin 2] (finVec [1, 3]) (finVec [5, 6]) (kind := .previous) (by decide)

end Mlp.Props
