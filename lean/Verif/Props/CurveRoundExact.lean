import Verif.Props.RoundExact
import Verif.Model.CurveRound

/-! # Property C113: the model of `curve_boot` with rounding extends the exact one -/

namespace Mlp.Props
open Mlp.PerfR Mlp.Perf Mlp.BootR Mlp.Boot Mlp.Util Mlp.Spec Mlp.Lemmas Mlp.CurveR Mlp.Classif Mlp.Frame

section
variable {K : Type} [Field K] [LinearOrder K] [IsStrictOrderedRing K] [FloorRing K]

theorem numbers_fin (xs : List K) : numbers (finVec xs) = xs := by
  unfold numbers finVec
  rw [List.filterMap_map]
  exact List.filterMap_some

theorem sumFin (xs : List K) : Flt.sum (finVec xs) = .fin xs.sum := by
  have : ∀ a, List.foldl Flt.add (.fin a) (finVec xs) = .fin (a + xs.sum) := by
    induction xs with
    | nil => simp [finVec]
    | cons x xs ih =>
      intro a
      simp only [finVec, List.map_cons, List.foldl_cons, Flt.add_fin] at ih ⊢
      rw [ih, List.sum_cons, add_assoc]
  rw [Flt.sum, this, zero_add]

theorem sumFR_id (l : List (Flt K)) : sumFR List.sum l = Flt.sum l := by
  unfold sumFR
  split_ifs with h
  · obtain ⟨xs, rfl⟩ := (Flt.all_finite_iff l).1 h
    change Flt.fin (numbers (finVec xs)).sum = Flt.sum (finVec xs)
    rw [numbers_fin, sumFin]
  · rfl

theorem areaPrevR_id : areaPrevR (K := K) id List.sum = areaPrev := by
  funext x y
  simp only [areaPrevR, areaPrev, nansum, sumFR_id, diffFR_id, rF_id]

theorem trapzR_id : trapzR (K := K) id List.sum = trapz := by
  funext x y
  simp only [trapzR, trapz, sumFR_id, diffFR_id, rF_id]

/-- **C113, areas.** -/
theorem C113_area (x y : Mat K) (kind : Kind) : areaR id List.sum x y kind = area x y kind := by
  simp only [areaR, area, areaPrevR_id, trapzR_id]
  cases kind <;> rfl

/-- **C113, step functions.** -/
theorem C113_step {β : Type} (argsort : List (Flt K) → List Nat) (g x : List (Flt K)) (y : List β) (ival : Option β)
    (sorted skip : Bool) :
    evalStepFuncR id argsort g x y ival sorted skip = evalStepFunc argsort g x y ival sorted skip ∧
      ∀ y', uniqueTakeLastR (β := β) id x y' = uniqueTakeLast x y' := by
  simp only [uniqueTakeLastR, uniqueTakeLast, evalStepFuncR, evalStepFunc, diffFR_id]
  exact ⟨rfl, fun _ => rfl⟩

/-- **C113, interpolation.** -/
theorem C113_interp (other : Interp K) (g x y : List (Flt K)) (kind : Kind) :
    interp1dR id other g x y kind = interp1d other g x y kind := by
  simp only [interp1dR, interp1d, uniqueTakeLastR, uniqueTakeLast, evalStepFuncR, evalStepFunc, scipyLinearR, scipyLinear,
    npInterpR, npInterp, diffFR_id, rF_id]
  cases kind <;> rfl

theorem checkCurveR_id (c : Curve K × List (Flt K)) (g : Option (List (Flt K))) : checkCurveR id c g = checkCurve c g := by
  simp only [checkCurveR, checkCurve, diffFR_id]

theorem defaultGridR_id : defaultGridR (K := K) id = defaultGrid := by
  unfold defaultGridR defaultGrid
  rw [List.range_succ (n := 99), List.map_append]
  simp only [id_eq, add_zero, List.map_cons, List.map_nil, mul_one_div]
  norm_num

/-- **C113, `curve_boot`.** -/
theorem C113_curve_boot (other : Interp K) (y : LabelVec) (p : Mat K) (ref : RefArg K) (f : CurveF K)
    (xGrid : Option (List (Flt K))) (nBoot : Int) (pairwise : Bool) (conf : Flt K) (counts : List (List Nat)) :
    curveBootR id List.sum other y p ref f xGrid nBoot pairwise conf counts =
      curveBoot other y p ref f xGrid nBoot pairwise conf counts := by
  have h1 : ∀ g c, interpRowsR (K := K) id other g c = interpRows other g c := by
    intro g c; simp only [interpRowsR, interpRows, C113_interp]
  have h2 : ∀ y W n, refAreasR (K := K) id List.sum f y W n ref = refAreas f y W n ref := by
    intro y W n
    cases ref <;> simp only [refAreasR, refAreas, checkCurveR_id, C113_area]
  have h3 : ∀ b r, minusRefR (K := K) id b r = minusRef b r := by
    intro b r
    cases r <;> simp only [minusRefR, minusRef, rF_id]
  have h4 : ∀ b n, envelopeR (K := K) id b n conf = envelope b n conf := by
    intro b n; simp only [envelopeR, envelope, C110_percentile]
  simp only [curveBootR, curveBoot, checkCurveR_id, C113_area, h1, h2, h3, h4, defaultGridR_id, C110_error_bar,
    C110_significance, rF_id, id_eq]

/-- **C113, `curve_summary_table`.** -/
theorem C113_table (other : Interp K) (t : PredTable K) (y : LabelVec) (curves : List (Str × CurveF K)) (ref : Str)
    (xGrid : Option (List (Flt K))) (nBoot : Int) (pairwise : Bool) (conf : Flt K) (draws : BootDraws) :
    curveSummaryTableR id List.sum other t y curves ref xGrid nBoot pairwise conf draws =
      curveSummaryTable other t y curves ref xGrid nBoot pairwise conf draws := by
  have h : ∀ r, curveMethodR (K := K) id List.sum other t y r ref curves xGrid nBoot pairwise conf draws =
      curveMethod other t y r ref curves xGrid nBoot pairwise conf draws := by
    intro r; funext m; simp only [curveMethodR, curveMethod, C113_curve_boot]
  simp only [curveSummaryTableR, curveSummaryTable, h]

end
end Mlp.Props
