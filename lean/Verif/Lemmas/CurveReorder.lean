import Verif.Lemmas.Reorder
import Verif.Props.CurveTable
import Verif.Props.CurveLaws
import Verif.Props.ClassPred

/-! # Classification with the test points in another order -/

namespace Mlp.Lemmas
open Mlp.Util Mlp.Spec Mlp.Classif Mlp.Frame Mlp.Boot Mlp.Perf Mlp.Props

theorem bind_congr_ok {α β : Type} {x : Py α} {f g : α → Py β} (h : ∀ a, x = .ok a → f a = g a) : x >>= f = x >>= g := by
  cases x with
  | error e => rfl
  | ok a => exact h a rfl

theorem mapM_reorder {α β : Type} {f : α → Py β} {l : List α} {out : List β} (h : l.mapM f = .ok out) {σ : List Nat}
    (hσ : ∀ i ∈ σ, i < l.length) : (reorder σ l).mapM f = .ok (reorder σ out) := by
  rw [mapM_ok_iff] at h ⊢
  have hl := h.length_eq
  unfold reorder
  induction σ with
  | nil => exact .nil
  | cons i σ ih =>
    have hi : i < l.length := hσ i (by simp)
    have hi' : i < out.length := hl ▸ hi
    rw [List.filterMap_cons, List.filterMap_cons, List.getElem?_eq_getElem hi, List.getElem?_eq_getElem hi']
    exact .cons ((List.forall₂_iff_get.1 h).2 i hi hi') (ih fun j hj => hσ j (by simp [hj]))

set_option linter.unusedSectionVars false
section
variable {K : Type} [Field K] [LinearOrder K] [IsStrictOrderedRing K] [FloorRing K]

theorem bootWeights_reorder {σ : List Nat} {n : Nat} (hσ : IsPerm σ n) {counts : List (List Nat)}
    (hc : ∀ r ∈ counts, r.length = n) (N nBoot : Int) (eps : K) :
    bootWeights N nBoot eps (counts.map (reorder σ)) = bootWeights N nBoot eps counts >>= fun w => pure (w.map (reorder σ)) := by
  unfold bootWeights
  simp only [bind_assoc, pure_bind]
  refine bind_congr_ok fun _ _ => bind_congr_ok fun _ _ => ?_
  have hw : (counts.map (reorder σ)).map (fun row => row.map fun (c : Nat) => max eps (c : K)) =
      (counts.map fun row => row.map fun (c : Nat) => max eps (c : K)).map (reorder σ) := by
    simp only [List.map_map]
    refine List.map_congr_left fun r _ => ?_
    simp only [Function.comp, reorder_map]
  rw [hw]
  have hall : ((counts.map fun row => row.map fun (c : Nat) => max eps (c : K)).map (reorder σ)).all
      (fun row => decide ((row.length : Int) = N)) =
      (counts.map fun row => row.map fun (c : Nat) => max eps (c : K)).all (fun row => decide ((row.length : Int) = N)) := by
    simp only [List.all_map]
    rw [Bool.eq_iff_iff, List.all_eq_true, List.all_eq_true]
    refine forall₂_congr fun r hr => ?_
    have : (r.map fun (c : Nat) => max eps (c : K)).length = n := by rw [List.length_map, hc r hr]
    simp only [Function.comp, reorder_length hσ this, this]
  rw [hall, List.length_map]

theorem bootWeights_rows {N nBoot : Int} {eps : K} {counts : List (List Nat)} {w : List (List K)}
    (h : bootWeights N nBoot eps counts = .ok w) : ∀ r ∈ w, (r.length : Int) = N := by
  unfold bootWeights at h
  simp only [bind_ok_iff, exists_unit, pyAssert_eq_ok, pure_eq_ok, Except.ok.injEq, Bool.and_eq_true, List.all_eq_true,
    decide_eq_true_eq] at h
  obtain ⟨-, -, ⟨-, h⟩, rfl⟩ := h
  exact h

/-- A reference with the rows of its predictions in the order `σ`. -/
def reorderRef (σ : List Nat) : RefArg K → RefArg K
  | .value r => .value r
  | .preds q => .preds (reorderMat σ q)

theorem shapeAndValidate_class_reorder {σ : List Nat} {y : LabelVec} {p : Mat K} (hσ : IsPerm σ p.rows.length)
    (hy : y.vals.length = p.rows.length) :
    Classif.shapeAndValidate (reorderLabels σ y) (reorderMat σ p) = Classif.shapeAndValidate y p := by
  have hpy : (reorder σ y.vals).Perm y.vals := reorder_perm (by rw [hy]; exact hσ)
  unfold Classif.shapeAndValidate reorderLabels reorderMat
  simp only [all_perm hpy, hpy.length_eq, (reorder_perm hσ).length_eq]

theorem shapeAndValidate_fst {y : LabelVec} {p : Mat K} {s : Nat × Nat} (h : Classif.shapeAndValidate y p = .ok s) :
    s = (p.rows.length, p.ncols) := by
  unfold Classif.shapeAndValidate at h
  simp only [bind_ok_iff, exists_unit, pyAssert_eq_ok, pure_eq_ok, Except.ok.injEq] at h
  obtain ⟨-, -, -, -, rfl⟩ := h
  rfl

theorem refAreas_reorder {σ : List Nat} {n : Nat} (hσ : IsPerm σ n) {f : CurveF K} (hf : SymCurve f) {y : List Bool}
    (hy : y.length = n) {w : Mat K} (hw : w.ncols = n ∧ ∀ r ∈ w.rows, r.length = n) (nBoot : Int) {ref : RefArg K}
    (hr : ∀ q, ref = .preds q → q.rows.length = n) :
    refAreas f (reorder σ y) (reorderCols σ w) nBoot (reorderRef σ ref) = refAreas f y w nBoot ref := by
  subst hy
  cases ref with
  | value r => rfl
  | preds q =>
    have hl : (colAt q 1).length = y.length := by unfold colAt; rw [List.length_map, hr q rfl]
    have h1 := hf σ y (colAt q 1) (some w) hσ hl (by rintro m ⟨⟩; exact hw)
    have h2 := hf σ y (colAt q 1) none hσ hl (by simp)
    simp only [Option.map_some, Option.map_none] at h1 h2
    simp only [reorderRef, refAreas, colAt_reorder, h1, h2]

theorem curveBoot_reorder {σ : List Nat} {n : Nat} (hσ : IsPerm σ n) {f : CurveF K} (hf : SymCurve f) {y : LabelVec}
    (hy : y.vals.length = n) {p : Mat K} (hp : p.rows.length = n) {ref : RefArg K}
    (hr : ∀ q, ref = .preds q → q.rows.length = n) (other : Interp K) (xGrid : Option (List (Flt K))) (nBoot : Int)
    (pairwise : Bool) (conf : Flt K) {counts : List (List Nat)} (hc : ∀ r ∈ counts, r.length = n) :
    curveBoot other (reorderLabels σ y) (reorderMat σ p) (reorderRef σ ref) f xGrid nBoot pairwise conf
      (counts.map (reorder σ)) = curveBoot other y p ref f xGrid nBoot pairwise conf counts := by
  unfold curveBoot
  have hσp : IsPerm σ p.rows.length := by rw [hp]; exact hσ
  rw [shapeAndValidate_class_reorder hσp (by rw [hy, hp])]
  refine bind_congr_ok fun s hs => ?_
  have hs1 : s.1 = n := by rw [shapeAndValidate_fst hs]; exact hp
  have hcheck : (reorderRef σ ref).check (reorderMat σ p) = ref.check p := by
    cases ref with
    | value r => rfl
    | preds q =>
      have hq := hr q rfl
      simp only [reorderRef, RefArg.check, anyNaN_reorder (p := q) (by rw [hq]; exact hσ)]
      simp only [reorderMat, (reorder_perm hσp).length_eq, (reorder_perm (l := q.rows) (by rw [hq]; exact hσ)).length_eq]
      rfl
  have hyb : ((reorderLabels σ y).vals.map fun v => decide (v ≠ 0)) = reorder σ (y.vals.map fun v => decide (v ≠ 0)) := by
    unfold reorderLabels
    simp only [reorder_map]
  have hybl : (y.vals.map fun v => decide (v ≠ 0)).length = n := by rw [List.length_map, hy]
  have hl : (colAt p 1).length = n := by unfold colAt; rw [List.length_map, hp]
  have h2 := hf σ (y.vals.map fun v => decide (v ≠ 0)) (colAt p 1) none (by rw [hybl]; exact hσ) (by rw [hl, hybl]) (by simp)
  simp only [Option.map_none] at h2
  simp only [hcheck, anyNaN_reorder hσp, hyb, colAt_reorder, h2, bootWeights_reorder hσ hc, bind_assoc, pure_bind]
  iterate 11 refine bind_congr_ok fun _ _ => ?_
  refine bind_congr_ok fun w hw => ?_
  have hrows := bootWeights_rows hw
  have hwm : (⟨s.1, (w.map (reorder σ)).map fun r => r.map fun (v : K) => Flt.fin v⟩ : Mat K) =
      reorderCols σ ⟨s.1, w.map fun r => r.map fun (v : K) => Flt.fin v⟩ := by
    unfold reorderCols
    rw [Mat.mk.injEq]
    refine ⟨rfl, ?_⟩
    simp only [List.map_map]
    refine List.map_congr_left fun r _ => ?_
    simp only [Function.comp, reorder_map]
  have hwl : s.1 = n ∧ ∀ r ∈ (w.map fun r => r.map fun (v : K) => Flt.fin v), r.length = n := by
    refine ⟨hs1, fun r hr => ?_⟩
    obtain ⟨r, hr', rfl⟩ := List.mem_map.1 hr
    have := hrows r hr'
    rw [List.length_map]
    omega
  have h3 := hf σ (y.vals.map fun v => decide (v ≠ 0)) (colAt p 1)
    (some ⟨s.1, w.map fun r => r.map fun (v : K) => Flt.fin v⟩) (by rw [hybl]; exact hσ) (by rw [hl, hybl])
    (by rintro m ⟨⟩; rw [hybl]; exact hwl)
  have h4 := refAreas_reorder hσ hf hybl (w := ⟨s.1, w.map fun r => r.map fun (v : K) => Flt.fin v⟩) hwl nBoot hr
  simp only [Option.map_some] at h3
  simp only [hwm, h3, h4]

theorem matrix_rows {t : PredTable K} {method : Str} {p : Mat K} (h : t.matrix method = .ok p) : p.rows.length = t.nrows := by
  obtain ⟨-, rfl⟩ := (matrix_ok_iff _ _ _).1 h
  simp [matrixOf, values]

theorem curveSummary_reorder {σ : List Nat} {t : PredTable K} (hσ : IsPerm σ t.nrows)
    (hc : ∀ c ∈ t.cols, c.2.length = t.nrows) {curves : List (Str × CurveF K)} (hf : ∀ c ∈ curves, SymCurve c.2)
    {other : Interp K} {y : LabelVec} {refMethod : Str} {xGrid : Option (List (Flt K))} {nBoot : Int} {pairwise : Bool}
    {conf : Flt K} {draws draws' : BootDraws} (hd : ∀ m c, draws' m c = (draws m c).map (reorder σ) ∧
      ∀ r ∈ draws m c, r.length = t.nrows) {out : CurveTable K × CurveDump K}
    (h : curveSummaryTable other t y curves refMethod xGrid nBoot pairwise conf draws = .ok out) :
    curveSummaryTable other (reorderPred σ t) (reorderLabels σ y) curves refMethod xGrid nBoot pairwise conf draws' =
      .ok out := by
  obtain ⟨h1, h2, h3, q, R, h4, h5, rfl⟩ := (curveSummary_ok_iff ..).1 h
  refine (curveSummary_ok_iff ..).2 ⟨reorder_length hσ h1, h2, h3, reorderMat σ q, R, matrix_reorder hσ hc h4, ?_, rfl⟩
  refine h5.imp fun method r hr => ?_
  obtain ⟨p, h6, h7⟩ := (curveMethod_ok_iff ..).1 hr
  refine (curveMethod_ok_iff ..).2 ⟨reorderMat σ p, matrix_reorder hσ hc h6, ?_⟩
  refine forall₂_mem_imp h7 ?_
  rintro c o hmem ⟨B, hB, rfl⟩
  refine ⟨B, ?_, rfl⟩
  have := curveBoot_reorder hσ (hf c hmem) h1 (matrix_rows h6) (ref := .preds q)
    (by rintro q' ⟨⟩; exact matrix_rows h4) other xGrid nBoot pairwise conf (hd method c.1).2
  rw [(hd method c.1).1]
  exact this.trans hB

end

/-! ### Losses -/

theorem prepared_reorder {σ : List Nat} {assume : Bool} {p q : Mat ℝ} (h : prepared assume p = .ok q) :
    prepared assume (reorderMat σ p) = .ok (reorderMat σ q) := by
  unfold prepared at *
  cases assume with
  | true =>
    simp only [if_true, pure_eq_ok, Except.ok.injEq] at h ⊢
    rw [h]
  | false =>
    simp only [Bool.false_eq_true, if_false] at h ⊢
    exact normalizeRows_reorder h

theorem classTable_reorder {σ : List Nat} {t : PredTable ℝ} (hσ : IsPerm σ t.nrows)
    (hc : ∀ c ∈ t.cols, c.2.length = t.nrows) {losses : List (Str × Metric)} (hf : ∀ c ∈ losses, SymMetric c.2)
    {y : LabelVec} {assume : Bool} {tbl : Paper.LossTable} (h : lossTable t y losses assume = .ok tbl) :
    lossTable (reorderPred σ t) (reorderLabels σ y) losses assume = .ok (reorderRows σ tbl) := by
  obtain ⟨h1, h2, lss, hls, rfl⟩ := (lossTable_ok_iff ..).1 h
  refine (lossTable_ok_iff ..).2 ⟨reorder_length hσ h1, h2, lss.map fun ls => ls.map fun l => reorder σ l, ?_, ?_⟩
  · refine forall₂_map_right _ hls ?_
    rintro method ls ⟨p, q, a1, a2, a3, a4⟩
    have hp := matrix_rows a1
    refine ⟨reorderMat σ p, reorderMat σ q, matrix_reorder hσ hc a1, by rw [anyNaN_reorder (by rw [hp]; exact hσ)]; exact a2,
      prepared_reorder a3, ?_⟩
    refine forall₂_map_right _ (forall₂_mem_imp a4 (S := fun m l => m ∈ losses ∧ _) fun m r hm h => ⟨hm, h⟩) ?_
    rintro m l ⟨hm, b1, b2⟩
    obtain ⟨-, c2, c3⟩ := prepared_shape ((matrix_ok_iff _ _ _).1 a1).1.1 (((matrix_ok_iff _ _ _).1 a1).2 ▸ a3)
    exact ⟨hf m hm σ y q l c3 (by rw [h1, c2]) (by rw [c2]; exact hσ) (by rw [c2, b2]) b1, reorder_length hσ b2⟩
  · unfold reorderRows reorderPred
    simp only [Paper.LossTable.mk.injEq, true_and]
    rw [puts_reorder, emptyCols_reorder hσ, List.map_flatten, List.map_zipWith, List.zipWith_map_right]
    simp only [List.map_flatten, List.map_zipWith, List.zipWith_map_right, List.map_cons, List.map_nil]

theorem classTable_lengths {t : PredTable ℝ} {y : LabelVec} {losses : List (Str × Metric)} {assume : Bool}
    {tbl : Paper.LossTable} (h : lossTable t y losses assume = .ok tbl) :
    tbl.nrows = t.nrows ∧ ∀ c ∈ tbl.cols, c.2.length = tbl.nrows := by
  obtain ⟨h1, h2, lss, hls, rfl⟩ := (lossTable_ok_iff ..).1 h
  refine ⟨rfl, puts_lengths (emptyCols_lengths _) fun c hc => ?_⟩
  obtain ⟨x, hx, hc⟩ := List.mem_flatten.1 hc
  obtain ⟨method, ls, -, ⟨mu, std, -, -, -, a3⟩, rfl⟩ := forall₂_zipWith_mem hls hx
  obtain ⟨z, hz, hc⟩ := List.mem_flatten.1 hc
  obtain ⟨m, l, -, ⟨-, b2⟩, rfl⟩ := forall₂_zipWith_mem a3 hz
  rw [List.mem_singleton.1 hc]
  exact b2

/-! ### Predictions -/

variable {D : Type}

/-- The same test points in the order `σ`: the shape and the kind are the same, and every method predicts for each
point what it did. -/
structure SamePreds (σ : List Nat) (xTrain : Features D) (yTrain : LabelVec) (xTest xTest' : Features D)
    (methods : List (Str × Estimator D)) : Prop where
  shape : xTest'.shape = xTest.shape
  kind : xTest'.kind = xTest.kind
  preds : ∀ m ∈ methods, ∀ p, Predicts xTrain yTrain xTest m.2 p → Predicts xTrain yTrain xTest' m.2 (reorderMat σ p)

theorem blocks_reorder {α : Type} (σ : List Nat) (name : α → Str) (ms : List α) (qs : List (Mat ℝ))
    (s : Cols (Str × Int) ℝ) :
    ((ms.zip qs).foldl (fun s ab => setBlock s (name ab.1) ab.2) s).map (fun c => (c.1, reorder σ c.2)) =
      (ms.zip (qs.map (reorderMat σ))).foldl (fun s ab => setBlock s (name ab.1) ab.2)
        (s.map fun c => (c.1, reorder σ c.2)) := by
  induction ms generalizing qs s with
  | nil => rfl
  | cons m ms ih =>
    cases qs with
    | nil => rfl
    | cons q qs => simp only [List.zip_cons_cons, List.foldl_cons, List.map_cons, ih, setBlock_reorder]

theorem predLogProb_reorder {σ : List Nat} {xTrain : Features D} {yTrain : LabelVec} {xTest xTest' : Features D}
    {methods : List (Str × Estimator D)} {nLabels : Nat} {floor : Flt ℝ} {t : PredTable ℝ}
    (hs : SamePreds σ xTrain yTrain xTest xTest' methods)
    (h : getPredLogProb xTrain yTrain xTest nLabels methods floor = .ok t) (hσ : IsPerm σ t.nrows) :
    getPredLogProb xTrain yTrain xTest' nLabels methods floor = .ok (reorderPred σ t) := by
  obtain ⟨n, hg, qs, hr, rfl⟩ := (getPredLogProb_ok_iff ..).1 h
  refine (getPredLogProb_ok_iff ..).2 ⟨n, ⟨by rw [hs.shape]; exact hg.test, hg.pos, hg.kind, hg.nonempty, hg.range,
    by rw [hs.kind]; exact hg.same, hg.floor⟩, qs.map (reorderMat σ), ?_, ?_⟩
  · refine forall₂_map_right _ (forall₂_mem_imp hr (S := fun m r => m ∈ methods ∧ _) fun m r hm h => ⟨hm, h⟩) ?_
    rintro m q ⟨hm, p, h1, h2, h3, h4⟩
    refine ⟨reorderMat σ p, hs.preds m hm _ h1, reorder_length hσ h2, h3, ?_⟩
    rw [floorMat_reorder]
    exact normalizeRows_reorder h4
  · unfold reorderPred
    simp only [PredTable.mk.injEq, true_and]
    rw [blocks_reorder σ (fun a : Str × Estimator D => a.1), emptyCols_reorder hσ]

end Mlp.Lemmas
