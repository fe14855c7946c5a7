import Verif.Props.CurveBootDouble
import Verif.Props.CurveTable

/-! # Property C115: `curve_summary_table` in floating point arithmetic -/

set_option linter.unusedSectionVars false

namespace Mlp.Props
open Mlp.PerfR Mlp.Perf Mlp.BootR Mlp.Boot Mlp.Util Mlp.Spec Mlp.Lemmas Mlp.CurveR Mlp.Classif Mlp.Frame Mlp.Round

section
variable {K : Type} [Field K] [LinearOrder K] [IsStrictOrderedRing K] [FloorRing K] {rnd : K → K} {sumR : List K → K}

/-- What a cell of the curve summary table and the entry of the curve dump for the same method and curve are: the result
of `curve_boot` for the predictions of the method, with those of the reference method as reference; for the reference
itself the p-value is missing, and with `pairwise_CI` also the error bar. -/
def IsCurveCellR (rnd : K → K) (sumR : List K → K) (other : Interp K) (t : PredTable K) (y : LabelVec) (refMethod : Str) (xGrid : Option (List (Flt K)))
    (nBoot : Int) (pairwise : Bool) (conf : Flt K) (draws : BootDraws) (method : Str) (curve : Str × CurveF K)
    (cell : Flt K × Flt K × Flt K) (entry : List (CurveRow K)) : Prop :=
  ∃ p q auc EB pval, IsMatrix t method p ∧ IsMatrix t refMethod q ∧
    curveBootR rnd sumR other y p (.preds q) curve.2 xGrid nBoot pairwise conf (draws method curve.1) = .ok ((auc, EB, pval), entry) ∧
    cell.1 = auc ∧
    (method = refMethod ∧ pairwise = true ∧ cell.2.1 = .nan ∨ ¬(method = refMethod ∧ pairwise = true) ∧ cell.2.1 = EB) ∧
    (method = refMethod ∧ cell.2.2 = .nan ∨ method ≠ refMethod ∧ cell.2.2 = pval)

theorem curveMethodR_ok_iff (other : Interp K) (t : PredTable K) (y : LabelVec) (q : Mat K) (refMethod : Str)
    (curves : List (Str × CurveF K)) (xGrid : Option (List (Flt K))) (nBoot : Int) (pairwise : Bool) (conf : Flt K)
    (draws : BootDraws) (method : Str) (out : List ((Flt K × Flt K × Flt K) × ((Str × Str) × List (CurveRow K)))) :
    curveMethodR rnd sumR other t y q refMethod curves xGrid nBoot pairwise conf draws method = .ok out ↔
      ∃ p, t.matrix method = .ok p ∧ List.Forall₂ (fun (c : Str × CurveF K) o => ∃ R,
        curveBootR rnd sumR other y p (.preds q) c.2 xGrid nBoot pairwise conf (draws method c.1) = .ok R ∧
        o = (curveCell (decide (method = refMethod)) pairwise R.1, ((method, c.1), R.2))) curves out := by
  unfold curveMethodR
  rw [bind_ok_iff]
  refine exists_congr fun p => and_congr_right fun _ => ?_
  rw [mapM_ok_iff]
  constructor <;> intro h <;> refine h.imp fun c o ho => ?_
  · rw [bind_ok_iff] at ho
    obtain ⟨R, h1, h2⟩ := ho
    exact ⟨R, h1, (Except.ok.inj h2).symm⟩
  · obtain ⟨R, h1, rfl⟩ := ho
    rw [h1]; rfl

theorem curveSummaryR_ok_iff (other : Interp K) (t : PredTable K) (y : LabelVec) (curves : List (Str × CurveF K))
    (refMethod : Str) (xGrid : Option (List (Flt K))) (nBoot : Int) (pairwise : Bool) (conf : Flt K)
    (draws : BootDraws) (out : CurveTable K × CurveDump K) :
    curveSummaryTableR rnd sumR other t y curves refMethod xGrid nBoot pairwise conf draws = .ok out ↔
      y.vals.length = t.nrows ∧ refMethod ∈ t.methods ∧ (1 ≤ t.nrows ∧ 1 ≤ t.labels.length ∧ 1 ≤ curves.length) ∧
      ∃ q R, t.matrix refMethod = .ok q ∧ List.Forall₂ (fun method r =>
        curveMethodR rnd sumR other t y q refMethod curves xGrid nBoot pairwise conf draws method = .ok r) t.methods R ∧
      out = (⟨curves.map fun c => c.1, t.methods, R.map fun r => r.map fun c => c.1⟩,
        R.flatMap fun r => r.map fun c => c.2) := by
  unfold curveSummaryTableR
  simp only [bind_ok_iff, exists_unit, pyAssert_eq_ok, decide_eq_true_eq, Bool.and_eq_true, pure_eq_ok, Except.ok.injEq,
    mapM_ok_iff, and_assoc]
  refine and_congr_right fun _ => and_congr_right fun _ => and_congr_right fun _ => and_congr_right fun _ =>
    and_congr_right fun _ => exists_congr fun q => ?_
  constructor
  · rintro ⟨h1, R, h2, rfl⟩; exact ⟨R, h1, h2, rfl⟩
  · rintro ⟨R, h1, h2, rfl⟩; exact ⟨h1, R, h2, rfl⟩

/-- **C115, table, cells.**  The table has a row for each method and a cell for each curve, each the `curve_boot` result for
that method and curve; the curve dump has an entry for each method and curve, which is the curve of the same
call. -/
theorem C115_table_cells {other : Interp K} {t : PredTable K} {y : LabelVec} {curves : List (Str × CurveF K)}
    {refMethod : Str} {xGrid : Option (List (Flt K))} {nBoot : Int} {pairwise : Bool} {conf : Flt K}
    {draws : BootDraws} {tbl : CurveTable K} {dump : CurveDump K}
    (h : curveSummaryTableR rnd sumR other t y curves refMethod xGrid nBoot pairwise conf draws = .ok (tbl, dump)) :
    tbl.methods = t.methods ∧ tbl.curves = curves.map (·.1) ∧
    ∃ entries : List (List (List (CurveRow K))),
      List.Forall₂ (fun method (rc : List (Flt K × Flt K × Flt K) × List (List (CurveRow K))) =>
        List.Forall₂ (fun curve (ce : (Flt K × Flt K × Flt K) × List (CurveRow K)) =>
          IsCurveCellR rnd sumR other t y refMethod xGrid nBoot pairwise conf draws method curve ce.1 ce.2) curves (rc.1.zip rc.2) ∧
        rc.1.length = curves.length ∧ rc.2.length = curves.length)
        t.methods (tbl.cells.zip entries) ∧
      tbl.cells.length = t.methods.length ∧ entries.length = t.methods.length ∧
      dump = (product t.methods (curves.map (·.1))).zip entries.flatten := by
  obtain ⟨-, -, -, q, R, hq, hR, e⟩ := (curveSummaryR_ok_iff ..).1 h
  simp only [Prod.mk.injEq] at e
  obtain ⟨rfl, rfl⟩ := e
  have hq' := matrix_isMatrix hq
  refine ⟨rfl, rfl, R.map fun r => r.map fun c => c.2.2, ?_, by simpa using hR.length_eq.symm,
    by simpa using hR.length_eq.symm, ?_⟩
  · simp only
    rw [List.zip_map', List.forall₂_map_right_iff]
    refine hR.imp fun method r hr => ?_
    obtain ⟨p, hp, hr⟩ := (curveMethodR_ok_iff ..).1 hr
    refine ⟨?_, by simpa using hr.length_eq.symm, by simpa using hr.length_eq.symm⟩
    simp only
    rw [List.zip_map', List.forall₂_map_right_iff]
    refine hr.imp fun c o ⟨S, hS, ho⟩ => ?_
    subst ho
    refine ⟨p, q, S.1.1, S.1.2.1, S.1.2.2, matrix_isMatrix hp, hq', hS, rfl, ?_, ?_⟩
    · unfold curveCell
      by_cases h1 : method = refMethod <;> cases pairwise <;> simp [h1]
    · unfold curveCell
      by_cases h1 : method = refMethod <;> simp [h1]
  · have key : ∀ (ms : List Str) (R : List (List ((Flt K × Flt K × Flt K) × ((Str × Str) × List (CurveRow K))))),
        List.Forall₂ (fun method r => curveMethodR rnd sumR other t y q refMethod curves xGrid nBoot pairwise conf draws method = .ok r)
          ms R → (R.flatMap fun r => r.map fun c => c.2) =
            (product ms (curves.map (·.1))).zip (R.map fun r => r.map fun c => c.2.2).flatten := by
      intro ms R hR
      induction hR with
      | nil => rfl
      | @cons m r ms R hr hR ih =>
        obtain ⟨p, hp, hr⟩ := (curveMethodR_ok_iff ..).1 hr
        have e1 : (r.map fun c => c.2) = ((curves.map (·.1)).map fun n => (m, n)).zip (r.map fun c => c.2.2) := by
          have gen : ∀ (cs : List (Str × CurveF K)) (r : List ((Flt K × Flt K × Flt K) × ((Str × Str) × List (CurveRow K)))),
              List.Forall₂ (fun (c : Str × CurveF K) o => ∃ R,
                curveBootR rnd sumR other y p (.preds q) c.2 xGrid nBoot pairwise conf (draws m c.1) = .ok R ∧
                o = (curveCell (decide (m = refMethod)) pairwise R.1, ((m, c.1), R.2))) cs r →
              (r.map fun c => c.2) = ((cs.map (·.1)).map fun n => (m, n)).zip (r.map fun c => c.2.2) := by
            intro cs r hcr
            induction hcr with
            | nil => rfl
            | cons ho _ ih2 =>
              obtain ⟨S, -, rfl⟩ := ho
              simp only [List.map_cons, List.zip_cons_cons, ih2]
          exact gen _ _ hr
        rw [List.flatMap_cons, ih, e1, List.map_cons, List.flatten_cons]
        unfold product
        rw [List.flatMap_cons, List.zip_append]
        simpa using hr.length_eq
    exact key _ _ hR
/-- **C115, table, the dump.**  Exactly one entry for each method and curve. -/
theorem C115_table_dump {other : Interp K} {t : PredTable K} {y : LabelVec} {curves : List (Str × CurveF K)}
    {refMethod : Str} {xGrid : Option (List (Flt K))} {nBoot : Int} {pairwise : Bool} {conf : Flt K}
    {draws : BootDraws} {tbl : CurveTable K} {dump : CurveDump K}
    (hm : t.methods.Nodup) (hc : (curves.map (·.1)).Nodup)
    (h : curveSummaryTableR rnd sumR other t y curves refMethod xGrid nBoot pairwise conf draws = .ok (tbl, dump)) :
    (dump.map (·.1)).Nodup ∧ ∀ key, key ∈ dump.map (·.1) ↔ key.1 ∈ t.methods ∧ key.2 ∈ curves.map (·.1) := by
  obtain ⟨-, -, es, hf, h1, h2, rfl⟩ := C115_table_cells h
  have hlen : es.flatten.length = (product t.methods (curves.map (·.1))).length := by
    have key : ∀ (ms : List Str) (cs : List (List (Flt K × Flt K × Flt K))) (es : List (List (List (CurveRow K)))),
        cs.length = ms.length → es.length = ms.length →
        List.Forall₂ (fun method (rc : List (Flt K × Flt K × Flt K) × List (List (CurveRow K))) =>
        List.Forall₂ (fun curve (ce : (Flt K × Flt K × Flt K) × List (CurveRow K)) =>
          IsCurveCellR rnd sumR other t y refMethod xGrid nBoot pairwise conf draws method curve ce.1 ce.2) curves (rc.1.zip rc.2) ∧
        rc.1.length = curves.length ∧ rc.2.length = curves.length) ms (cs.zip es) →
        es.flatten.length = (product ms (curves.map (·.1))).length := by
      intro ms
      induction ms with
      | nil => intro cs es _ he _; rw [List.eq_nil_of_length_eq_zero he]; rfl
      | cons m ms ih =>
        intro cs es hcs hes hf
        match cs, es, hcs, hes, hf with
        | c :: cs, e :: es, hcs, hes, hf =>
          rw [List.zip_cons_cons, List.forall₂_cons] at hf
          have := ih cs es (by simpa using hcs) (by simpa using hes) hf.2
          unfold product at this ⊢
          rw [List.flatten_cons, List.length_append, List.flatMap_cons, List.length_append, this, hf.1.2.2]
          simp
    exact key _ _ _ h1 h2 hf
  rw [List.map_fst_zip hlen.ge]
  exact ⟨product_nodup hm hc, fun key => product_mem⟩
/-- **C115, table, the reference.**  The p-value is NaN exactly for the reference, otherwise it is in [0, 1].  With
`pairwise_CI` the error bar of the reference is NaN; without, no error bar of a finite estimate is. -/
theorem C115_table_missing (hr : FloatRounding rnd) {m : Nat} (hm : HalvesExact rnd m) (h100 : 100 ≤ m) {other : Interp K} {t : PredTable K} {y : LabelVec} {refMethod : Str}
    {xGrid : Option (List (Flt K))} {nBoot : Int} (hnb : nBoot ≤ m) {pairwise : Bool} {conf : Flt K} {draws : BootDraws} {method : Str}
    {curve : Str × CurveF K} {cell : Flt K × Flt K × Flt K} {entry : List (CurveRow K)}
    (h : IsCurveCellR rnd sumR other t y refMethod xGrid nBoot pairwise conf draws method curve cell entry) :
    (cell.2.2 = .nan ↔ method = refMethod) ∧
    (method ≠ refMethod → ∃ v : K, cell.2.2 = .fin v ∧ 0 ≤ v ∧ v ≤ 1) ∧
    (method = refMethod → pairwise = true → cell.2.1 = .nan) ∧
    (pairwise = false → ∀ x, cell.1 = .fin x → cell.2.1 ≠ .nan ∧ Flt.fin 0 ≤ cell.2.1) ∧
    ∀ r ∈ entry, r.2.2.1 ≤ r.2.2.2 := by
  obtain ⟨p, q, auc, EB, pval, -, -, hb, h1, h2, h3⟩ := h
  obtain ⟨⟨v, hv, v0, v1⟩, c2, -, c4, -⟩ := C115_coherent hr hm h100 hnb hb
  refine ⟨⟨fun e => ?_, fun e => ?_⟩, fun hne => ?_, fun e hp => ?_, fun hp x hx => ?_, fun r hr => (c4 r hr).1⟩
  · rcases h3 with h3 | h3
    · exact h3.1
    · rw [h3.2, hv] at e; cases e
  · rcases h3 with h3 | h3
    · exact h3.2
    · exact absurd e h3.1
  · rcases h3 with h3 | h3
    · exact absurd h3.1 hne
    · exact ⟨v, h3.2.trans hv, v0, v1⟩
  · rcases h2 with h2 | h2
    · exact h2.2.2
    · exact absurd ⟨e, hp⟩ h2.1
  · rcases h2 with h2 | h2
    · rw [hp] at h2; cases h2.2.1
    · rw [h2.2]
      have := c2 hp x (h1 ▸ hx)
      exact ⟨this.2, this.1⟩
/-- **C115, table, rejected input.**  A label vector of another length, an unknown reference method, no rows, no labels or no
curves: AssertionError. -/
theorem C115_table_reject (other : Interp K) {t : PredTable K} {y : LabelVec} {curves : List (Str × CurveF K)} {refMethod : Str}
    (xGrid : Option (List (Flt K))) (nBoot : Int) (pairwise : Bool) (conf : Flt K) (draws : BootDraws)
    (h : y.vals.length ≠ t.nrows ∨ refMethod ∉ t.methods ∨ t.nrows = 0 ∨ t.labels = [] ∨ curves = []) :
    curveSummaryTableR rnd sumR other t y curves refMethod xGrid nBoot pairwise conf draws = .error .assertion := by
  unfold curveSummaryTableR
  simp only [pyAssert_bind]
  split_ifs with h1 h2 h3
  · exfalso
    simp only [Bool.and_eq_true, decide_eq_true_eq] at h1 h2 h3
    rcases h with h | h | h | h | h
    · exact h h1
    · exact h h2
    · omega
    · rw [h] at h3; simp at h3
    · rw [h] at h3; simp at h3
  all_goals rfl
/-- **C115, table, success.**  In double precision: for a table of finite predictions of two labels and labels 0 and 1 the curve
summary succeeds for every draw of the bootstrap, with ROC curves for up to 3000 samples, with precision-recall and (without `pairwise_CI`)
precision-recall-gain curves for up to 300. -/
theorem C115_table_success (hsum : AddsAlongTrees binary64 sumR) (other : Interp K) {t : PredTable K} (ht : GoodBinary t) {y : LabelVec}
    (hy : y.vals.length = t.nrows) (hk : y.kind = 'b' ∨ y.kind = 'i') (hr : ∀ v ∈ y.vals, v = 0 ∨ v = 1)
    {curves : List (Str × CurveF K)} (hne : curves ≠ []) {pairwise : Bool}
    (hcurve : ∀ c ∈ curves, ∃ lo cap, StdCurve sumR c.2 lo cap ∧ t.nrows ≤ cap ∧ (pairwise = true → lo = .fin 0))
    {refMethod : Str} (href : refMethod ∈ t.methods) {xGrid : Option (List (Flt K))}
    (hg : ∀ l, xGrid = some l → ∃ grid : List K, l = finVec grid ∧ grid ≠ [] ∧ ∀ v ∈ grid, 0 ≤ v ∧ v ≤ 1)
    {n : Nat} (hn : 1 ≤ n) (hn2 : n ≤ 2 ^ 52) {draws : BootDraws}
    (hd : ∀ m c, (draws m c).length = n ∧ ∀ row ∈ draws m c, row.length = t.nrows ∧ row.sum = t.nrows)
    {conf : K} (h0 : 0 < conf) (h1 : conf < 1) :
    ∃ out, curveSummaryTableR binary64 sumR other t y curves refMethod xGrid n pairwise (.fin conf) draws = .ok out := by
  have hl1 : 1 ≤ t.labels.length := by rw [ht.labels]; norm_num
  have hmat : ∀ m ∈ t.methods, t.matrix m = .ok (matrixOf t m) := fun m hm =>
    (matrix_ok_iff t m _).2 ⟨⟨ht.order m hm, inOrder_ne_nil (ht.order m hm) hl1⟩, rfl⟩
  have hism : ∀ m ∈ t.methods, IsMatrix t m (matrixOf t m) := fun m hm => isMatrix_of (ht.order m hm)
  have hclass : ∀ m ∈ t.methods, ClassInput y (matrixOf t m) := by
    intro m hm
    obtain ⟨a1, a2, a3, -⟩ := hism m hm
    refine ⟨hk, by rw [a1]; exact hl1, ?_, by rw [hy, a2], a3, ?_⟩
    · intro e
      rw [e] at a2
      have := ht.rows
      simp at a2; omega
    · intro v hv
      rw [a1, ht.labels]
      rcases hr v hv with rfl | rfl <;> simp
  have hcell : ∀ m ∈ t.methods, ∀ c ∈ curves, ∃ R, curveBootR binary64 sumR other y (matrixOf t m) (.preds (matrixOf t refMethod)) c.2 xGrid
      n pairwise (.fin conf) (draws m c.1) = .ok R := by
    intro m hm c hc
    obtain ⟨lo, cap, l1, l2, l3⟩ := hcurve c hc
    obtain ⟨s, hs⟩ := goodBinary_preds ht hm (hism m hm)
    obtain ⟨s', hs'⟩ := goodBinary_preds ht href (hism refMethod href)
    obtain ⟨d1, d2⟩ := hd m c.1
    obtain ⟨a, b, v, rows, e, -⟩ := C115_double hsum other l1 (hclass m hm) (by rw [(hism _ hm).2.1]; exact l2) hs
      (ref := .preds (matrixOf t refMethod)) ⟨by rw [(hism _ href).2.1, (hism _ hm).2.1], s', hs'⟩ (counts := draws m c.1)
      (by intro e; rw [e] at d1; simp at d1; omega) (by rw [d1]; exact hn2) (by rw [(hism _ hm).2.1]; exact d2) hg h0 h1 l3
    rw [d1] at e
    exact ⟨_, e⟩
  have hmeth : ∀ m ∈ t.methods, ∃ r, curveMethodR binary64 sumR other t y (matrixOf t refMethod) refMethod curves xGrid n pairwise
      (.fin conf) draws m = .ok r := by
    intro m hm
    have : ∀ cs : List (Str × CurveF K), (∀ c ∈ cs, c ∈ curves) → ∃ out : List _, List.Forall₂ (fun (c : Str × CurveF K)
        (o : (Flt K × Flt K × Flt K) × ((Str × Str) × List (CurveRow K))) => ∃ R,
        curveBootR binary64 sumR other y (matrixOf t m) (.preds (matrixOf t refMethod)) c.2 xGrid n pairwise (.fin conf) (draws m c.1) = .ok R ∧
        o = (curveCell (decide (m = refMethod)) pairwise R.1, ((m, c.1), R.2))) cs out := by
      intro cs
      induction cs with
      | nil => intro _; exact ⟨[], .nil⟩
      | cons c cs ih =>
        intro hcs
        obtain ⟨out, ho⟩ := ih fun x hx => hcs x (by simp [hx])
        obtain ⟨R, hR⟩ := hcell m hm c (hcs c (by simp))
        exact ⟨_, .cons ⟨R, hR, rfl⟩ ho⟩
    obtain ⟨out, ho⟩ := this curves fun _ h => h
    exact ⟨out, (curveMethodR_ok_iff ..).2 ⟨_, hmat m hm, ho⟩⟩
  have : ∀ ms : List Str, (∀ m ∈ ms, m ∈ t.methods) → ∃ R, List.Forall₂ (fun method r =>
      curveMethodR binary64 sumR other t y (matrixOf t refMethod) refMethod curves xGrid n pairwise (.fin conf) draws method = .ok r) ms R := by
    intro ms
    induction ms with
    | nil => intro _; exact ⟨[], .nil⟩
    | cons m ms ih =>
      intro hms
      obtain ⟨out, ho⟩ := ih fun x hx => hms x (by simp [hx])
      obtain ⟨r, hr⟩ := hmeth m (hms m (by simp))
      exact ⟨_, .cons hr ho⟩
  obtain ⟨R, hR⟩ := this t.methods fun _ h => h
  exact ⟨_, (curveSummaryR_ok_iff ..).2 ⟨hy, href, ⟨ht.rows, hl1, List.length_pos_iff.2 hne⟩, _, R, hmat _ href, hR, rfl⟩⟩

end
end Mlp.Props
