import Verif.Props.CurveBoot
import Verif.Props.ClassTable
import Verif.Props.LossTable

/-! # Property C83: tables of curve summaries -/

namespace Mlp.Props
open Mlp.Util Mlp.Spec Mlp.Classif Mlp.Lemmas Mlp.Frame Mlp.Boot Mlp.Perf

set_option linter.unusedSectionVars false

section
variable {K : Type} [Field K] [LinearOrder K] [IsStrictOrderedRing K] [FloorRing K]

/-- What a cell of the curve summary table and the entry of the curve dump for the same method and curve are: the result
of `curve_boot` for the predictions of the method, with those of the reference method as reference; for the reference
itself the p-value is missing, and with `pairwise_CI` also the error bar. -/
def IsCurveCell (other : Interp K) (t : PredTable K) (y : LabelVec) (refMethod : Str) (xGrid : Option (List (Flt K)))
    (nBoot : Int) (pairwise : Bool) (conf : Flt K) (draws : BootDraws) (method : Str) (curve : Str × CurveF K)
    (cell : Flt K × Flt K × Flt K) (entry : List (CurveRow K)) : Prop :=
  ∃ p q auc EB pval, IsMatrix t method p ∧ IsMatrix t refMethod q ∧
    curveBoot other y p (.preds q) curve.2 xGrid nBoot pairwise conf (draws method curve.1) = .ok ((auc, EB, pval), entry) ∧
    cell.1 = auc ∧
    (method = refMethod ∧ pairwise = true ∧ cell.2.1 = .nan ∨ ¬(method = refMethod ∧ pairwise = true) ∧ cell.2.1 = EB) ∧
    (method = refMethod ∧ cell.2.2 = .nan ∨ method ≠ refMethod ∧ cell.2.2 = pval)

theorem curveMethod_ok_iff (other : Interp K) (t : PredTable K) (y : LabelVec) (q : Mat K) (refMethod : Str)
    (curves : List (Str × CurveF K)) (xGrid : Option (List (Flt K))) (nBoot : Int) (pairwise : Bool) (conf : Flt K)
    (draws : BootDraws) (method : Str) (out : List ((Flt K × Flt K × Flt K) × ((Str × Str) × List (CurveRow K)))) :
    curveMethod other t y q refMethod curves xGrid nBoot pairwise conf draws method = .ok out ↔
      ∃ p, t.matrix method = .ok p ∧ List.Forall₂ (fun (c : Str × CurveF K) o => ∃ R,
        curveBoot other y p (.preds q) c.2 xGrid nBoot pairwise conf (draws method c.1) = .ok R ∧
        o = (curveCell (decide (method = refMethod)) pairwise R.1, ((method, c.1), R.2))) curves out := by
  unfold curveMethod
  rw [bind_ok_iff]
  refine exists_congr fun p => and_congr_right fun _ => ?_
  rw [mapM_ok_iff]
  constructor <;> intro h <;> refine h.imp fun c o ho => ?_
  · rw [bind_ok_iff] at ho
    obtain ⟨R, h1, h2⟩ := ho
    exact ⟨R, h1, (Except.ok.inj h2).symm⟩
  · obtain ⟨R, h1, rfl⟩ := ho
    rw [h1]; rfl

theorem curveSummary_ok_iff (other : Interp K) (t : PredTable K) (y : LabelVec) (curves : List (Str × CurveF K))
    (refMethod : Str) (xGrid : Option (List (Flt K))) (nBoot : Int) (pairwise : Bool) (conf : Flt K)
    (draws : BootDraws) (out : CurveTable K × CurveDump K) :
    curveSummaryTable other t y curves refMethod xGrid nBoot pairwise conf draws = .ok out ↔
      y.vals.length = t.nrows ∧ refMethod ∈ t.methods ∧ (1 ≤ t.nrows ∧ 1 ≤ t.labels.length ∧ 1 ≤ curves.length) ∧
      ∃ q R, t.matrix refMethod = .ok q ∧ List.Forall₂ (fun method r =>
        curveMethod other t y q refMethod curves xGrid nBoot pairwise conf draws method = .ok r) t.methods R ∧
      out = (⟨curves.map fun c => c.1, t.methods, R.map fun r => r.map fun c => c.1⟩,
        R.flatMap fun r => r.map fun c => c.2) := by
  unfold curveSummaryTable
  simp only [bind_ok_iff, exists_unit, pyAssert_eq_ok, decide_eq_true_eq, Bool.and_eq_true, pure_eq_ok, Except.ok.injEq,
    mapM_ok_iff, and_assoc]
  refine and_congr_right fun _ => and_congr_right fun _ => and_congr_right fun _ => and_congr_right fun _ =>
    and_congr_right fun _ => exists_congr fun q => ?_
  constructor
  · rintro ⟨h1, R, h2, rfl⟩; exact ⟨R, h1, h2, rfl⟩
  · rintro ⟨R, h1, h2, rfl⟩; exact ⟨h1, R, h2, rfl⟩

theorem matrix_isMatrix {t : PredTable K} {m : Str} {p : Mat K} (h : t.matrix m = .ok p) : IsMatrix t m p := by
  obtain ⟨⟨ho, -⟩, rfl⟩ := (matrix_ok_iff t m p).1 h
  exact isMatrix_of ho

/-- **C83, cells.**  The table has a row for each method and a cell for each curve, each the `curve_boot` result for
that method and curve; the curve dump has an entry for each method and curve, which is the curve of the same
call. -/
theorem C83_cells {other : Interp K} {t : PredTable K} {y : LabelVec} {curves : List (Str × CurveF K)}
    {refMethod : Str} {xGrid : Option (List (Flt K))} {nBoot : Int} {pairwise : Bool} {conf : Flt K}
    {draws : BootDraws} {tbl : CurveTable K} {dump : CurveDump K}
    (h : curveSummaryTable other t y curves refMethod xGrid nBoot pairwise conf draws = .ok (tbl, dump)) :
    tbl.methods = t.methods ∧ tbl.curves = curves.map (·.1) ∧
    ∃ entries : List (List (List (CurveRow K))),
      List.Forall₂ (fun method (rc : List (Flt K × Flt K × Flt K) × List (List (CurveRow K))) =>
        List.Forall₂ (fun curve (ce : (Flt K × Flt K × Flt K) × List (CurveRow K)) =>
          IsCurveCell other t y refMethod xGrid nBoot pairwise conf draws method curve ce.1 ce.2) curves (rc.1.zip rc.2) ∧
        rc.1.length = curves.length ∧ rc.2.length = curves.length)
        t.methods (tbl.cells.zip entries) ∧
      tbl.cells.length = t.methods.length ∧ entries.length = t.methods.length ∧
      dump = (product t.methods (curves.map (·.1))).zip entries.flatten := by
  obtain ⟨-, -, -, q, R, hq, hR, e⟩ := (curveSummary_ok_iff ..).1 h
  simp only [Prod.mk.injEq] at e
  obtain ⟨rfl, rfl⟩ := e
  have hq' := matrix_isMatrix hq
  refine ⟨rfl, rfl, R.map fun r => r.map fun c => c.2.2, ?_, by simpa using hR.length_eq.symm,
    by simpa using hR.length_eq.symm, ?_⟩
  · simp only
    rw [List.zip_map', List.forall₂_map_right_iff]
    refine hR.imp fun method r hr => ?_
    obtain ⟨p, hp, hr⟩ := (curveMethod_ok_iff ..).1 hr
    refine ⟨?_, by simpa using hr.length_eq.symm, by simpa using hr.length_eq.symm⟩
    simp only
    rw [List.zip_map', List.forall₂_map_right_iff]
    refine hr.imp fun c o ⟨S, hS, ho⟩ => ?_
    subst ho
    refine ⟨p, q, S.1.1, S.1.2.1, S.1.2.2, matrix_isMatrix hp, hq', hS, rfl, ?_, ?_⟩
    · unfold curveCell
      by_cases h1 : method = refMethod <;> cases pairwise <;> simp [h1]
    · unfold curveCell
      by_cases h1 : method = refMethod <;> simp [h1]
  · have key : ∀ (ms : List Str) (R : List (List ((Flt K × Flt K × Flt K) × ((Str × Str) × List (CurveRow K))))),
        List.Forall₂ (fun method r => curveMethod other t y q refMethod curves xGrid nBoot pairwise conf draws method = .ok r)
          ms R → (R.flatMap fun r => r.map fun c => c.2) =
            (product ms (curves.map (·.1))).zip (R.map fun r => r.map fun c => c.2.2).flatten := by
      intro ms R hR
      induction hR with
      | nil => rfl
      | @cons m r ms R hr hR ih =>
        obtain ⟨p, hp, hr⟩ := (curveMethod_ok_iff ..).1 hr
        have e1 : (r.map fun c => c.2) = ((curves.map (·.1)).map fun n => (m, n)).zip (r.map fun c => c.2.2) := by
          have gen : ∀ (cs : List (Str × CurveF K)) (r : List ((Flt K × Flt K × Flt K) × ((Str × Str) × List (CurveRow K)))),
              List.Forall₂ (fun (c : Str × CurveF K) o => ∃ R,
                curveBoot other y p (.preds q) c.2 xGrid nBoot pairwise conf (draws m c.1) = .ok R ∧
                o = (curveCell (decide (m = refMethod)) pairwise R.1, ((m, c.1), R.2))) cs r →
              (r.map fun c => c.2) = ((cs.map (·.1)).map fun n => (m, n)).zip (r.map fun c => c.2.2) := by
            intro cs r hcr
            induction hcr with
            | nil => rfl
            | cons ho _ ih2 =>
              obtain ⟨S, -, rfl⟩ := ho
              simp only [List.map_cons, List.zip_cons_cons, ih2]
          exact gen _ _ hr
        rw [List.flatMap_cons, ih, e1, List.map_cons, List.flatten_cons]
        unfold product
        rw [List.flatMap_cons, List.zip_append]
        simpa using hr.length_eq
    exact key _ _ hR

/-- **C83, the dump.**  Exactly one entry for each method and curve. -/
theorem C83_dump {other : Interp K} {t : PredTable K} {y : LabelVec} {curves : List (Str × CurveF K)}
    {refMethod : Str} {xGrid : Option (List (Flt K))} {nBoot : Int} {pairwise : Bool} {conf : Flt K}
    {draws : BootDraws} {tbl : CurveTable K} {dump : CurveDump K}
    (hm : t.methods.Nodup) (hc : (curves.map (·.1)).Nodup)
    (h : curveSummaryTable other t y curves refMethod xGrid nBoot pairwise conf draws = .ok (tbl, dump)) :
    (dump.map (·.1)).Nodup ∧ ∀ key, key ∈ dump.map (·.1) ↔ key.1 ∈ t.methods ∧ key.2 ∈ curves.map (·.1) := by
  obtain ⟨-, -, es, hf, h1, h2, rfl⟩ := C83_cells h
  have hlen : es.flatten.length = (product t.methods (curves.map (·.1))).length := by
    have key : ∀ (ms : List Str) (cs : List (List (Flt K × Flt K × Flt K))) (es : List (List (List (CurveRow K)))),
        cs.length = ms.length → es.length = ms.length →
        List.Forall₂ (fun method (rc : List (Flt K × Flt K × Flt K) × List (List (CurveRow K))) =>
        List.Forall₂ (fun curve (ce : (Flt K × Flt K × Flt K) × List (CurveRow K)) =>
          IsCurveCell other t y refMethod xGrid nBoot pairwise conf draws method curve ce.1 ce.2) curves (rc.1.zip rc.2) ∧
        rc.1.length = curves.length ∧ rc.2.length = curves.length) ms (cs.zip es) →
        es.flatten.length = (product ms (curves.map (·.1))).length := by
      intro ms
      induction ms with
      | nil => intro cs es _ he _; rw [List.eq_nil_of_length_eq_zero he]; rfl
      | cons m ms ih =>
        intro cs es hcs hes hf
        match cs, es, hcs, hes, hf with
        | c :: cs, e :: es, hcs, hes, hf =>
          rw [List.zip_cons_cons, List.forall₂_cons] at hf
          have := ih cs es (by simpa using hcs) (by simpa using hes) hf.2
          unfold product at this ⊢
          rw [List.flatten_cons, List.length_append, List.flatMap_cons, List.length_append, this, hf.1.2.2]
          simp
    exact key _ _ _ h1 h2 hf
  rw [List.map_fst_zip hlen.ge]
  exact ⟨product_nodup hm hc, fun key => product_mem⟩

/-- **C83, the reference.**  The p-value is NaN exactly for the reference, otherwise it is in [0, 1].  With
`pairwise_CI` the error bar of the reference is NaN; without, no error bar of a finite estimate is. -/
theorem C83_missing {other : Interp K} {t : PredTable K} {y : LabelVec} {refMethod : Str}
    {xGrid : Option (List (Flt K))} {nBoot : Int} {pairwise : Bool} {conf : Flt K} {draws : BootDraws} {method : Str}
    {curve : Str × CurveF K} {cell : Flt K × Flt K × Flt K} {entry : List (CurveRow K)}
    (h : IsCurveCell other t y refMethod xGrid nBoot pairwise conf draws method curve cell entry) :
    (cell.2.2 = .nan ↔ method = refMethod) ∧
    (method ≠ refMethod → ∃ v : K, cell.2.2 = .fin v ∧ 0 ≤ v ∧ v ≤ 1) ∧
    (method = refMethod → pairwise = true → cell.2.1 = .nan) ∧
    (pairwise = false → ∀ x, cell.1 = .fin x → cell.2.1 ≠ .nan ∧ Flt.fin 0 ≤ cell.2.1) ∧
    ∀ r ∈ entry, r.2.2.1 ≤ r.2.2.2 := by
  obtain ⟨p, q, auc, EB, pval, -, -, hb, h1, h2, h3⟩ := h
  obtain ⟨⟨v, hv, v0, v1⟩, c2, -, c4, -⟩ := C82_coherent hb
  refine ⟨⟨fun e => ?_, fun e => ?_⟩, fun hne => ?_, fun e hp => ?_, fun hp x hx => ?_, fun r hr => (c4 r hr).1⟩
  · rcases h3 with h3 | h3
    · exact h3.1
    · rw [h3.2, hv] at e; cases e
  · rcases h3 with h3 | h3
    · exact h3.2
    · exact absurd e h3.1
  · rcases h3 with h3 | h3
    · exact absurd h3.1 hne
    · exact ⟨v, h3.2.trans hv, v0, v1⟩
  · rcases h2 with h2 | h2
    · exact h2.2.2
    · exact absurd ⟨e, hp⟩ h2.1
  · rcases h2 with h2 | h2
    · rw [hp] at h2; cases h2.2.1
    · rw [h2.2]
      have := c2 hp x (h1 ▸ hx)
      exact ⟨this.2, this.1⟩

/-- A table of predictions for two labels: each method has its two columns in order, without NaN, and finite
log-probabilities of label 1. -/
structure GoodBinary (t : PredTable K) : Prop where
  rows : 1 ≤ t.nrows
  labels : t.labels.length = 2
  order : ∀ m ∈ t.methods, InOrder t m
  noNaN : ∀ m ∈ t.methods, ∀ (k : Nat) col, HasCol t.cols (m, (k : Int)) col → ∀ i < t.nrows, col.getD i .nan ≠ .nan
  finite : ∀ m ∈ t.methods, ∀ col, HasCol t.cols (m, 1) col → ∀ i < t.nrows, (col.getD i .nan).isFinite = true

theorem goodBinary_preds {t : PredTable K} (ht : GoodBinary t) {m : Str} (hm : m ∈ t.methods) {p : Mat K}
    (hp : IsMatrix t m p) : ∃ s, BinaryPreds p s := by
  obtain ⟨h1, h2, h3, h4⟩ := hp
  rw [ht.labels] at h1 h4
  have hget : ∀ (i k : Nat) (r : List (Flt K)), k < 2 → p.rows[i]? = some r → ∃ col, HasCol t.cols (m, (k : Int)) col ∧
      r[k]? = some (col.getD i .nan) ∧ i < t.nrows := by
    intro i k r hk hr
    obtain ⟨col, hc, hcol⟩ := h4 k hk
    refine ⟨col, hc, hcol i r hr, ?_⟩
    rw [← h2]
    exact (List.getElem?_eq_some_iff.1 hr).1
  obtain ⟨s, hs⟩ := exists_finVec (l := colAt p 1) (by
    rw [List.all_eq_true]
    intro v hv
    obtain ⟨r, hr, rfl⟩ := List.mem_map.1 hv
    obtain ⟨i, hi, rfl⟩ := List.getElem_of_mem hr
    obtain ⟨col, hc, e, hi'⟩ := hget i 1 _ (by norm_num) (List.getElem?_eq_getElem hi)
    rw [List.getD_eq_getElem?_getD, e]
    exact ht.finite m hm col hc i hi')
  refine ⟨s, h1, ?_, hs ▸ isPosScore_colAt p⟩
  intro r hr hn
  obtain ⟨i, hi, rfl⟩ := List.getElem_of_mem hr
  obtain ⟨k, hk, e⟩ := List.getElem_of_mem hn
  have hk2 : k < 2 := by rw [← h1, ← h3 _ hr]; exact hk
  obtain ⟨col, hc, e2, hi'⟩ := hget i k _ hk2 (List.getElem?_eq_getElem hi)
  rw [List.getElem?_eq_getElem hk, e] at e2
  exact ht.noNaN m hm k col hc i hi' (Option.some.inj e2).symm

theorem isMatrix_ok {t : PredTable K} {m : Str} {p : Mat K} (h : IsMatrix t m p) : p.Ok := h.2.2.1

/-- **C82, finite results.**  For curves with values in [0, 1] the estimate is in [0, 1] and the error bar is a number that
is not negative or plus infinity, also with `pairwise_CI`. -/
theorem C82_finite {other : Interp K} {f : CurveF K} (hf : UnitCurves (.fin 0) f) {y : LabelVec} {p : Mat K} (hp : p.Ok)
    {s : List K} (hs : BinaryPreds p s) {ref : RefArg K} (hr : GoodRef p ref)
    {xGrid : Option (List (Flt K))} {nBoot : Int} {pairwise : Bool} {conf : Flt K} {counts : List (List Nat)}
    {auc EB pval : Flt K} {rows : List (CurveRow K)}
    (h : curveBoot other y p ref f xGrid nBoot pairwise conf counts = .ok ((auc, EB, pval), rows)) :
    (∃ x : K, auc = .fin x ∧ 0 ≤ x ∧ x ≤ 1) ∧ Flt.fin 0 ≤ EB ∧ EB ≠ .nan := by
  have hy : ClassInput y p := by
    by_contra hc
    rw [(C82_reject other hp f xGrid nBoot pairwise conf counts).1 (Or.inl hc)] at h
    cases h
  have hbl : (boolLabels y).length = p.rows.length := by rw [boolLabels, List.length_map, hy.length]
  have hby : boolLabels y ≠ [] := by
    intro e
    rw [e] at hbl
    exact hy.nonempty (List.eq_nil_of_length_eq_zero hbl.symm)
  have harea : ∀ {q : Mat K} {s : List K} {a : Flt K}, q.rows.length = p.rows.length → IsPosScore q (finVec s) →
      AreaOf f (boolLabels y) (finVec s) none [a] → ∃ x : K, a = .fin x ∧ 0 ≤ x ∧ x ≤ 1 := by
    intro q s a hq hqs ⟨c', thr', e1, e2⟩
    have hsl : s.length = (boolLabels y).length := by
      have := hqs.1
      simp only [finVec, List.length_map] at this
      omega
    obtain ⟨c, thr, A, k1, -, k3, -, k5, -⟩ := unit_area (Or.inr rfl) hf (curveInput_none hby hsl) (g := none) (by simp)
    rw [Option.map_none, e1] at k1
    simp only [Except.ok.injEq, Prod.mk.injEq] at k1
    obtain ⟨rfl, rfl⟩ := k1
    rw [e2] at k3
    obtain rfl := Except.ok.inj k3
    obtain ⟨xs, ex, hx⟩ := exists_finVec_of_bounds k5
    cases xs with
    | nil => simp [finVec] at ex
    | cons x t =>
      simp only [finVec, List.map_cons, List.cons.injEq] at ex
      exact ⟨x, ex.1, hx x (by simp)⟩
  obtain ⟨n, grid, Y0, A, RA, R0, Y, -, -, -, -, -, ha, -, -, -, -, -, -, -, -, h3, -, -, h4, h5, -, -⟩ :=
    C82_result h hs.score
  obtain ⟨x, rfl, hx⟩ := harea rfl hs.score ha
  refine ⟨⟨x, rfl, hx⟩, ?_⟩
  have hR0 : ∃ z : K, R0 = .fin z := by
    cases ref with
    | value r =>
      obtain ⟨z, rfl⟩ := hr
      exact ⟨z, h3.2⟩
    | preds q =>
      obtain ⟨hq, sq, hsq⟩ := hr
      obtain ⟨s', hs', -, -, hb⟩ := h3
      obtain rfl := isPosScore_unique hs' hsq.score
      obtain ⟨z, hz, -⟩ := harea hq hsq.score hb
      exact ⟨z, hz⟩
  obtain ⟨z, rfl⟩ := hR0
  cases pairwise with
  | false =>
    obtain ⟨LB, UB, e1, rfl⟩ := h4 rfl
    exact (C40_error_bar e1 _).2 x rfl
  | true =>
    obtain ⟨LB, UB, e1, rfl⟩ := h5 rfl
    exact (C40_error_bar e1 _).2 (x - z) (Flt.sub_fin x z)

/-- **C83, error bars.**  For curves with values in [0, 1] and finite predictions of label 1 the error bar is NaN exactly for
the reference with `pairwise_CI`; otherwise it is not negative.  The estimate is in [0, 1]. -/
theorem C83_error_missing {other : Interp K} {t : PredTable K} (ht : GoodBinary t) {y : LabelVec} {refMethod : Str}
    {xGrid : Option (List (Flt K))} {nBoot : Int} {pairwise : Bool} {conf : Flt K} {draws : BootDraws} {method : Str}
    {curve : Str × CurveF K} (hf : UnitCurves (.fin 0) curve.2) {cell : Flt K × Flt K × Flt K} {entry : List (CurveRow K)}
    (hm : method ∈ t.methods) (hr : refMethod ∈ t.methods)
    (h : IsCurveCell other t y refMethod xGrid nBoot pairwise conf draws method curve cell entry) :
    (∃ x : K, cell.1 = .fin x ∧ 0 ≤ x ∧ x ≤ 1) ∧ (cell.2.1 = .nan ↔ method = refMethod ∧ pairwise = true) ∧
    Flt.fin 0 ≤ cell.2.1 := by
  obtain ⟨p, q, auc, EB, pval, hp, hq, hb, h1, h2, h3⟩ := h
  obtain ⟨s, hs⟩ := goodBinary_preds ht hm hp
  obtain ⟨s', hs'⟩ := goodBinary_preds ht hr hq
  obtain ⟨f1, f2, f3⟩ := C82_finite hf (isMatrix_ok hp) hs (ref := .preds q) ⟨by rw [hp.2.1, hq.2.1], s', hs'⟩ hb
  refine ⟨h1 ▸ f1, ?_, ?_⟩
  · rcases h2 with ⟨a, b, c⟩ | ⟨a, b⟩
    · exact ⟨fun _ => ⟨a, b⟩, fun _ => c⟩
    · exact ⟨fun e => absurd (b.symm.trans e) f3, fun e => absurd e a⟩
  · rcases h2 with ⟨a, b, c⟩ | ⟨a, b⟩
    · rw [c]; simp
    · rw [b]; exact f2

/-- **C83, success.**  For such a table and labels 0 and 1 the curve summary succeeds, for every outcome of the
bootstrap, with ROC and precision-recall curves; with precision-recall-gain curves it does without `pairwise_CI`. -/
theorem C83_success (other : Interp K) {t : PredTable K} (ht : GoodBinary t) {y : LabelVec}
    (hy : y.vals.length = t.nrows) (hk : y.kind = 'b' ∨ y.kind = 'i') (hr : ∀ v ∈ y.vals, v = 0 ∨ v = 1)
    {curves : List (Str × CurveF K)} (hne : curves ≠ []) {pairwise : Bool}
    (hcurve : ∀ c ∈ curves, ∃ lo, (lo = .ninf ∨ lo = .fin 0) ∧ UnitCurves lo c.2 ∧ (pairwise = true → lo = .fin 0))
    {refMethod : Str} (href : refMethod ∈ t.methods) {xGrid : Option (List (Flt K))}
    (hg : ∀ l, xGrid = some l → ∃ grid : List K, l = finVec grid ∧ grid ≠ [] ∧ ∀ v ∈ grid, 0 ≤ v ∧ v ≤ 1)
    {n : Nat} (hn : 1 ≤ n) {draws : BootDraws}
    (hd : ∀ m c, (draws m c).length = n ∧ ∀ row ∈ draws m c, row.length = t.nrows)
    {conf : K} (h0 : 0 < conf) (h1 : conf < 1) :
    ∃ out, curveSummaryTable other t y curves refMethod xGrid n pairwise (.fin conf) draws = .ok out := by
  have hl1 : 1 ≤ t.labels.length := by rw [ht.labels]; norm_num
  have hmat : ∀ m ∈ t.methods, t.matrix m = .ok (matrixOf t m) := fun m hm =>
    (matrix_ok_iff t m _).2 ⟨⟨ht.order m hm, inOrder_ne_nil (ht.order m hm) hl1⟩, rfl⟩
  have hism : ∀ m ∈ t.methods, IsMatrix t m (matrixOf t m) := fun m hm => isMatrix_of (ht.order m hm)
  have hclass : ∀ m ∈ t.methods, ClassInput y (matrixOf t m) := by
    intro m hm
    obtain ⟨a1, a2, a3, -⟩ := hism m hm
    refine ⟨hk, by rw [a1]; exact hl1, ?_, by rw [hy, a2], a3, ?_⟩
    · intro e
      rw [e] at a2
      have := ht.rows
      simp at a2; omega
    · intro v hv
      rw [a1, ht.labels]
      rcases hr v hv with rfl | rfl <;> simp
  have hcell : ∀ m ∈ t.methods, ∀ c ∈ curves, ∃ R, curveBoot other y (matrixOf t m) (.preds (matrixOf t refMethod)) c.2 xGrid
      n pairwise (.fin conf) (draws m c.1) = .ok R := by
    intro m hm c hc
    obtain ⟨lo, l1, l2, l3⟩ := hcurve c hc
    obtain ⟨s, hs⟩ := goodBinary_preds ht hm (hism m hm)
    obtain ⟨s', hs'⟩ := goodBinary_preds ht href (hism refMethod href)
    obtain ⟨d1, d2⟩ := hd m c.1
    obtain ⟨a, b, v, rows, e, -⟩ := C82_success other l1 l2 (hclass m hm) hs (ref := .preds (matrixOf t refMethod))
      ⟨by rw [(hism _ href).2.1, (hism _ hm).2.1], s', hs'⟩ hg (counts := draws m c.1)
      (by intro e; rw [e] at d1; simp at d1; omega) (by rw [(hism _ hm).2.1]; exact d2) h0 h1 l3
    rw [d1] at e
    exact ⟨_, e⟩
  have hmeth : ∀ m ∈ t.methods, ∃ r, curveMethod other t y (matrixOf t refMethod) refMethod curves xGrid n pairwise
      (.fin conf) draws m = .ok r := by
    intro m hm
    have : ∀ cs : List (Str × CurveF K), (∀ c ∈ cs, c ∈ curves) → ∃ out : List _, List.Forall₂ (fun (c : Str × CurveF K)
        (o : (Flt K × Flt K × Flt K) × ((Str × Str) × List (CurveRow K))) => ∃ R,
        curveBoot other y (matrixOf t m) (.preds (matrixOf t refMethod)) c.2 xGrid n pairwise (.fin conf) (draws m c.1) = .ok R ∧
        o = (curveCell (decide (m = refMethod)) pairwise R.1, ((m, c.1), R.2))) cs out := by
      intro cs
      induction cs with
      | nil => intro _; exact ⟨[], .nil⟩
      | cons c cs ih =>
        intro hcs
        obtain ⟨out, ho⟩ := ih fun x hx => hcs x (by simp [hx])
        obtain ⟨R, hR⟩ := hcell m hm c (hcs c (by simp))
        exact ⟨_, .cons ⟨R, hR, rfl⟩ ho⟩
    obtain ⟨out, ho⟩ := this curves fun _ h => h
    exact ⟨out, (curveMethod_ok_iff ..).2 ⟨_, hmat m hm, ho⟩⟩
  have : ∀ ms : List Str, (∀ m ∈ ms, m ∈ t.methods) → ∃ R, List.Forall₂ (fun method r =>
      curveMethod other t y (matrixOf t refMethod) refMethod curves xGrid n pairwise (.fin conf) draws method = .ok r) ms R := by
    intro ms
    induction ms with
    | nil => intro _; exact ⟨[], .nil⟩
    | cons m ms ih =>
      intro hms
      obtain ⟨out, ho⟩ := ih fun x hx => hms x (by simp [hx])
      obtain ⟨r, hr⟩ := hmeth m (hms m (by simp))
      exact ⟨_, .cons hr ho⟩
  obtain ⟨R, hR⟩ := this t.methods fun _ h => h
  exact ⟨_, (curveSummary_ok_iff ..).2 ⟨hy, href, ⟨ht.rows, hl1, List.length_pos_iff.2 hne⟩, _, R, hmat _ href, hR, rfl⟩⟩

/-- **C83, rejected input.**  A label vector of another length, an unknown reference method, no rows, no labels or no
curves: AssertionError. -/
theorem C83_reject (other : Interp K) {t : PredTable K} {y : LabelVec} {curves : List (Str × CurveF K)} {refMethod : Str}
    (xGrid : Option (List (Flt K))) (nBoot : Int) (pairwise : Bool) (conf : Flt K) (draws : BootDraws)
    (h : y.vals.length ≠ t.nrows ∨ refMethod ∉ t.methods ∨ t.nrows = 0 ∨ t.labels = [] ∨ curves = []) :
    curveSummaryTable other t y curves refMethod xGrid nBoot pairwise conf draws = .error .assertion := by
  unfold curveSummaryTable
  simp only [pyAssert_bind]
  split_ifs with h1 h2 h3
  · exfalso
    simp only [Bool.and_eq_true, decide_eq_true_eq] at h1 h2 h3
    rcases h with h | h | h | h | h
    · exact h h1
    · exact h h2
    · omega
    · rw [h] at h3; simp at h3
    · rw [h] at h3; simp at h3
  all_goals rfl

/-- **C83, no mixing.**  A cell depends only on the columns of its method and of the reference, on its curve function and on
its draws: with other methods or curves added or taken away it is the same. -/
theorem C83_local {other : Interp K} {t t' : PredTable K} {y : LabelVec} {refMethod : Str}
    {xGrid : Option (List (Flt K))} {nBoot : Int} {pairwise : Bool} {conf : Flt K} {draws : BootDraws} {method : Str}
    {curve : Str × CurveF K} {cell cell' : Flt K × Flt K × Flt K} {entry entry' : List (CurveRow K)}
    (hl : t'.labels.length = t.labels.length) (hr : t'.nrows = t.nrows)
    (hc : ∀ m, m = method ∨ m = refMethod → ∀ (k : Nat) col,
      HasCol t.cols (m, (k : Int)) col ↔ HasCol t'.cols (m, (k : Int)) col)
    (h : IsCurveCell other t y refMethod xGrid nBoot pairwise conf draws method curve cell entry)
    (h' : IsCurveCell other t' y refMethod xGrid nBoot pairwise conf draws method curve cell' entry') :
    cell = cell' ∧ entry = entry' := by
  obtain ⟨p, q, a, b, c, h1, h2, h3, h4, h5, h6⟩ := h
  obtain ⟨p', q', a', b', c', h1', h2', h3', h4', h5', h6'⟩ := h'
  obtain rfl := isMatrix_unique hl hr (hc method (Or.inl rfl)) h1 h1'
  obtain rfl := isMatrix_unique hl hr (hc refMethod (Or.inr rfl)) h2 h2'
  rw [h3] at h3'
  simp only [Except.ok.injEq, Prod.mk.injEq] at h3'
  obtain ⟨⟨rfl, rfl, rfl⟩, rfl⟩ := h3'
  refine ⟨?_, rfl⟩
  obtain ⟨x, y, z⟩ := cell
  obtain ⟨x', y', z'⟩ := cell'
  simp only at h4 h5 h6 h4' h5' h6' ⊢
  subst h4 h4'
  have e1 : y = y' := by
    rcases h5 with ⟨a1, a2, rfl⟩ | ⟨a1, rfl⟩ <;> rcases h5' with ⟨b1, b2, rfl⟩ | ⟨b1, rfl⟩ <;>
      first | rfl | exact absurd ⟨a1, a2⟩ b1 | exact absurd ⟨b1, b2⟩ a1
  have e2 : z = z' := by
    rcases h6 with ⟨a1, rfl⟩ | ⟨a1, rfl⟩ <;> rcases h6' with ⟨b1, rfl⟩ | ⟨b1, rfl⟩ <;>
      first | rfl | exact absurd a1 b1 | exact absurd b1 a1
  rw [e1, e2]

end

/-! ### Examples -/

/-- A table with two methods. -/
def curveTable2 : PredTable ℚ :=
  ⟨["a".toList, "b".toList], [0, 1], 2, [(("a".toList, 0), [.fin (-1), .ninf]), (("a".toList, 1), [.fin (-2), .fin 0]),
    (("b".toList, 0), [.fin (-1), .fin (-1)]), (("b".toList, 1), [.fin (-1), .fin (-1)])]⟩

theorem goodBinary2 : GoodBinary curveTable2 := by
  have hcol : ∀ m (k : Int) col, HasCol curveTable2.cols (m, k) col → ((m, k), col) ∈ curveTable2.cols := by
    rintro m k col ⟨a, b, e, -⟩
    rw [e]; simp
  refine ⟨by decide, rfl, by unfold InOrder; decide, ?_, ?_⟩
  · intro m _ k col h i hi
    have := hcol m k col h
    simp only [curveTable2, List.mem_cons, Prod.mk.injEq, List.not_mem_nil, or_false] at this
    have hi2 : i = 0 ∨ i = 1 := by simp only [curveTable2] at hi; omega
    rcases this with ⟨-, rfl⟩ | ⟨-, rfl⟩ | ⟨-, rfl⟩ | ⟨-, rfl⟩ <;> rcases hi2 with rfl | rfl <;> simp
  · intro m _ col h i hi
    have := hcol m 1 col h
    simp only [curveTable2, List.mem_cons, Prod.mk.injEq, List.not_mem_nil, or_false] at this
    have hi2 : i = 0 ∨ i = 1 := by simp only [curveTable2] at hi; omega
    rcases this with ⟨⟨-, h⟩, -⟩ | ⟨-, rfl⟩ | ⟨⟨-, h⟩, -⟩ | ⟨-, rfl⟩
    · exact absurd h (by decide)
    · rcases hi2 with rfl | rfl <;> rfl
    · exact absurd h (by decide)
    · rcases hi2 with rfl | rfl <;> rfl

/-- The hypotheses of `C83_success` hold for this table, ROC and precision-recall curves; so there is a table, to which
the other theorems apply. -/
theorem curveExample (other : Interp ℚ) : ∃ out, curveSummaryTable other curveTable2 ⟨'i', [0, 1]⟩
    [("AUC".toList, rocCurve), ("AP".toList, recallPrecisionCurve)] "a".toList none 2 true (.fin (95 / 100))
    (fun _ _ => [[1, 1], [2, 0]]) = .ok out := by
  refine C83_success (y := ⟨'i', [0, 1]⟩) (n := 2) (xGrid := none) (draws := fun _ _ => [[1, 1], [2, 0]]) (conf := 95 / 100)
    other goodBinary2 rfl (Or.inr rfl) (by simp) (by simp) ?_ (by decide) (by simp) (by norm_num)
    (fun _ _ => ⟨rfl, by simp [curveTable2]⟩) (by norm_num) (by norm_num)
  intro c hc
  simp only [List.mem_cons, List.not_mem_nil, or_false] at hc
  rcases hc with rfl | rfl
  · exact ⟨_, Or.inr rfl, unitCurves_std.1, fun _ => rfl⟩
  · exact ⟨_, Or.inr rfl, unitCurves_std.2.1, fun _ => rfl⟩

example (other : Interp ℚ) : ∃ tbl dump, curveSummaryTable other curveTable2 ⟨'i', [0, 1]⟩
    [("AUC".toList, rocCurve), ("AP".toList, recallPrecisionCurve)] "a".toList none 2 true (.fin (95 / 100))
    (fun _ _ => [[1, 1], [2, 0]]) = .ok (tbl, dump) ∧ ("b".toList, "AP".toList) ∈ dump.map (·.1) := by
  obtain ⟨⟨tbl, dump⟩, h⟩ := curveExample other
  exact ⟨tbl, dump, h, ((C83_dump (by decide) (by decide) h).2 _).2 (by decide)⟩

end Mlp.Props
