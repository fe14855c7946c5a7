import Verif.Props.PredRound
import Verif.Props.FullTable
import Verif.Props.CurveTableRound
import Verif.Props.TableDouble

/-! # Property C121: the summary tables and the benchmark of a classifier in floating point arithmetic -/

namespace Mlp.Props
open Mlp.Util Mlp.Frame Mlp.PerfR Mlp.PaperR Mlp.CurveR Mlp.LossR Mlp.BootR Mlp.Boot Mlp.Perf Mlp.Spec Mlp.Lemmas Mlp.Round Mlp.Classif Mlp.Paper

variable {L : Lib ℝ} {dotR : List ℝ → List ℝ → ℝ}

/-! ## The losses -/

/-- The limits given for the standard losses contain all values they can have: `[lo, inf)` with `lo` at most 0, for the zero-one loss `[lo, hi]` with `hi` at
least 1.  Finite limits are on a grid of floats. -/
def CoversLosses (rnd : ℝ → ℝ) (n : Nat) (limits : List (Str × (Flt ℝ × Flt ℝ))) : Prop :=
  ∀ metric ∈ ["NLL".toList, "Brier".toList, "sphere".toList, "zero_one".toList], ∃ lower upper, LimitsOf limits metric lower upper ∧
    lower ≤ .fin 0 ∧ upper ≠ .nan ∧ GridLimit rnd n lower ∧ GridLimit rnd n upper ∧
    (upper = .pinf ∨ metric = "zero_one".toList ∧ Flt.fin 1 ≤ upper)

/-- No method has excluded a label. -/
def NoneExcluded (t : PredTable ℝ) : Prop :=
  ∀ method ∈ t.methods, ∀ p : Mat ℝ, IsMatrix t method p → ∀ r ∈ p.rows, Flt.ninf ∉ r

/-- What a cell of a loss tells: a non-negative estimate, a non-negative error bar and a p-value in [0, 1]; the reference has no p-value and, with pairs,
no error bar. -/
def GoodLossCell (refMethod : Str) (pairwise : Bool) (metric method : Str) (cell : Flt ℝ × Flt ℝ × Flt ℝ) : Prop :=
  (∃ x : ℝ, cell.1 = .fin x ∧ 0 ≤ x ∧ (metric = "zero_one".toList → x ≤ 1)) ∧
  (method = refMethod ∧ pairwise = true → cell.2.1 = .nan) ∧
  (¬(method = refMethod ∧ pairwise = true) → cell.2.1 ≠ .nan ∧ .fin 0 ≤ cell.2.1) ∧
  (method = refMethod → cell.2.2 = .nan) ∧
  (method ≠ refMethod → ∃ p : ℝ, cell.2.2 = .fin p ∧ 0 ≤ p ∧ p ≤ 1)

theorem forall₂_left_mem {α β : Type} {R S : α → β → Prop} {l : List α} {k : List β} (h : List.Forall₂ R l k)
    (hS : ∀ a b, a ∈ l → R a b → S a b) : List.Forall₂ S l k := by
  induction h with
  | nil => exact .nil
  | cons h _ ih => exact .cons (hS _ _ (by simp) h) (ih fun a b ha => hS a b (by simp [ha]))

variable {u : ℝ} {m : Nat}

/-- **C121, loss summary.**  In floating point arithmetic `loss_table` followed by `loss_summary_table` succeeds with the standard losses for any number of labels, if the
predictions are floats without an excluded label and the limits cover the losses. -/
theorem C121_loss_summary (hL : GoodLib L) (hE : GoodExpLog L) (hu : 0 ≤ u) (he : RelError u L.rnd) (hm : HalvesExact L.rnd m) (hm1 : 1000 ≤ m)
    {t : PredTable ℝ} (ht : GoodTable t) (hM : t.methods.Nodup) (hf : FloatPreds L.rnd t) (hx : NoneExcluded t)
    {y : LabelVec} (hy : GoodTestLabels y t.nrows t.labels.length) (hn : ∀ k : Nat, k ≤ t.labels.length → L.rnd k = k)
    (hr : ∀ k : Nat, k ≤ t.nrows → L.rnd k = k)
    {refMethod : Str} (href : refMethod ∈ t.methods) {pairwise : Bool} {c : ℝ} (h0 : 0 < c) (h1 : c < 1) {methodEB : EBMethod} (hme : methodEB ≠ .other)
    {limits : List (Str × (Flt ℝ × Flt ℝ))} (hlim : CoversLosses L.rnd t.nrows limits) {draws : Str → Str → Draws}
    (hd : methodEB = .boot → ∀ metric method, ValidDraws t.nrows 1000 (draws metric method).eb ∧ ValidDraws t.nrows 1000 (draws metric method).test)
    (hnu : t.nrows * u ≤ 1 / 1000000) :
    ∃ tbl l, lossTableR L t y (stdClassLossR L dotR) false = .ok tbl ∧
      lossSummaryTableR L tbl refMethod pairwise (.fin c) methodEB limits draws = .ok l ∧
      (tbl.metrics.Perm ["NLL".toList, "Brier".toList, "sphere".toList, "zero_one".toList] ∧ tbl.metrics.Pairwise (· ≤ ·)) ∧
      (tbl.methods.Perm t.methods ∧ tbl.methods.Pairwise (· ≤ ·)) ∧
      List.Forall₂ (fun metric row => List.Forall₂ (fun method cell =>
        (∃ xs : List ℝ, HasLoss tbl metric method (finVec xs) ∧ cell.1 = .fin (meanR L xs)) ∧ GoodLossCell refMethod pairwise metric method cell)
        tbl.methods row) tbl.metrics l := by
  obtain ⟨tbl, e, hrows, hmet, hmeth, hcols⟩ := C121_loss_table (dotR := dotR) hL hE ht hM hf hy hn
  -- every loss column consists of numbers in its range
  have hcol : ∀ metric ∈ tbl.metrics, ∀ method ∈ tbl.methods, ∃ xs : List ℝ, HasLoss tbl metric method (finVec xs) ∧ xs.length = t.nrows ∧
      (∀ x ∈ xs, 0 ≤ x) ∧ (metric = "zero_one".toList → ∀ x ∈ xs, x ≤ 1) := by
    intro metric hmetric method hmethod
    have hmethod' := (hmeth.1.mem_iff).1 hmethod
    obtain ⟨nll, brier, sphere, zeroOne, a1, a2, a3, a4, l1, l2, l3, l4, r1, r2, r3, r4, r5⟩ := hcols method hmethod'
    have hmm := (hmet.1.mem_iff).1 hmetric
    simp only [List.mem_cons, List.not_mem_nil, or_false] at hmm
    rcases hmm with rfl | rfl | rfl | rfl
    · have hp := isMatrix_of (ht.order _ hmethod')
      have hfin : ∀ v ∈ nll, ∃ x : ℝ, v = .fin x ∧ 0 ≤ x := by
        intro v hv
        rcases r1 v hv with rfl | h
        · exfalso
          obtain ⟨i, hi, hvi⟩ := List.getElem_of_mem hv
          have hiy : i < y.vals.length := by rw [hy.length, ← l1]; exact hi
          obtain ⟨k, hk⟩ := Int.eq_ofNat_of_zero_le (hy.range _ (List.getElem_mem hiy)).1
          have hip : i < (matrixOf t method).rows.length := by rw [hp.2.1, ← l1]; exact hi
          have := (r2 _ hp i k _ (List.getElem?_eq_getElem hip) (by rw [List.getElem?_eq_getElem hiy, hk])).1
            (by rw [List.getElem?_eq_getElem hi, hvi])
          exact hx method hmethod' _ hp _ (List.getElem_mem hip) (List.mem_of_getElem? this)
        · exact h
      obtain ⟨xs, rfl⟩ := exists_finVec (l := nll) (by
        rw [List.all_eq_true]
        intro v hv
        obtain ⟨x, rfl, -⟩ := hfin v hv
        rfl)
      refine ⟨xs, a1, by simpa [finVec] using l1, fun x hx => ?_, fun h => absurd h (by decide)⟩
      obtain ⟨x', e, h⟩ := hfin (.fin x) (List.mem_map.2 ⟨x, hx, rfl⟩)
      cases e
      exact h
    · exact ⟨brier, a2, l2, fun x hx => (r3 x hx).1, fun h => absurd h (by decide)⟩
    · exact ⟨sphere, a3, l3, fun x hx => (r4 x hx).1, fun h => absurd h (by decide)⟩
    · refine ⟨zeroOne, a4, l4, fun x hx => ?_, fun _ x hx => ?_⟩ <;> rcases r5 x hx with rfl | rfl <;> norm_num
  have hmean : ∀ metric ∈ tbl.metrics, ∀ method ∈ tbl.methods, ∀ xs : List ℝ, HasLoss tbl metric method (finVec xs) →
      0 ≤ meanR L xs ∧ (metric = "zero_one".toList → meanR L xs ≤ 1) := by
    intro metric hmetric method hmethod xs hxs
    obtain ⟨xs', a, b, c, d⟩ := hcol metric hmetric method hmethod
    obtain rfl : xs = xs' := (List.map_injective_iff.2 (fun _ _ h => Flt.fin.inj h)) (hasLoss_unique hxs a)
    have hne : xs ≠ [] := by
      rintro rfl
      have := ht.rows
      simp at b
      omega
    refine ⟨C109_at_least hL hne (by intro k _; simp [hL.rnd.zero]) c, fun h => C109_at_most hL hne ?_ (d h)⟩
    intro k hk
    rw [mul_one]
    exact hr k (b ▸ hk)
  have hfin : ∀ metric ∈ tbl.metrics, ∃ lower upper, LimitsOf limits metric lower upper ∧ ValidLimits lower upper ∧
      GridLimit L.rnd tbl.nrows lower ∧ GridLimit L.rnd tbl.nrows upper ∧ ∀ method ∈ tbl.methods, ∃ xs : List ℝ,
        HasLoss tbl metric method (finVec xs) ∧ xs.length = tbl.nrows ∧ Within lower upper xs := by
    intro metric hmetric
    obtain ⟨lower, upper, g1, g2, g3, g4, g5, g6⟩ := hlim metric ((hmet.1.mem_iff).1 hmetric)
    have hup : Flt.fin 0 ≤ upper := by
      rcases g6 with rfl | ⟨-, h⟩
      · exact Flt.le_pinf (by simp)
      · exact le_trans (Flt.fin_le_fin.2 zero_le_one) h
    refine ⟨lower, upper, g1, ⟨?_, g3, g2.trans hup, ?_, ?_⟩, by rw [hrows]; exact g4, by rw [hrows]; exact g5, fun method hmethod => ?_⟩
    · rintro rfl; exact absurd g2 (by simp)
    · rintro rfl; exact absurd g2 (by simp)
    · rintro rfl; exact absurd hup (by simp)
    · obtain ⟨xs, a, b, c, d⟩ := hcol metric hmetric method hmethod
      refine ⟨xs, a, b.trans hrows.symm, fun x hx => ⟨g2.trans (Flt.fin_le_fin.2 (c x hx)), ?_⟩⟩
      rcases g6 with rfl | ⟨h, h'⟩
      · exact Flt.le_pinf (by simp)
      · exact (Flt.fin_le_fin.2 (d h x hx)).trans h'
  have hmne : tbl.metrics ≠ [] := by
    intro e
    rw [e] at hmet
    simp at hmet
  have hr' : 1 ≤ tbl.nrows := by rw [hrows]; exact ht.rows
  cases pairwise with
  | true =>
    obtain ⟨l, hl, hl'⟩ := C108_table hL hu he hm hm1 (tbl := tbl) (refMethod := refMethod) h0 h1 hme (limits := limits) (draws := draws)
      (by rw [hrows]; exact fun h a b => (hd h a b).1) ((hmeth.1.mem_iff).2 href) hr' (by rw [hrows]; exact hnu) hmne
      fun metric hmetric => by
        obtain ⟨lo, up, a, b, -, -, c⟩ := hfin metric hmetric
        exact ⟨lo, up, a, b, c⟩
    refine ⟨tbl, l, e, hl, hmet, hmeth, forall₂_left_mem hl' fun metric row hmetric hrow => forall₂_left_mem hrow fun method cell hmethod hcell => ?_⟩
    obtain ⟨⟨xs, hxs, e1⟩, e2, e3⟩ := hcell
    obtain ⟨f1, f2⟩ := hmean metric hmetric method hmethod xs hxs
    refine ⟨⟨xs, hxs, e1⟩, ⟨_, e1, f1, f2⟩, fun h => by rw [e2 h.1], fun h => ?_, fun h => by rw [e2 h], fun h => (e3 h).2.2⟩
    have := e3 fun h' => h ⟨h', rfl⟩
    exact ⟨this.1, this.2.1⟩
  | false =>
    obtain ⟨l, hl, hl'⟩ := C109_table_grid hL hu he hm hm1 (tbl := tbl) (refMethod := refMethod) h0 h1 hme (limits := limits) (draws := draws)
      (by rw [hrows]; exact hd) ((hmeth.1.mem_iff).2 href) hr' (by rw [hrows]; exact hnu) hmne hfin
    refine ⟨tbl, l, e, hl, hmet, hmeth, forall₂_left_mem hl' fun metric row hmetric hrow => forall₂_left_mem hrow fun method cell hmethod hcell => ?_⟩
    obtain ⟨⟨xs, hxs, e1⟩, e2, e3, e4, e5⟩ := hcell
    obtain ⟨f1, f2⟩ := hmean metric hmetric method hmethod xs hxs
    exact ⟨⟨xs, hxs, e1⟩, ⟨_, e1, f1, f2⟩, fun h => by simp at h, fun _ => ⟨e2, e3⟩, e4, e5⟩

/-! ## The curves -/

theorem GoodTable.binary {t : PredTable ℝ} (ht : GoodTable t) (h2 : t.labels.length = 2) (hf : FloatPreds L.rnd t) (hx : NoneExcluded t) :
    GoodBinary t := by
  refine ⟨ht.rows, h2, ht.order, fun method hm k col hc i hi e => ?_, fun method hm col hc i hi => ?_⟩
  · have hmem := hasCol_mem hc
    have hl : i < col.length := by rw [ht.lengths _ hmem]; exact hi
    exact ht.noNaN _ hmem (by rw [← e]; simp [hl])
  · have hp := isMatrix_of (ht.order _ hm)
    obtain ⟨p1, p2, p3, p4⟩ := id hp
    obtain ⟨col', hc', hcol⟩ := p4 1 (by omega)
    obtain rfl : col' = col := hasCol_unique hc' hc
    have hip : i < (matrixOf t method).rows.length := by rw [p2]; exact hi
    have hv := hcol i _ (List.getElem?_eq_getElem hip)
    have hmem := List.mem_of_getElem? hv
    obtain ⟨⟨g1, -⟩, -⟩ := hf method hm _ hp _ (List.getElem_mem hip)
    have h1 := g1 _ hmem
    have h2 := hx method hm _ hp _ (List.getElem_mem hip)
    revert hmem h1
    cases col'.getD i .nan with
    | fin x => intro _ _; rfl
    | ninf => intro h; exact absurd h h2
    | pinf => intro _ h; exact absurd rfl h.2
    | nan => intro _ h; exact absurd rfl h.1

/-- **C121, curve cells.**  In double precision the estimates of ROC and precision-recall curves are between 0 and `1 + 1e-12`; no estimate is NaN or `+inf`; all values of the
curves written to the dump are at most `1 + 1e-15`. -/
theorem C121_curve_range {sumR : List ℝ → ℝ} (hsum : AddsAlongTrees binary64 sumR) {other : Interp ℝ} {t : PredTable ℝ} (ht : GoodBinary t) {y : LabelVec}
    (hy : GoodTestLabels y t.nrows 2) {curve : Str × CurveF ℝ} {lo : Flt ℝ} {cap : Nat} (hc : StdCurve sumR curve.2 lo cap) (hcap : t.nrows ≤ cap)
    {refMethod method : Str} (href : refMethod ∈ t.methods) (hmeth : method ∈ t.methods) {xGrid : Option (List (Flt ℝ))}
    (hg : ∀ l, xGrid = some l → ∃ grid : List ℝ, l = finVec grid ∧ grid ≠ [] ∧ ∀ v ∈ grid, 0 ≤ v ∧ v ≤ 1)
    {n : Nat} (hn : 1 ≤ n) (hn2 : n ≤ 2 ^ 52) {draws : BootDraws}
    (hd : ∀ m c, (draws m c).length = n ∧ ∀ row ∈ draws m c, row.length = t.nrows ∧ row.sum = t.nrows)
    {conf : ℝ} (h0 : 0 < conf) (h1 : conf < 1) {pairwise : Bool} (hpw : pairwise = true → lo = .fin 0)
    {cell : Flt ℝ × Flt ℝ × Flt ℝ} {entry : List (CurveRow ℝ)}
    (h : IsCurveCellR binary64 sumR other t y refMethod xGrid n pairwise (.fin conf) draws method curve cell entry) :
    cell.1 ≠ .nan ∧ cell.1 ≠ .pinf ∧ (lo = .fin 0 → Flt.fin 0 ≤ cell.1 ∧ cell.1 ≤ .fin (1 + 1 / 10 ^ 12)) ∧
    entry.length = (xGrid.getD (defaultGridR binary64)).length ∧
    ∀ r ∈ entry, r.2.1 ≠ .nan ∧ r.2.1 ≤ .fin (1 + 1 / 10 ^ 15) ∧ r.2.2.1 ≤ r.2.2.2 ∧ r.2.2.2 ≤ .fin (1 + 1 / 10 ^ 15) := by
  obtain ⟨p, q, auc, EB, pval, hp, hq, hb, e, -, -⟩ := h
  obtain ⟨s, hs⟩ := goodBinary_preds ht hmeth hp
  obtain ⟨s', hs'⟩ := goodBinary_preds ht href hq
  obtain ⟨d1, d2⟩ := hd method curve.1
  have hclass : ClassInput y p := by
    obtain ⟨a1, a2, a3, -⟩ := hp
    refine ⟨hy.kind, by rw [a1, ht.labels]; norm_num, ?_, by rw [hy.length, a2], a3, ?_⟩
    · intro e
      rw [e] at a2
      have := ht.rows
      simp at a2; omega
    · intro v hv
      have := hy.range v hv
      rw [a1, ht.labels]
      exact this
  obtain ⟨auc', EB', v', rows, hb', r1, r2, r3, -, -, -, r7, r8⟩ := C115_double hsum other hc hclass (by rw [hp.2.1]; exact hcap) hs (ref := .preds q)
    ⟨by rw [hq.2.1, hp.2.1], s', hs'⟩ (counts := draws method curve.1) (by intro e; rw [e] at d1; simp at d1; omega) (by rw [d1]; exact hn2)
    (by rw [hp.2.1]; exact d2) hg h0 h1 hpw
  rw [d1, hb] at hb'
  simp only [Except.ok.injEq, Prod.mk.injEq] at hb'
  obtain ⟨⟨rfl, rfl, rfl⟩, rfl⟩ := hb'
  rw [e]
  exact ⟨r1, r2, r3, r7, fun r hr => ⟨(r8 r hr).2.2.2.1, (r8 r hr).1, (r8 r hr).2.1, (r8 r hr).2.2.1⟩⟩

/-! ## `summary_table` -/

theorem summaryR_ok_iff (other : Interp ℝ) (t : PredTable ℝ) (y : LabelVec)
    (losses : List (Str × Metric)) (curves : List (Str × CurveF ℝ)) (refMethod : Str) (xGrid : Option (List (Flt ℝ)))
    (nBoot : Int) (pairwise : Bool) (conf : Flt ℝ) (methodEB : EBMethod) (limits : List (Str × (Flt ℝ × Flt ℝ)))
    (cd : BootDraws) (ld : Str → Str → Draws) (full : FullTable) (dump : CurveDump ℝ) :
    summaryTableR L other t y losses curves refMethod xGrid nBoot pairwise conf methodEB limits cd ld = .ok (full, dump) ↔
      ∃ ct tbl l, curveSummaryTableR L.rnd L.sum other t y curves refMethod xGrid nBoot pairwise conf cd = .ok (ct, dump) ∧
        lossTableR L t y losses false = .ok tbl ∧
        lossSummaryTableR L tbl refMethod pairwise conf methodEB limits ld = .ok l ∧
        full = ⟨tbl.metrics ++ ct.curves, tbl.methods,
          l ++ (List.range ct.curves.length).map fun j => ct.column tbl.methods j⟩ := by
  unfold summaryTableR
  simp only [bind_ok_iff, pure_eq_ok, Except.ok.injEq, Prod.mk.injEq]
  constructor
  · rintro ⟨⟨ct, d⟩, h1, tbl, h2, l, h3, rfl, rfl⟩
    exact ⟨ct, tbl, l, h1, h2, h3, rfl⟩
  · rintro ⟨ct, tbl, l, h1, h2, h3, rfl⟩
    exact ⟨(ct, dump), h1, tbl, h2, l, h3, rfl, rfl⟩

/-- **C121, layout.**  The table has the columns of the losses, then those of the curves in the order given; its rows are those of the loss table.  The cells of
the losses are those of `loss_summary_table`, the cells of the curves those of `curve_boot` for that method and curve, whose curve is in the dump. -/
theorem C121_layout {other : Interp ℝ} {t : PredTable ℝ} {y : LabelVec}
    {losses : List (Str × Metric)} {curves : List (Str × CurveF ℝ)} {refMethod : Str} {xGrid : Option (List (Flt ℝ))}
    {nBoot : Int} {pairwise : Bool} {conf : Flt ℝ} {methodEB : EBMethod} {limits : List (Str × (Flt ℝ × Flt ℝ))}
    {cd : BootDraws} {ld : Str → Str → Draws} {full : FullTable} {dump : CurveDump ℝ}
    (h : summaryTableR L other t y losses curves refMethod xGrid nBoot pairwise conf methodEB limits cd ld = .ok (full, dump)) :
    ∃ tbl lossCols curveCols, lossTableR L t y losses false = .ok tbl ∧
      lossSummaryTableR L tbl refMethod pairwise conf methodEB limits ld = .ok lossCols ∧
      full.metrics = tbl.metrics ++ curves.map (·.1) ∧ full.methods = tbl.methods ∧ full.columns = lossCols ++ curveCols ∧
      ((∀ method ∈ tbl.methods, method ∈ t.methods) → List.Forall₂ (fun curve col => List.Forall₂ (fun method cell => ∃ entry,
        ((method, curve.1), entry) ∈ dump ∧
        IsCurveCellR L.rnd L.sum other t y refMethod xGrid nBoot pairwise conf cd method curve cell entry) full.methods col)
        curves curveCols) := by
  obtain ⟨ct, tbl, l, h1, h2, h3, rfl⟩ := (summaryR_ok_iff ..).1 h
  obtain ⟨e1, e2, entries, hf, n1, n2, rfl⟩ := C115_table_cells h1
  refine ⟨tbl, l, _, h2, h3, by rw [e2], rfl, rfl, fun hsub => ?_⟩
  rw [e2, List.length_map]
  refine List.forall₂_iff_get.2 ⟨by simp, fun j hj hj' => ?_⟩
  simp only [List.get_eq_getElem, List.getElem_map, List.getElem_range]
  unfold CurveTable.column
  rw [List.forall₂_map_right_iff]
  refine List.forall₂_same.2 fun method hmeth => ?_
  have hmem : method ∈ t.methods := hsub method hmeth
  rw [e1]
  have hi : t.methods.idxOf method < t.methods.length := List.idxOf_lt_length_iff.2 hmem
  have hget : t.methods[t.methods.idxOf method] = method := List.getElem_idxOf hi
  generalize t.methods.idxOf method = i at hi hget
  have hic : i < ct.cells.length := by omega
  have hie : i < entries.length := by omega
  obtain ⟨hlen, hrow⟩ := List.forall₂_iff_get.1 hf
  have hiz : i < (ct.cells.zip entries).length := by rw [List.length_zip]; omega
  obtain ⟨r1, r2, r3⟩ := hrow i hi hiz
  simp only [List.get_eq_getElem, List.getElem_zip, hget] at r1 r2 r3
  obtain ⟨-, hcell⟩ := List.forall₂_iff_get.1 r1
  have hjz : j < (ct.cells[i].zip entries[i]).length := by rw [List.length_zip]; omega
  have hcell := hcell j hj hjz
  simp only [List.get_eq_getElem, List.getElem_zip] at hcell
  have g1 : ct.cells.getD i [] = ct.cells[i] := by simp [hic]
  have g2 : ct.cells[i].getD j (.nan, .nan, .nan) = ct.cells[i][j] := by
    have : j < ct.cells[i].length := by omega
    simp [this]
  rw [g1, g2]
  refine ⟨_, ?_, hcell⟩
  have hall : ∀ e ∈ entries, e.length = (curves.map (·.1)).length := by
    intro e he
    obtain ⟨k, hk', rfl⟩ := List.getElem_of_mem he
    have hkz : k < (ct.cells.zip entries).length := by rw [List.length_zip]; omega
    have := (hrow k (by omega) hkz).2.2
    simpa using this
  have := mem_product_zip (ns := curves.map (·.1)) n2 hall i j (by omega) (by simpa using hj)
  simpa [hget] using this

/-- What a cell of a curve tells: an estimate that is not NaN and at most `1 + 1e-12`, a non-negative error bar (without pairs) and a p-value in [0, 1], which is
missing for the reference. -/
def GoodCurveCell (refMethod : Str) (pairwise : Bool) (lo : Flt ℝ) (method : Str) (cell : Flt ℝ × Flt ℝ × Flt ℝ) : Prop :=
  cell.1 ≠ .nan ∧ cell.1 ≠ .pinf ∧ (lo = .fin 0 → Flt.fin 0 ≤ cell.1 ∧ cell.1 ≤ .fin (1 + 1 / 10 ^ 12)) ∧
  (method = refMethod → pairwise = true → cell.2.1 = .nan) ∧
  (pairwise = false → ∀ x, cell.1 = .fin x → cell.2.1 ≠ .nan ∧ Flt.fin 0 ≤ cell.2.1) ∧
  (cell.2.2 = .nan ↔ method = refMethod) ∧ (method ≠ refMethod → ∃ v : ℝ, cell.2.2 = .fin v ∧ 0 ≤ v ∧ v ≤ 1)

/-- **C121, summary table.**  In double precision `summary_table` with the standard losses and curves succeeds on every table of predictions of two labels that are floats and exclude no label, for every
outcome of the bootstrap draws; all its cells are meaningful. -/
theorem C121_summary (hL : GoodLib L) (hE : GoodExpLog L) (hb : L.rnd = binary64) (other : Interp ℝ)
    {t : PredTable ℝ} (ht : GoodTable t) (h2 : t.labels.length = 2) (hM : t.methods.Nodup) (hf : FloatPreds L.rnd t) (hx : NoneExcluded t)
    {y : LabelVec} (hy : GoodTestLabels y t.nrows 2) {refMethod : Str} (href : refMethod ∈ t.methods) {pairwise : Bool}
    {curves : List (Str × CurveF ℝ)} (hne : curves ≠ []) 
    (hcurve : ∀ c ∈ curves, ∃ lo cap, StdCurve L.sum c.2 lo cap ∧ t.nrows ≤ cap ∧ (pairwise = true → lo = .fin 0))
    {xGrid : Option (List (Flt ℝ))} (hg : ∀ l, xGrid = some l → ∃ grid : List ℝ, l = finVec grid ∧ grid ≠ [] ∧ ∀ v ∈ grid, 0 ≤ v ∧ v ≤ 1)
    {n : Nat} (hn : 1 ≤ n) (hn2 : n ≤ 2 ^ 52) {cd : BootDraws}
    (hcd : ∀ m c, (cd m c).length = n ∧ ∀ row ∈ cd m c, row.length = t.nrows ∧ row.sum = t.nrows)
    {c : ℝ} (h0 : 0 < c) (h1 : c < 1) {methodEB : EBMethod} (hme : methodEB ≠ .other)
    {limits : List (Str × (Flt ℝ × Flt ℝ))} (hlim : CoversLosses L.rnd t.nrows limits) {ld : Str → Str → Draws}
    (hld : methodEB = .boot → ∀ metric method, ValidDraws t.nrows 1000 (ld metric method).eb ∧ ValidDraws t.nrows 1000 (ld metric method).test) :
    ∃ full dump, summaryTableR L other t y (stdClassLossR L dotR) curves refMethod xGrid n pairwise (.fin c) methodEB limits cd ld = .ok (full, dump) ∧
      (full.methods.Perm t.methods ∧ full.methods.Pairwise (· ≤ ·)) ∧
      ∃ lossNames lossCols curveCols, full.metrics = lossNames ++ curves.map (·.1) ∧ full.columns = lossCols ++ curveCols ∧
        (lossNames.Perm ["NLL".toList, "Brier".toList, "sphere".toList, "zero_one".toList] ∧ lossNames.Pairwise (· ≤ ·)) ∧
        List.Forall₂ (fun metric col => List.Forall₂ (fun method cell => GoodLossCell refMethod pairwise metric method cell) full.methods col)
          lossNames lossCols ∧
        List.Forall₂ (fun curve col => List.Forall₂ (fun method cell => ∀ lo cap, StdCurve L.sum curve.2 lo cap →
          t.nrows ≤ cap → (pairwise = true → lo = .fin 0) → GoodCurveCell refMethod pairwise lo method cell) full.methods col) curves curveCols := by
  have hgb := ht.binary h2 hf hx
  have hsum : AddsAlongTrees binary64 L.sum := hb ▸ hL.sum
  have hcap : t.nrows ≤ 3000 := by
    obtain ⟨c0, hc0⟩ := List.exists_mem_of_ne_nil _ hne
    obtain ⟨lo, cap, hs, h, -⟩ := hcurve c0 hc0
    have : cap ≤ 3000 := by
      generalize c0.2 = f at hs
      cases hs <;> norm_num
    omega
  have hnat : ∀ k : Nat, k ≤ 3000 → L.rnd k = k := by
    intro k hk
    rw [hb]
    exact binary64_nat (n := 3000) (by norm_num) k hk
  obtain ⟨tbl, l, e1, e2, e3, e4, e5⟩ := C121_loss_summary (dotR := dotR) (u := 1 / 2 ^ 53) hL hE (by norm_num) (hb ▸ binary64_relError) (hb ▸ binary64_halves) (by norm_num)
    ht hM hf hx (by rw [h2]; exact hy) (fun k hk => hnat k (by omega)) (fun k hk => hnat k (by omega)) href (pairwise := pairwise) h0 h1 hme hlim hld
    (by
      have : (t.nrows : ℝ) ≤ 3000 := by exact_mod_cast hcap
      have h3 : (0 : ℝ) ≤ 1 / 2 ^ 53 := by positivity
      exact (mul_le_mul_of_nonneg_right this h3).trans (by norm_num))
  obtain ⟨⟨ct, dump⟩, hct⟩ := C115_table_success hsum other hgb hy.length hy.kind (fun v hv => by have := hy.range v hv; omega) hne hcurve href hg hn hn2
    hcd h0 h1 (draws := cd)
  have hok := (summaryR_ok_iff (L := L) other t y (stdClassLossR L dotR) curves refMethod xGrid n pairwise (.fin c) methodEB limits cd ld _ dump).2
    ⟨ct, tbl, l, by rw [hb]; exact hct, e1, e2, rfl⟩
  refine ⟨_, dump, hok, e4, ?_⟩
  obtain ⟨tbl', lc, cc, f1, f2, f3, f4, f5, f6⟩ := C121_layout hok
  rw [e1, Except.ok.injEq] at f1
  subst f1
  rw [e2, Except.ok.injEq] at f2
  subst f2
  refine ⟨tbl.metrics, l, cc, f3, f5, e3, e5.imp fun _ _ h => h.imp fun _ _ h => h.2, ?_⟩
  have f6 := f6 fun method hm => (e4.1.mem_iff).1 hm
  refine f6.imp fun curve col hcol => forall₂_left_mem hcol ?_
  rintro method cell hm ⟨entry, -, hcell⟩ lo cap hstd hcp hpw
  rw [hb] at hcell
  have hmeth : method ∈ t.methods := (e4.1.mem_iff).1 hm
  obtain ⟨a1, a2, a3, -⟩ := C121_curve_range hsum hgb hy hstd hcp href hmeth hg hn hn2 hcd h0 h1 hpw hcell
  obtain ⟨b1, b2, b3, b4, -⟩ := C115_table_missing binary64_floatRounding binary64_halves (by norm_num) (by exact_mod_cast hn2) hcell
  exact ⟨a1, a2, a3, b3, b4, b1, b2⟩

/-! ## `just_benchmark` -/

theorem double_confidence : 0 < (binary64 (95 / 100) : ℝ) ∧ (binary64 (95 / 100) : ℝ) < 1 := by
  have := binary64_relError (K := ℝ) (95 / 100)
  rw [_root_.abs_le] at this
  norm_num [abs_of_pos] at this
  constructor <;> linarith

/-- **C121, benchmark.**  In double precision `just_benchmark` never fails: data that pass the checks, methods that predict log-probabilities that are floats, a finite floor,
labels 0 and 1, at most as many test points as the curves allow (300 for the standard curves), limits that cover the losses, and any outcome of the bootstrap draws.  The table has
a row for each method and a cell for each loss and curve, all meaningful. -/
theorem C121_benchmark {D : Type} (hL : GoodLib L) (hE : GoodExpLog L) (hb : L.rnd = binary64) (other : Interp ℝ) {xTrain : Features D} {yTrain : LabelVec} {xTest : Features D}
    {yTest : LabelVec} {nTest : Nat} {methods : List (Str × Estimator D)} {floor : ℝ} (hg : GoodData xTrain yTrain xTest 2 (.fin floor) nTest)
    (hfl : binary64 floor = floor) (hn : (methods.map fun m => m.1).Nodup)
    (hp : ∀ m ∈ methods, ∃ p, PredictsR L xTrain yTrain xTest m.2 p ∧ GoodPrediction L.rnd (.fin floor) nTest 2 p)
    (hk : yTrain.kind = yTest.kind) (hy : GoodTestLabels yTest nTest 2)
    {refMethod : Str} (href : refMethod ∈ methods.map fun m => m.1) {pairwise : Bool}
    {curves : List (Str × CurveF ℝ)} (hne : curves ≠ [])
    (hcurve : ∀ c ∈ curves, ∃ lo cap, StdCurve L.sum c.2 lo cap ∧ nTest ≤ cap ∧ (pairwise = true → lo = .fin 0))
    {cd : BootDraws} (hcd : ∀ m c, (cd m c).length = 1000 ∧ ∀ row ∈ cd m c, row.length = nTest ∧ row.sum = nTest)
    {methodEB : EBMethod} (hme : methodEB ≠ .other)
    {limits : List (Str × (Flt ℝ × Flt ℝ))} (hlim : CoversLosses L.rnd nTest limits) {ld : Str → Str → Draws}
    (hld : methodEB = .boot → ∀ metric method, ValidDraws nTest 1000 (ld metric method).eb ∧ ValidDraws nTest 1000 (ld metric method).test) :
    ∃ full dump, justBenchmarkR L other xTrain yTrain xTest yTest 2 methods (stdClassLossR L dotR) curves refMethod (.fin floor) pairwise methodEB limits cd ld =
        .ok (full, dump) ∧
      (full.methods.Perm (methods.map fun m => m.1) ∧ full.methods.Pairwise (· ≤ ·)) ∧
      ∃ lossNames lossCols curveCols, full.metrics = lossNames ++ curves.map (·.1) ∧ full.columns = lossCols ++ curveCols ∧
        (lossNames.Perm ["NLL".toList, "Brier".toList, "sphere".toList, "zero_one".toList] ∧ lossNames.Pairwise (· ≤ ·)) ∧
        List.Forall₂ (fun metric col => List.Forall₂ (fun method cell => GoodLossCell refMethod pairwise metric method cell) full.methods col)
          lossNames lossCols ∧
        List.Forall₂ (fun curve col => List.Forall₂ (fun method cell => ∀ lo cap, StdCurve L.sum curve.2 lo cap →
          nTest ≤ cap → (pairwise = true → lo = .fin 0) → GoodCurveCell refMethod pairwise lo method cell) full.methods col) curves curveCols := by
  have hmne : methods ≠ [] := by rintro rfl; simp at href
  obtain ⟨t, e, r1, r2, r3, r4, r5, r6, r7⟩ := C121_predictions hL hE hg (by rintro x h; cases h; rw [hb]; exact hfl) hn hmne hp
  have h2 : t.labels.length = 2 := by rw [r2]; simp [rangeList]
  have hx : NoneExcluded t := by
    intro method hm p hp' r hr h
    obtain ⟨mm, hmm, rfl⟩ := List.mem_map.1 ((r3.mem_iff).1 hm)
    obtain ⟨-, q, -, hq, -, -, hq'⟩ := r7 mm hmm
    have hpq : p = q := isMatrix_unique rfl rfl (fun _ _ => Iff.rfl) hq hp'
    exact hq' (by simp) r (hpq ▸ hr) _ h rfl
  obtain ⟨c0, c1⟩ := double_confidence
  subst r1
  obtain ⟨full, dump, h, g1, g2⟩ := C121_summary (dotR := dotR) hL hE hb other r5 h2 ((r3.nodup_iff).2 hn) r6 hx hy ((r3.mem_iff).2 href) (pairwise := pairwise) hne hcurve
    (xGrid := none) (by simp) (n := 1000) (by norm_num) (by norm_num) hcd c0 c1 hme hlim hld
  refine ⟨full, dump, ?_, ⟨g1.1.trans r3, g1.2⟩, g2⟩
  unfold justBenchmarkR
  rw [decide_eq_true hk, e, hb]
  exact h

/-! ## The constant classifier -/

/-- **C121, `JustNoise`.**  In floating point arithmetic `JustNoise` fits labels in range; its prediction for a label is the logarithm of a computed frequency between 0 and 1, which is 0 exactly for a label that does not
occur if the pseudo count is 0, and at least as large as that of any label that does not occur more often.  The predictions are valid for `get_pred_log_prob`. -/
theorem C121_noise {D : Type} (hL : GoodLib L) (hlog : ∀ x, 0 < x → x ≤ 1 → L.rnd (L.log x) = L.log x) {y : LabelVec} {n : Nat} (h : GoodLabels y n)
    (hne : y.vals ≠ []) {pseudo : ℝ} (hp : 0 ≤ pseudo) (hpf : L.rnd pseudo = pseudo)
    (xTrain : Features D) {xTest : Features D} {nTest : Nat} {rest : List Nat} (hx : xTest.shape = nTest :: rest) :
    ∃ (q : Nat → ℝ) (p : Mat ℝ), PredictsR L xTrain y xTest (justNoiseR L n pseudo) p ∧ GoodPrediction L.rnd .ninf nTest n p ∧
      p.rows = List.replicate nTest ((List.range n).map fun k => if q k = 0 then .ninf else .fin (L.log (q k))) ∧
      ∀ k < n, 0 ≤ q k ∧ q k ≤ 1 ∧ (q k = 0 ↔ y.vals.count (k : Int) = 0 ∧ pseudo = 0) ∧
        ∀ j < n, y.vals.count (j : Int) ≤ y.vals.count (k : Int) → q j ≤ q k := by
  have hn : 1 ≤ n := by exact_mod_cast h.1
  have hr := hL.rnd
  set N : ℝ := L.rnd ((y.vals.length : ℝ) + L.rnd ((n : ℝ) * pseudo)) with hN
  have hlen : (1 : ℝ) ≤ y.vals.length := by exact_mod_cast List.length_pos_iff.2 hne
  have hnp : 0 ≤ L.rnd ((n : ℝ) * pseudo) := hr.nonneg (by positivity)
  have hNp : 0 < N := hr.pos _ (by linarith)
  have hcount : ∀ k : Nat, (y.vals.count (k : Int) : ℝ) ≤ y.vals.length := fun k => by exact_mod_cast List.count_le_length
  have hcp : ∀ k : Nat, 0 ≤ L.rnd (pseudo + (y.vals.count (k : Int) : ℝ)) := fun k => hr.nonneg (by positivity)
  set q : Nat → ℝ := fun k => L.rnd (L.rnd (pseudo + (y.vals.count (k : Int) : ℝ)) / N) with hq
  have hq0 : ∀ k, 0 ≤ q k := fun k => hr.nonneg (div_nonneg (hcp k) hNp.le)
  have hq1 : ∀ k, q k ≤ 1 := by
    intro k
    rw [hq, ← hr.one]
    refine hr.mono ((div_le_one hNp).2 (hr.mono ?_))
    have h1 : pseudo ≤ L.rnd ((n : ℝ) * pseudo) := by
      rw [← hpf]
      refine hr.mono ?_
      rw [hpf]
      have : (1 : ℝ) ≤ n := by exact_mod_cast hn
      nlinarith
    linarith [hcount k]
  have hqz : ∀ k, q k = 0 ↔ y.vals.count (k : Int) = 0 ∧ pseudo = 0 := by
    intro k
    constructor
    · intro e
      by_contra hne
      have : 0 < pseudo + (y.vals.count (k : Int) : ℝ) := by
        rcases Nat.eq_zero_or_pos (y.vals.count (k : Int)) with h0 | h0
        · have : pseudo ≠ 0 := fun h => hne ⟨h0, h⟩
          have := lt_of_le_of_ne hp this.symm
          positivity
        · have : (0 : ℝ) < y.vals.count (k : Int) := by exact_mod_cast h0
          linarith
      exact absurd e (hr.pos _ (div_pos (hr.pos _ this) hNp)).ne'
    · rintro ⟨h1, h2⟩
      simp [hq, h1, h2, hr.zero]
  have hfit : justNoiseFitR L n pseudo y = .ok ((List.range n).map fun k => if q k = 0 then .ninf else .fin (L.log (q k))) := by
    unfold justNoiseFitR
    rw [oneHot_eq h, ok_bind, pure_eq_ok]
    congr 1
    rw [List.map_map]
    refine List.map_congr_left fun k hk => ?_
    simp only [Function.comp]
    rw [countP_oneHot _ (List.mem_range.1 hk), ← hN, Flt.div_fin hNp.ne']
    change flogR L (.fin (q k)) = _
    have := hq0 k
    unfold flogR
    by_cases h0 : q k = 0
    · simp [h0]
    · simp only [if_pos (lt_of_le_of_ne this (Ne.symm h0)), if_neg h0]
  refine ⟨q, justNoisePredict ((List.range n).map fun k => if q k = 0 then .ninf else .fin (L.log (q k))) nTest, ?_, ?_, rfl, ?_⟩
  · refine ⟨_, by unfold justNoiseR; rw [hfit]; rfl, Or.inl ?_⟩
    change (shapeAt xTest 0 >>= fun n => _) = _
    rw [(shapeAt_ok_iff _ _ _).2 (by rw [hx]; rfl)]
    rfl
  · have hrow : ∀ r ∈ (justNoisePredict ((List.range n).map fun k => if q k = 0 then Flt.ninf else .fin (L.log (q k))) nTest).rows,
        r = (List.range n).map fun k => if q k = 0 then .ninf else .fin (L.log (q k)) := fun r hr => List.eq_of_mem_replicate hr
    have hlp : LogProbs ((List.range n).map fun k => if q k = 0 then Flt.ninf else .fin (L.log (q k))) := by
      intro v hv
      obtain ⟨k, -, rfl⟩ := List.mem_map.1 hv
      split_ifs <;> simp
    refine ⟨by simp [justNoisePredict], by simp [justNoisePredict], fun r hr => by rw [hrow r hr]; simp [justNoisePredict],
      fun r hr => ?_, fun _ r hr => ?_⟩
    · rw [hrow r hr]
      refine ⟨hlp, fun x hx => ?_⟩
      obtain ⟨k, -, e⟩ := List.mem_map.1 hx
      split_ifs at e with h0
      cases e
      exact hlog _ (lt_of_le_of_ne (hq0 k) (Ne.symm h0)) (hq1 k)
    · rw [hrow r hr]
      refine ⟨hlp, ?_⟩
      obtain ⟨v, hv⟩ := List.exists_mem_of_ne_nil _ hne
      obtain ⟨v0, v1⟩ := h.2.2 v hv
      obtain ⟨k, rfl⟩ := Int.eq_ofNat_of_zero_le v0
      refine ⟨L.log (q k), List.mem_map.2 ⟨k, by simp; omega, ?_⟩⟩
      rw [if_neg]
      intro e
      have := ((hqz k).1 e).1
      exact absurd hv (List.count_eq_zero.1 this)
  · intro k hk
    refine ⟨hq0 k, hq1 k, hqz k, fun j hj hjk => hr.mono ?_⟩
    refine div_le_div_of_nonneg_right (hr.mono ?_) hNp.le
    have : (y.vals.count (j : Int) : ℝ) ≤ y.vals.count (k : Int) := by exact_mod_cast hjk
    linarith

/-! ## An example -/

/-- The limits that `just_benchmark` uses if none are given, and natural limits. -/
theorem coversLosses_default (rnd : ℝ → ℝ) (n : Nat) : CoversLosses rnd n [] :=
  fun _ _ => ⟨.ninf, .pinf, .default (by simp), Flt.ninf_le _, by simp, trivial, trivial, .inl rfl⟩

/-- The names of the methods in the example. -/
noncomputable def benchMethods : List (Str × Estimator Unit) := [("noise".toList, justNoiseR doubleLib 2 1), ("a".toList, exampleEst)]

theorem doubleLib_log (x : ℝ) : doubleLib.rnd (doubleLib.log x) = doubleLib.log x := binary64_floatRounding.idem _

theorem benchMethods_good {floor : ℝ} (m : Str × Estimator Unit) (hm : m ∈ benchMethods) :
    ∃ p, PredictsR doubleLib exampleTrain exampleY exampleTest m.2 p ∧ GoodPrediction doubleLib.rnd (.fin floor) 2 2 p := by
  simp only [benchMethods, List.mem_cons, List.not_mem_nil, or_false] at hm
  rcases hm with rfl | rfl
  · obtain ⟨q, p, h1, ⟨a, b, c, d, e⟩, -⟩ := C121_noise (D := Unit) doubleLib_good (fun x _ _ => doubleLib_log x) (y := exampleY) (n := 2)
      ⟨by norm_num, rfl, by simp [exampleY]⟩ (by simp [exampleY]) (pseudo := 1) (by norm_num) binary64_floatRounding.one exampleTrain (xTest := exampleTest)
      (nTest := 2) (rest := [1]) rfl
    exact ⟨p, h1, a, b, c, d, fun e => by cases e⟩
  · refine ⟨⟨2, [[.fin (doubleLib.log (1 / 4)), .fin (doubleLib.log (3 / 4))], [.ninf, .fin (doubleLib.log 1)]]⟩,
      ⟨_, rfl, Or.inr ⟨by simp, _, rfl, rfl, ?_⟩⟩, rfl, rfl, ?_, ?_, fun e => by cases e⟩
    · simp [flogR]
    · intro r hr
      simp only [List.mem_cons, List.not_mem_nil, or_false] at hr
      rcases hr with rfl | rfl <;> rfl
    · intro r hr
      simp only [List.mem_cons, List.not_mem_nil, or_false] at hr
      rcases hr with rfl | rfl
      · refine ⟨by intro v hv; simp only [List.mem_cons, List.not_mem_nil, or_false] at hv; rcases hv with rfl | rfl <;> simp, ?_⟩
        intro x hx
        simp only [List.mem_cons, Flt.fin.injEq, List.not_mem_nil, or_false] at hx
        rcases hx with rfl | rfl <;> exact doubleLib_log _
      · refine ⟨by intro v hv; simp only [List.mem_cons, List.not_mem_nil, or_false] at hv; rcases hv with rfl | rfl <;> simp, ?_⟩
        intro x hx
        simp only [List.mem_cons, Flt.fin.injEq, List.not_mem_nil, or_false, reduceCtorEq, false_or] at hx
        subst hx
        exact doubleLib_log _

/-- C121 in double precision for the constant classifier and a classifier that excludes a label in one row, with the standard losses and curves. -/
example (other : Interp ℝ) (ld : Str → Str → Draws) : ∃ full dump, justBenchmarkR doubleLib other exampleTrain exampleY exampleTest ⟨'i', [0, 1]⟩ 2 benchMethods
    (stdClassLossR doubleLib doubleDot) (stdBinaryCurvesR doubleLib) "noise".toList (.fin (-4)) false .t [] (fun _ _ => List.replicate 1000 [2, 0]) ld = .ok (full, dump) ∧
    full.methods.Perm ["noise".toList, "a".toList] ∧ full.metrics.length = 7 := by
  obtain ⟨full, dump, h, ⟨h1, -⟩, ln, lc, cc, e1, -, ⟨e2, -⟩, -⟩ := C121_benchmark (dotR := doubleDot) (methods := benchMethods) doubleLib_good doubleLib_expLog rfl other
    (exampleGood (.fin (-4)) (by norm_num)) (by have := binary64_exact (K := ℝ) (-4) 0 (by norm_num); simpa using this) (by simp only [benchMethods, List.map_cons, List.map_nil]; decide)
    benchMethods_good (yTest := ⟨'i', [0, 1]⟩) rfl ⟨Or.inr rfl, rfl, by simp⟩ (refMethod := "noise".toList) (by simp [benchMethods]) (pairwise := false)
    (curves := stdBinaryCurvesR doubleLib) (by simp [stdBinaryCurvesR]) (by
      intro c hc
      simp only [stdBinaryCurvesR, List.mem_cons, List.not_mem_nil, or_false] at hc
      rcases hc with rfl | rfl | rfl
      · exact ⟨_, _, .roc, by norm_num, by simp⟩
      · exact ⟨_, _, .recallPrecision, by norm_num, by simp⟩
      · exact ⟨_, _, .prg, by norm_num, by simp⟩)
    (cd := fun _ _ => List.replicate 1000 [2, 0]) (fun _ _ => ⟨List.length_replicate, fun row hr => by rw [List.eq_of_mem_replicate hr]; simp⟩)
    (methodEB := .t) (by simp) (limits := []) (coversLosses_default _ _) (ld := ld) (by intro h; cases h)
  refine ⟨full, dump, h, h1, ?_⟩
  rw [e1, List.length_append, e2.length_eq]
  rfl

end Mlp.Props
