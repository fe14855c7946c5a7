import Verif.Props.CurveTable
import Verif.Props.HardLoss
import Verif.Props.LogLoss
import Verif.Props.Brier
import Verif.Props.Spherical

/-! # Property C84: the table of loss and curve summaries -/

namespace Mlp.Props
open Mlp.Util Mlp.Spec Mlp.Classif Mlp.Lemmas Mlp.Frame Mlp.Boot Mlp.Perf Mlp.Paper

theorem mem_product_zip {α β γ : Type} {ms : List α} {ns : List β} {es : List (List γ)} (hlen : es.length = ms.length)
    (hrow : ∀ e ∈ es, e.length = ns.length) (i j : Nat) (hi : i < ms.length) (hj : j < ns.length) :
    ((ms[i], ns[j]), (es[i]'(hlen ▸ hi))[j]'(by rw [hrow _ (List.getElem_mem _)]; exact hj)) ∈
      (product ms ns).zip es.flatten := by
  induction ms generalizing es i with
  | nil => simp at hi
  | cons m ms ih =>
    match es, hlen with
    | e :: es, hlen =>
      have he : e.length = ns.length := hrow e (by simp)
      have hz : (product (m :: ms) ns).zip (e :: es).flatten =
          (ns.map fun n => (m, n)).zip e ++ (product ms ns).zip es.flatten := by
        rw [product, List.flatMap_cons, List.flatten_cons, List.zip_append (by simp [he])]
        rfl
      rw [hz, List.mem_append]
      cases i with
      | zero =>
        left
        have : j < ((ns.map fun n => (m, n)).zip e).length := by simp [he, hj]
        have h := List.getElem_mem this
        simpa using h
      | succ i =>
        right
        have := ih (es := es) (by simpa using hlen) (fun e h => hrow e (by simp [h])) i (by simpa using hi)
        simpa using this

theorem summary_ok_iff (T : Nat → RefDist) (other : Interp ℝ) (t : PredTable ℝ) (y : LabelVec)
    (losses : List (Str × Metric)) (curves : List (Str × CurveF ℝ)) (refMethod : Str) (xGrid : Option (List (Flt ℝ)))
    (nBoot : Int) (pairwise : Bool) (conf : Flt ℝ) (methodEB : EBMethod) (limits : List (Str × (Flt ℝ × Flt ℝ)))
    (cd : BootDraws) (ld : Str → Str → Draws) (full : FullTable) (dump : CurveDump ℝ) :
    summaryTable T other t y losses curves refMethod xGrid nBoot pairwise conf methodEB limits cd ld = .ok (full, dump) ↔
      ∃ ct tbl l, curveSummaryTable other t y curves refMethod xGrid nBoot pairwise conf cd = .ok (ct, dump) ∧
        lossTable t y losses false = .ok tbl ∧
        lossSummaryTable T tbl refMethod pairwise conf methodEB limits ld = .ok l ∧
        full = ⟨tbl.metrics ++ ct.curves, tbl.methods,
          l ++ (List.range ct.curves.length).map fun j => ct.column tbl.methods j⟩ := by
  unfold summaryTable
  simp only [bind_ok_iff, pure_eq_ok, Except.ok.injEq, Prod.mk.injEq]
  constructor
  · rintro ⟨⟨ct, d⟩, h1, tbl, h2, l, h3, rfl, rfl⟩
    exact ⟨ct, tbl, l, h1, h2, h3, rfl⟩
  · rintro ⟨ct, tbl, l, h1, h2, h3, rfl⟩
    exact ⟨(ct, dump), h1, tbl, h2, l, h3, rfl, rfl⟩

/-- **C84.**  A successful `summary_table` has one row for each method, in sorted order.  Its metrics are the losses, in
sorted order, followed by the curves, in the given order.  A cell of a loss is the cell of `loss_summary_table` of the
losses of `loss_table` (properties C51 and C79).  A cell of a curve is that of `curve_summary_table` for this method and
this curve, with the entry of the curve dump for it (property C83). -/
theorem C84_cells {T : Nat → RefDist} {other : Interp ℝ} {t : PredTable ℝ} {y : LabelVec}
    {losses : List (Str × Metric)} {curves : List (Str × CurveF ℝ)} {refMethod : Str} {xGrid : Option (List (Flt ℝ))}
    {nBoot : Int} {pairwise : Bool} {conf : Flt ℝ} {methodEB : EBMethod} {limits : List (Str × (Flt ℝ × Flt ℝ))}
    {cd : BootDraws} {ld : Str → Str → Draws} {full : FullTable} {dump : CurveDump ℝ}
    (hk : (losses.map fun m => m.1).Nodup) (hM : t.methods.Nodup)
    (h : summaryTable T other t y losses curves refMethod xGrid nBoot pairwise conf methodEB limits cd ld =
      .ok (full, dump)) :
    (full.methods.Perm t.methods ∧ full.methods.Pairwise (· ≤ ·)) ∧
    ∃ lossNames lossCols curveCols, full.metrics = lossNames ++ curves.map (·.1) ∧ full.columns = lossCols ++ curveCols ∧
      (lossNames.Perm (losses.map fun m => m.1) ∧ lossNames.Pairwise (· ≤ ·)) ∧
      (∃ tbl : LossTable, tbl.nrows = t.nrows ∧ tbl.methods = full.methods ∧ tbl.metrics = lossNames ∧
        (∀ m ∈ losses, ∀ method ∈ t.methods, ∃ p q L, IsMatrix t method p ∧ (∀ r ∈ p.rows, Flt.nan ∉ r) ∧
          NormalisedRows p q ∧ m.2 y q = .ok L ∧ L.length = t.nrows ∧ HasLoss tbl m.1 method L) ∧
        List.Forall₂ (fun metric col => List.Forall₂ (fun method cell =>
          IsCell T tbl refMethod pairwise conf methodEB limits ld metric method cell) full.methods col)
          lossNames lossCols) ∧
      List.Forall₂ (fun curve col => List.Forall₂ (fun method cell => ∃ entry,
        ((method, curve.1), entry) ∈ dump ∧
        IsCurveCell other t y refMethod xGrid nBoot pairwise conf cd method curve cell entry) full.methods col)
        curves curveCols := by
  obtain ⟨ct, tbl, l, h1, h2, h3, rfl⟩ := (summary_ok_iff ..).1 h
  obtain ⟨k1, k2, k3, -, -, -, k7⟩ := C79_columns hk hM h2
  have hc := C51_cells h3
  obtain ⟨e1, e2, entries, hf, n1, n2, rfl⟩ := C83_cells h1
  refine ⟨k3, tbl.metrics, l, _, by rw [e2], rfl, k2, ⟨tbl, k1, rfl, rfl, ?_, hc⟩, ?_⟩
  · intro m hm method hmeth
    obtain ⟨p, q, L, a1, a2, -, a3, a4⟩ := k7 m hm method hmeth
    exact ⟨p, q, L, a1, a2, a3 rfl, a4⟩
  · rw [e2, List.length_map]
    refine List.forall₂_iff_get.2 ⟨by simp, fun j hj hj' => ?_⟩
    simp only [List.get_eq_getElem, List.getElem_map, List.getElem_range]
    unfold CurveTable.column
    rw [List.forall₂_map_right_iff]
    refine List.forall₂_same.2 fun method hmeth => ?_
    have hmem : method ∈ t.methods := (k3.1.mem_iff).1 hmeth
    rw [e1]
    have hi : t.methods.idxOf method < t.methods.length := List.idxOf_lt_length_iff.2 hmem
    have hget : t.methods[t.methods.idxOf method] = method := List.getElem_idxOf hi
    generalize t.methods.idxOf method = i at hi hget
    have hic : i < ct.cells.length := by omega
    have hie : i < entries.length := by omega
    obtain ⟨hlen, hrow⟩ := List.forall₂_iff_get.1 hf
    have hiz : i < (ct.cells.zip entries).length := by rw [List.length_zip]; omega
    obtain ⟨r1, r2, r3⟩ := hrow i hi hiz
    simp only [List.get_eq_getElem, List.getElem_zip, hget] at r1 r2 r3
    obtain ⟨-, hcell⟩ := List.forall₂_iff_get.1 r1
    have hjz : j < (ct.cells[i].zip entries[i]).length := by rw [List.length_zip]; omega
    have hcell := hcell j hj hjz
    simp only [List.get_eq_getElem, List.getElem_zip] at hcell
    have g1 : ct.cells.getD i [] = ct.cells[i] := by simp [hic]
    have g2 : ct.cells[i].getD j (.nan, .nan, .nan) = ct.cells[i][j] := by
      have : j < ct.cells[i].length := by omega
      simp [this]
    rw [g1, g2]
    refine ⟨_, ?_, hcell⟩
    have hall : ∀ e ∈ entries, e.length = (curves.map (·.1)).length := by
      intro e he
      obtain ⟨k, hk', rfl⟩ := List.getElem_of_mem he
      have hkz : k < (ct.cells.zip entries).length := by rw [List.length_zip]; omega
      have := (hrow k (by omega) hkz).2.2
      simpa using this
    have := mem_product_zip (ns := curves.map (·.1)) n2 hall i j (by omega) (by simpa using hj)
    simpa [hget] using this

/-! ### Success -/

/-- The loss functions succeed on the normalised predictions of every method and give numbers within limits. -/
def GoodLosses (t : PredTable ℝ) (y : LabelVec) (losses : List (Str × Metric)) (limits : List (Str × (Flt ℝ × Flt ℝ))) :
    Prop :=
  ∀ m ∈ losses, ∃ lower upper, LimitsOf limits m.1 lower upper ∧ ValidLimits lower upper ∧
    ∀ method ∈ t.methods, ∀ p q : Mat ℝ, IsMatrix t method p → NormalisedRows p q → (∀ r ∈ q.rows, r.length = q.ncols) →
      ∃ xs : List ℝ, m.2 y q = .ok (finVec xs) ∧ xs.length = t.nrows ∧ Within lower upper xs

/-- **C84, success.**  `summary_table` succeeds on a well-formed table of predictions of two labels, if the loss functions
give numbers within the limits and the curve functions are sound. -/
theorem C84_success {T : Nat → RefDist} (other : Interp ℝ) {t : PredTable ℝ} (ht : GoodTable t) (hb : GoodBinary t)
    (hM : t.methods.Nodup) {y : LabelVec} (hy : y.vals.length = t.nrows) (hkind : y.kind = 'b' ∨ y.kind = 'i')
    (hr : ∀ v ∈ y.vals, v = 0 ∨ v = 1) {losses : List (Str × Metric)} (hk : (losses.map fun m => m.1).Nodup)
    (hlne : losses ≠ []) {limits : List (Str × (Flt ℝ × Flt ℝ))} (hl : GoodLosses t y losses limits)
    {curves : List (Str × CurveF ℝ)} (hne : curves ≠ []) {pairwise : Bool}
    (hcurve : ∀ c ∈ curves, ∃ lo, (lo = .ninf ∨ lo = .fin 0) ∧ UnitCurves lo c.2 ∧ (pairwise = true → lo = .fin 0))
    {refMethod : Str} (href : refMethod ∈ t.methods) {xGrid : Option (List (Flt ℝ))}
    (hg : ∀ l, xGrid = some l → ∃ grid : List ℝ, l = finVec grid ∧ grid ≠ [] ∧ ∀ v ∈ grid, 0 ≤ v ∧ v ≤ 1)
    {n : Nat} (hn : 1 ≤ n) {cd : BootDraws}
    (hd : ∀ m c, (cd m c).length = n ∧ ∀ row ∈ cd m c, row.length = t.nrows)
    {conf : ℝ} (h0 : 0 < conf) (h1 : conf < 1) {methodEB : EBMethod} (hm : methodEB ≠ .other)
    {ld : Str → Str → Draws} (hT : 2 ≤ t.nrows → IsSymmetric (T (t.nrows - 1)))
    (hld : methodEB = .boot → ∀ metric method, ValidDraws t.nrows 1000 (ld metric method).eb ∧
      ValidDraws t.nrows 1000 (ld metric method).test) :
    ∃ out, summaryTable T other t y losses curves refMethod xGrid n pairwise (.fin conf) methodEB limits cd ld =
      .ok out := by
  obtain ⟨⟨ct, dump⟩, hct⟩ := C83_success other hb hy hkind hr hne hcurve href hg hn hd h0 h1
  obtain ⟨tbl, htbl⟩ := C79_success_on ht hy (metrics := losses) false (by
    intro m hm' method hmeth p q hp _ hq hrow
    obtain ⟨_, _, _, _, h⟩ := hl m hm'
    obtain ⟨xs, e, hlen, _⟩ := h method hmeth p q hp (hq rfl) hrow
    exact ⟨_, e, by simpa [finVec] using hlen⟩)
  obtain ⟨k1, k2, k3, -, -, -, k7⟩ := C79_columns hk hM htbl
  obtain ⟨out, hout⟩ := C52_success T (tbl := tbl) (refMethod := refMethod) pairwise h0 h1 hm (limits := limits) (draws := ld)
    (by rw [k1]; exact hT) (by rw [k1]; exact hld) ((k3.1.mem_iff).2 href) (by rw [k1]; exact ht.rows)
    (by intro e; rw [e] at k2; exact hlne (List.map_eq_nil_iff.1 k2.1.symm.eq_nil))
    (by
      intro metric hmet
      obtain ⟨m, hm', rfl⟩ := List.mem_map.1 ((k2.1.mem_iff).1 hmet)
      obtain ⟨lower, upper, a1, a2, a3⟩ := hl m hm'
      refine ⟨lower, upper, a1, a2, fun method hmeth => ?_⟩
      have hmeth' := (k3.1.mem_iff).1 hmeth
      obtain ⟨p, q, L, b1, b2, b3, b4⟩ := lossTable_column hk hM htbl hm' hmeth'
      have hmo : p = matrixOf t method := ((matrix_ok_iff _ _ _).1 b1).2
      subst hmo
      obtain ⟨xs, e, hlen, hw⟩ := a3 method hmeth' _ q (isMatrix_of (ht.order _ hmeth')) ((prepared_spec b3).2 rfl)
        (prepared_shape (ht.order _ hmeth') b3).2.2
      obtain ⟨b4, -, b6⟩ := b4
      rw [e, Except.ok.injEq] at b4
      subst b4
      exact ⟨xs, b6, by rw [k1]; exact hlen, hw⟩)
  exact ⟨_, (summary_ok_iff ..).2 ⟨ct, tbl, out, hct, htbl, hout, rfl⟩⟩

theorem perSample_finite {K : Type} [Field K] [LinearOrder K] [IsStrictOrderedRing K] {R : List (Flt K) → Nat → Flt K → Prop}
    {y : LabelVec} {p : Mat K} (hc : ClassInput y p) {L : List (Flt K)}
    (h : PerSample R y p L) (hR : ∀ r ∈ p.rows, ∀ k < p.ncols, ∀ v, R r k v → v.isFinite = true) :
    ∃ xs, L = finVec xs ∧ xs.length = p.rows.length := by
  obtain ⟨xs, rfl⟩ := exists_finVec (l := L) (by
    rw [List.all_eq_true]
    intro v hv
    obtain ⟨i, hi, rfl⟩ := List.getElem_of_mem hv
    have hip : i < p.rows.length := by rw [← h.1]; exact hi
    have hiy : i < y.vals.length := by rw [hc.length]; exact hip
    obtain ⟨k0, k1⟩ := hc.range _ (List.getElem_mem hiy)
    obtain ⟨k, hk⟩ := Int.eq_ofNat_of_zero_le k0
    obtain ⟨v, hv1, hv2⟩ := h.2 i k _ (List.getElem?_eq_getElem hip) (by rw [List.getElem?_eq_getElem hiy, hk])
    rw [List.getElem?_eq_getElem hi, Option.some.injEq] at hv1
    rw [hv1]
    exact hR _ (List.getElem_mem hip) k (by omega) v hv2)
  exact ⟨xs, rfl, by simpa [finVec] using h.1⟩

/-- The standard losses of finite predictions are numbers. -/
theorem stdLoss_finite {y : LabelVec} {p : Mat ℝ} (hc : ClassInput y p) (hd : ∀ r ∈ p.rows, IsDist r)
    (hf : ∀ r ∈ p.rows, ∀ v ∈ r, v.isFinite = true) {m : Str × Metric} (hm : m ∈ stdClassLoss) :
    ∃ xs, m.2 y p = .ok (finVec xs) ∧ xs.length = p.rows.length := by
  have hprop : ∀ r ∈ p.rows, Proper r := by
    intro r hr
    refine ⟨(hd r hr).1, ?_⟩
    have hl : r ≠ [] := by
      intro e
      have := hc.rows r hr
      rw [e] at this
      have := hc.labels
      simp at *; omega
    obtain ⟨v, hv⟩ := List.exists_mem_of_ne_nil r hl
    have := hf r hr v hv
    cases v with
    | fin x => exact ⟨x, hv⟩
    | _ => simp [Flt.isFinite] at this
  simp only [stdClassLoss, List.mem_cons, List.not_mem_nil, or_false] at hm
  rcases hm with rfl | rfl | rfl | rfl
  · obtain ⟨L, hL, hs⟩ := C75_value hc fun r hr => (hd r hr).1
    obtain ⟨xs, rfl, hx⟩ := perSample_finite hc hs (by
      rintro r hr k hk v rfl
      have hk' : k < r.length := by rw [hc.rows r hr]; exact hk
      have hv := hf r hr _ (List.getElem_mem hk')
      have : pr (probs r) k = prob r[k] := by simp [pr, probs, hk']
      rw [this]
      revert hv
      cases r[k] with
      | fin x => intro _; simp [prob, nll, (Real.exp_pos x).ne', Flt.isFinite]
      | _ => simp [Flt.isFinite])
    exact ⟨xs, hL, hx⟩
  · obtain ⟨L, hL, hs⟩ := C76_value hc (fun r hr => (hd r hr).1) true
    obtain ⟨xs, rfl, hx⟩ := perSample_finite hc hs (by rintro r hr k hk v rfl; rfl)
    exact ⟨xs, hL, hx⟩
  · obtain ⟨L, hL, hs⟩ := (C77_value hc hprop).2
    obtain ⟨xs, rfl, hx⟩ := perSample_finite hc hs (by rintro r hr k hk v rfl; rfl)
    exact ⟨xs, hL, hx⟩
  · obtain ⟨L, hL, hs⟩ := C74_zero_one hc fun r hr => (hd r hr).1
    obtain ⟨xs, rfl, hx⟩ := perSample_finite hc hs (by rintro r hr k hk v (⟨-, rfl⟩ | ⟨-, rfl⟩) <;> rfl)
    exact ⟨xs, hL, hx⟩

/-- A table of finite predictions of two labels. -/
structure FiniteBinary (t : PredTable ℝ) : Prop where
  rows : 1 ≤ t.nrows
  labels : t.labels.length = 2
  methods : t.methods ≠ []
  order : ∀ method ∈ t.methods, InOrder t method
  lengths : ∀ c ∈ t.cols, c.2.length = t.nrows
  finite : ∀ c ∈ t.cols, ∀ v ∈ c.2, v.isFinite = true

theorem hasCol_mem {κ K : Type} {cols : List (κ × List (Flt K))} {key : κ} {v : List (Flt K)} (h : HasCol cols key v) :
    (key, v) ∈ cols := by
  obtain ⟨a, b, rfl, -⟩ := h
  simp

theorem isFinite_ne_nan {K : Type} {v : Flt K} (h : v.isFinite = true) : v ≠ .nan := by
  rintro rfl
  simp [Flt.isFinite] at h

theorem FiniteBinary.getD {t : PredTable ℝ} (h : FiniteBinary t) {key : Str × Int} {col : List (Flt ℝ)}
    (hc : HasCol t.cols key col) {i : Nat} (hi : i < t.nrows) : (col.getD i .nan).isFinite = true := by
  have hl := h.lengths _ (hasCol_mem hc)
  simp only at hl
  have hi' : i < col.length := by omega
  have : col.getD i .nan = col[i] := by simp [hi']
  rw [this]
  exact h.finite _ (hasCol_mem hc) _ (List.getElem_mem hi')

theorem FiniteBinary.good {t : PredTable ℝ} (h : FiniteBinary t) : GoodTable t ∧ GoodBinary t :=
  ⟨⟨h.rows, by rw [h.labels]; norm_num, h.methods, h.order, h.lengths,
      fun c hc hn => isFinite_ne_nan (h.finite c hc _ hn) rfl⟩,
    ⟨h.rows, h.labels, h.order, fun _ _ _ _ hc _ hi => isFinite_ne_nan (h.getD hc hi), fun _ _ _ hc _ hi => h.getD hc hi⟩⟩

theorem isMatrix_finite {t : PredTable ℝ} (h : FiniteBinary t) {method : Str} {p : Mat ℝ} (hp : IsMatrix t method p) :
    ∀ r ∈ p.rows, ∀ v ∈ r, v.isFinite = true := by
  intro r hr v hv
  obtain ⟨p1, p2, p3, p4⟩ := hp
  obtain ⟨i, hi, rfl⟩ := List.getElem_of_mem hr
  obtain ⟨k, hk, rfl⟩ := List.getElem_of_mem hv
  have hk' : k < t.labels.length := by rw [← p1, ← p3 _ hr]; exact hk
  obtain ⟨col, hc, hcol⟩ := p4 k hk'
  have := hcol i _ (List.getElem?_eq_getElem hi)
  rw [List.getElem?_eq_getElem hk, Option.some.injEq] at this
  rw [this]
  exact h.getD hc (by omega)

/-- The standard losses are good for finite predictions. -/
theorem goodLosses_std {t : PredTable ℝ} (ht : FiniteBinary t) {y : LabelVec} (hy : y.vals.length = t.nrows)
    (hkind : y.kind = 'b' ∨ y.kind = 'i') (hr : ∀ v ∈ y.vals, v = 0 ∨ v = 1) : GoodLosses t y stdClassLoss [] := by
  intro m hm
  refine ⟨.ninf, .pinf, .default (by simp), by simp [ValidLimits, Flt.ninf_le], fun method hmeth p q hp hq hrow => ?_⟩
  have hfin := isMatrix_finite ht hp
  have hrows : q.rows.length = p.rows.length := hq.2.length_eq.symm
  have hnc : q.ncols = 2 := by rw [hq.1, hp.1, ht.labels]
  have key : ∀ r ∈ q.rows, IsDist r ∧ ∀ v ∈ r, v.isFinite = true := by
    intro r hr
    obtain ⟨i, hi, rfl⟩ := List.getElem_of_mem hr
    have hip : i < p.rows.length := by omega
    have := (List.forall₂_iff_get.1 hq.2).2 i hip hi
    simp only [List.get_eq_getElem] at this
    have hpr : Proper p.rows[i] := by
      refine ⟨fun v hv => ?_, ?_⟩
      · have := hfin _ (List.getElem_mem hip) v hv
        cases v <;> simp_all [Flt.isFinite]
      · have hl : p.rows[i].length = 2 := by rw [hp.2.2.1 _ (List.getElem_mem hip), hp.1, ht.labels]
        have h0 : 0 < p.rows[i].length := by omega
        have := hfin _ (List.getElem_mem hip) _ (List.getElem_mem h0)
        have hm := List.getElem_mem h0
        revert this hm
        cases p.rows[i][0] with
        | fin x => exact fun _ h => ⟨x, h⟩
        | _ => simp [Flt.isFinite]
    obtain ⟨d, c, e⟩ := this hpr
    refine ⟨d, fun v hv => ?_⟩
    rw [e] at hv
    obtain ⟨w, hw, rfl⟩ := List.mem_map.1 hv
    have := hfin _ (List.getElem_mem hip) w hw
    cases w <;> simp_all [Flt.isFinite, Flt.sub, Flt.add, Flt.neg]
  have hc : ClassInput y q := by
    refine ⟨hkind, by rw [hnc]; norm_num, ?_, by rw [hy, hrows, hp.2.1], hrow, ?_⟩
    · intro e
      rw [e, hp.2.1] at hrows
      have := ht.rows
      simp at hrows; omega
    · intro v hv
      rw [hnc]
      rcases hr v hv with rfl | rfl <;> norm_num
  obtain ⟨xs, e, hx⟩ := stdLoss_finite hc (fun r hr => (key r hr).1) (fun r hr => (key r hr).2) hm
  exact ⟨xs, e, by rw [hx, hrows, hp.2.1], fun x _ => ⟨Flt.ninf_le _, Flt.fin_le_pinf _⟩⟩

theorem stdCurves_unit : ∀ c ∈ stdBinaryCurves, ∃ lo, (lo = .ninf ∨ lo = .fin 0) ∧ UnitCurves lo c.2 ∧
    (false = true → lo = .fin 0) := by
  intro c hc
  simp only [stdBinaryCurves, List.mem_cons, List.not_mem_nil, or_false] at hc
  rcases hc with rfl | rfl | rfl
  · exact ⟨_, Or.inr rfl, unitCurves_std.1, by simp⟩
  · exact ⟨_, Or.inr rfl, unitCurves_std.2.1, by simp⟩
  · exact ⟨_, Or.inl rfl, unitCurves_std.2.2, by simp⟩

/-- **C84, success with the standard metrics.**  With the standard losses and the standard curves, the default grid and no
pairwise error bars, `summary_table` succeeds on every table of finite predictions of two labels. -/
theorem C84_success_std {T : Nat → RefDist} (other : Interp ℝ) {t : PredTable ℝ} (ht : FiniteBinary t)
    (hM : t.methods.Nodup) {y : LabelVec} (hy : y.vals.length = t.nrows) (hkind : y.kind = 'b' ∨ y.kind = 'i')
    (hr : ∀ v ∈ y.vals, v = 0 ∨ v = 1) {refMethod : Str} (href : refMethod ∈ t.methods)
    {n : Nat} (hn : 1 ≤ n) {cd : BootDraws}
    (hd : ∀ m c, (cd m c).length = n ∧ ∀ row ∈ cd m c, row.length = t.nrows)
    {conf : ℝ} (h0 : 0 < conf) (h1 : conf < 1) {methodEB : EBMethod} (hm : methodEB ≠ .other)
    {ld : Str → Str → Draws} (hT : 2 ≤ t.nrows → IsSymmetric (T (t.nrows - 1)))
    (hld : methodEB = .boot → ∀ metric method, ValidDraws t.nrows 1000 (ld metric method).eb ∧
      ValidDraws t.nrows 1000 (ld metric method).test) :
    ∃ out, summaryTable T other t y stdClassLoss stdBinaryCurves refMethod none n false (.fin conf) methodEB [] cd ld =
      .ok out :=
  C84_success other ht.good.1 ht.good.2 hM hy hkind hr (by decide) (by simp [stdClassLoss])
    (goodLosses_std ht hy hkind hr) (by simp [stdBinaryCurves]) stdCurves_unit href (by simp) hn hd h0 h1 hm hT hld

/-- **C84, rejection.**  The wrong number of labels, an unknown reference method, an empty table, no labels, no curves: an
AssertionError. -/
theorem C84_reject (T : Nat → RefDist) (other : Interp ℝ) {t : PredTable ℝ} {y : LabelVec}
    (losses : List (Str × Metric)) {curves : List (Str × CurveF ℝ)} {refMethod : Str} (xGrid : Option (List (Flt ℝ)))
    (nBoot : Int) (pairwise : Bool) (conf : Flt ℝ) (methodEB : EBMethod) (limits : List (Str × (Flt ℝ × Flt ℝ)))
    (cd : BootDraws) (ld : Str → Str → Draws)
    (h : y.vals.length ≠ t.nrows ∨ refMethod ∉ t.methods ∨ t.nrows = 0 ∨ t.labels = [] ∨ curves = []) :
    summaryTable T other t y losses curves refMethod xGrid nBoot pairwise conf methodEB limits cd ld =
      .error .assertion := by
  unfold summaryTable
  rw [C83_reject other xGrid nBoot pairwise conf cd h]
  rfl

/-! ### Examples -/

/-- Two methods, three samples; the columns of the methods are interleaved. -/
noncomputable def fullExample : PredTable ℝ :=
  ⟨["b".toList, "a".toList], [0, 1], 3,
    [(("b".toList, 0), [.fin 0, .fin 0, .fin 1]), (("a".toList, 0), [.fin 1, .fin (-2), .fin 0]),
      (("b".toList, 1), [.fin 0, .fin 2, .fin 0]), (("a".toList, 1), [.fin 3, .fin 0, .fin (-1)])]⟩

theorem fullExample_good : FiniteBinary fullExample where
  rows := by simp [fullExample]
  labels := by simp [fullExample]
  methods := by simp [fullExample]
  order := by
    intro m hm
    simp only [fullExample, List.mem_cons, List.not_mem_nil, or_false] at hm
    rcases hm with rfl | rfl <;> rfl
  lengths := by simp [fullExample]
  finite := by simp [fullExample, Flt.isFinite]

theorem fullExample_ok (T : Nat → RefDist) (hT : IsSymmetric (T 2)) (other : Interp ℝ) :
    ∃ out, summaryTable T other fullExample ⟨'i', [1, 0, 1]⟩ stdClassLoss stdBinaryCurves "a".toList none (2 : Nat) false
      (.fin (95 / 100)) .t [] (fun _ _ => [[1, 1, 1], [2, 0, 1]]) (fun _ _ => ⟨[], []⟩) = .ok out :=
  C84_success_std other fullExample_good (by simp [fullExample]) rfl (Or.inr rfl) (by simp) (by simp [fullExample])
    (by norm_num) (by simp [fullExample]) (by norm_num) (by norm_num) (by simp) (fun _ => hT) (by simp)

/-- The rows and columns of the table of the example. -/
example (T : Nat → RefDist) (hT : IsSymmetric (T 2)) (other : Interp ℝ) : ∃ full dump,
    summaryTable T other fullExample ⟨'i', [1, 0, 1]⟩ stdClassLoss stdBinaryCurves "a".toList none (2 : Nat) false
      (.fin (95 / 100)) .t [] (fun _ _ => [[1, 1, 1], [2, 0, 1]]) (fun _ _ => ⟨[], []⟩) = .ok (full, dump) ∧
    full.methods.Perm ["a".toList, "b".toList] ∧ full.metrics.length = 7 := by
  obtain ⟨⟨full, dump⟩, h⟩ := fullExample_ok T hT other
  obtain ⟨h1, ln, lc, cc, e1, -, h2, -⟩ := C84_cells (by decide) (by simp [fullExample]) h
  refine ⟨full, dump, h, h1.1.trans (by simp [fullExample]; decide), ?_⟩
  rw [e1, List.length_append, h2.1.length_eq]
  rfl

example (T : Nat → RefDist) (other : Interp ℝ) (losses : List (Str × Metric)) :
    summaryTable T other fullExample ⟨'i', [1, 0, 1]⟩ losses [] "a".toList none 2 false
      (.fin (95 / 100)) .t [] (fun _ _ => [[1, 1, 1], [2, 0, 1]]) (fun _ _ => ⟨[], []⟩) = .error .assertion :=
  C84_reject T other losses none 2 false _ .t [] _ _ (by simp)

end Mlp.Props
