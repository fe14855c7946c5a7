import Verif.Props.CurveBoot

/-! # Property C112: which curves `check_curve` and `curve_boot` accept -/

namespace Mlp.Props
open Mlp.Util Mlp.Spec Mlp.Classif Mlp.Lemmas Mlp.Boot Mlp.Perf

section
variable {K : Type} [Field K] [LinearOrder K] [IsStrictOrderedRing K] [FloorRing K]

theorem lt_pinf_iff (v : Flt K) : v.lt .pinf = true ↔ v ≠ .nan ∧ v ≠ .pinf := by
  cases v <;> first | (simp [Flt.lt]; done) | exact iff_of_true (by rfl) ⟨nofun, nofun⟩

/-- The conditions of `check_curve` before the grid. -/
theorem drawable_iff (c : Curve K) :
    ((decide (c.x.rows.length = c.y.rows.length) && decide (c.x.ncols = c.y.ncols)) = true ∧ decide (2 ≤ c.x.ncols) = true ∧
      (c.x.rows.all fun r => r.all fun v => v.isFinite) = true ∧ (c.y.rows.all fun r => r.all fun v => v.lt .pinf) = true ∧
      (c.x.rows.all fun r => (diff r).all fun d => (Flt.fin 0).le d) = true) ↔ Drawable c := by
  simp only [Bool.and_eq_true, decide_eq_true_eq, List.all_eq_true (l := c.x.rows), List.all_eq_true (l := c.y.rows)]
  constructor
  · rintro ⟨⟨h1, h2⟩, h3, h4, h5, h6⟩
    refine ⟨h1, h2, h3, fun r hr => ?_, fun r hr v hv => (lt_pinf_iff v).1 (List.all_eq_true.1 (h5 r hr) v hv)⟩
    obtain ⟨v, rfl⟩ := (Flt.all_finite_iff r).1 (h4 r hr)
    exact ⟨v, rfl, sortable_finVec_iff.1 (sortable_iff.2 ⟨by simp [NoNaN, finVec], h6 _ hr⟩)⟩
  · intro h
    refine ⟨⟨h.rows, h.cols⟩, h.two, fun r hr => ?_, fun r hr => ?_, fun r hr => ?_⟩
    · obtain ⟨v, rfl, -⟩ := h.xs r hr
      exact (Flt.all_finite_iff _).2 ⟨v, rfl⟩
    · exact List.all_eq_true.2 fun v hv => (lt_pinf_iff v).2 (h.ys r hr v hv)
    · obtain ⟨v, rfl, hv⟩ := h.xs r hr
      exact (sortable_iff.1 (sortable_finVec hv)).2

theorem checkCurve_drawable {c : Curve K} (h : Drawable c) (thr : List (Flt K)) (g : Option (List (Flt K))) :
    checkCurve (c, thr) g = (do checkGrid c g; return c) := by
  obtain ⟨h1, h2, h3, h4, h5⟩ := (drawable_iff c).2 h
  unfold checkCurve
  rw [pyAssert_bind, if_pos h1, pyAssert_bind, if_pos h2, pyAssert_bind, if_pos h3, pyAssert_bind, if_pos h4, pyAssert_bind,
    if_pos h5]

/-- **C112, rejected curves.**  A set of curves that cannot be drawn is an AssertionError, whatever the grid. -/
theorem C112_reject {c : Curve K} (h : ¬ Drawable c) (thr : List (Flt K)) (g : Option (List (Flt K))) :
    checkCurve (c, thr) g = .error .assertion := by
  unfold checkCurve
  rw [← drawable_iff] at h
  by_cases h1 : (decide (c.x.rows.length = c.y.rows.length) && decide (c.x.ncols = c.y.ncols)) = true
  swap
  · rw [pyAssert_bind, if_neg h1]
  by_cases h2 : decide (2 ≤ c.x.ncols) = true
  swap
  · rw [pyAssert_bind, if_pos h1, pyAssert_bind, if_neg h2]
  by_cases h3 : (c.x.rows.all fun r => r.all fun v => v.isFinite) = true
  swap
  · rw [pyAssert_bind, if_pos h1, pyAssert_bind, if_pos h2, pyAssert_bind, if_neg h3]
  by_cases h4 : (c.y.rows.all fun r => r.all fun v => v.lt .pinf) = true
  swap
  · rw [pyAssert_bind, if_pos h1, pyAssert_bind, if_pos h2, pyAssert_bind, if_pos h3, pyAssert_bind, if_neg h4]
  rw [pyAssert_bind, if_pos h1, pyAssert_bind, if_pos h2, pyAssert_bind, if_pos h3, pyAssert_bind, if_pos h4, pyAssert_bind,
    if_neg fun h5 => h ⟨h1, h2, h3, h4, h5⟩]

/-- **C112, no grid.**  Without a grid the curves that can be drawn are accepted and returned. -/
theorem C112_accept {c : Curve K} (h : Drawable c) (thr : List (Flt K)) : checkCurve (c, thr) none = .ok c := by
  rw [checkCurve_drawable h]; rfl

theorem checkGrid_iff {c : Curve K} (hok : c.x.Ok) (h : Drawable c) {g : List (Flt K)} (hg : g ≠ []) :
    (CoversGrid c g → checkGrid c (some g) = .ok ()) ∧ (¬ CoversGrid c g → checkGrid c (some g) = .error .assertion) := by
  obtain ⟨g0, gs, rfl⟩ := List.exists_cons_of_ne_nil hg
  have key : CoversGrid c (g0 :: gs) ↔ (c.x.rows.all fun r => (r.headD .nan).le g0) = true ∧
      (c.x.rows.all fun r => ((g0 :: gs).getLastD .nan).le (r.getLastD .nan)) = true := by
    simp only [List.all_eq_true]
    have hlast : (g0 :: gs).getLast? = some ((g0 :: gs).getLastD .nan) := by
      rw [List.getLastD_eq_getLast?, List.getLast?_cons]; rfl
    have hrow : ∀ r ∈ c.x.rows, r ≠ [] := by
      rintro r hr rfl
      have h1 := hok _ hr
      have h2 := h.two
      simp only [List.length_nil] at h1
      omega
    constructor
    · rintro ⟨f, l, hf, hl, hall⟩
      simp only [List.head?_cons, Option.some.injEq] at hf
      rw [hlast, Option.some.injEq] at hl
      subst hf hl
      have : ∀ r ∈ c.x.rows, (r.headD .nan).le g0 = true ∧ ((g0 :: gs).getLastD .nan).le (r.getLastD .nan) = true := by
        intro r hr
        obtain ⟨a, l, rfl⟩ := List.exists_cons_of_ne_nil (hrow r hr)
        obtain ⟨e1, e2, e3⟩ := hall _ hr a ((a :: l).getLastD .nan) rfl (by
          rw [List.getLastD_eq_getLast?, List.getLast?_cons]; rfl)
        refine ⟨Flt.le_iff.2 ⟨e2, e1⟩, Flt.le_iff.2 ⟨?_, e3⟩⟩
        obtain ⟨v, hv, -⟩ := h.xs _ hr
        have hm : (a :: l).getLastD .nan ∈ a :: l := by
          rw [List.getLastD_eq_getLast?, List.getLast?_eq_getLast_of_ne_nil (by simp)]
          exact List.getLast_mem _
        rw [hv] at hm ⊢
        obtain ⟨w, -, hw⟩ := List.mem_map.1 hm
        rw [← hw]; simp
      exact ⟨fun r hr => (this r hr).1, fun r hr => (this r hr).2⟩
    · rintro ⟨h1, h2⟩
      refine ⟨g0, _, rfl, hlast, fun r hr a b ha hb => ?_⟩
      have e1 := Flt.le_iff.1 (h1 r hr)
      have e2 := Flt.le_iff.1 (h2 r hr)
      rw [List.headD_eq_head?_getD, ha] at e1
      rw [List.getLastD_eq_getLast? (l := r), hb] at e2
      exact ⟨e1.2, e1.1, e2.2⟩
  rw [key]
  unfold checkGrid
  constructor
  · rintro ⟨h1, h2⟩
    dsimp only
    rw [pyAssert_bind, if_pos h1]
    exact if_pos h2
  · intro hn
    dsimp only
    by_cases h1 : (c.x.rows.all fun r => (r.headD .nan).le g0) = true
    · rw [pyAssert_bind, if_pos h1]
      exact if_neg fun h2 => hn ⟨h1, h2⟩
    · rw [pyAssert_bind, if_neg h1]

/-- **C112, grid.**  With a grid of at least one point, curves that can be drawn are accepted if they cover the grid, and an
AssertionError if they do not.  A grid without points is an IndexError. -/
theorem C112_grid {c : Curve K} (hok : c.x.Ok) (h : Drawable c) (thr : List (Flt K)) (g : List (Flt K)) :
    (g ≠ [] → CoversGrid c g → checkCurve (c, thr) (some g) = .ok c) ∧
    (g ≠ [] → ¬ CoversGrid c g → checkCurve (c, thr) (some g) = .error .assertion) ∧
    (g = [] → checkCurve (c, thr) (some g) = .error .indexError) := by
  rw [checkCurve_drawable h]
  refine ⟨fun hg hc => ?_, fun hg hc => ?_, ?_⟩
  · rw [(checkGrid_iff hok h hg).1 hc, ok_bind]; rfl
  · rw [(checkGrid_iff hok h hg).2 hc, error_bind]
  · rintro rfl; rfl

theorem drawable_of_ok {c c' : Curve K} {thr : List (Flt K)} {g : Option (List (Flt K))} (h : checkCurve (c, thr) g = .ok c') :
    Drawable c ∧ ∀ l, g = some l → c.x.Ok → CoversGrid c l := by
  have hd : Drawable c := by
    by_contra hn
    rw [C112_reject hn] at h
    cases h
  refine ⟨hd, ?_⟩
  rintro l rfl hok
  by_contra hn
  by_cases hl : l = []
  · rw [(C112_grid hok hd thr l).2.2 hl] at h
    cases h
  · rw [(C112_grid hok hd thr l).2.1 hl hn] at h
    cases h

/-- **C112, `curve_boot`.**  Whatever the curve function, `curve_boot` only returns a result if the curve of the data and the
curves of all bootstrap replicates can be drawn and cover the grid, by default 100 points from 0 to 1; with reference predictions,
the curves of the reference can be drawn too. -/
theorem C112_curve_boot {other : Interp K} {y : LabelVec} {p : Mat K} {ref : RefArg K} {f : CurveF K}
    {xGrid : Option (List (Flt K))} {nBoot : Int} {pairwise : Bool} {conf : Flt K} {counts : List (List Nat)}
    {out : (Flt K × Flt K × Flt K) × List (CurveRow K)}
    (h : curveBoot other y p ref f xGrid nBoot pairwise conf counts = .ok out)
    {s : List (Flt K)} (hs : IsPosScore p s)
    (hf : ∀ W, W = none ∨ W = some (bootMat p.rows.length counts) → ∀ c thr, f (boolLabels y) s W = .ok (c, thr) → c.x.Ok) :
    ∃ grid, (xGrid = some grid ∨ xGrid = none ∧ grid = (List.range 100).map fun (i : Nat) => .fin ((i : K) / 99)) ∧
      (∃ c thr, f (boolLabels y) s none = .ok (c, thr) ∧ Drawable c ∧ CoversGrid c grid) ∧
      (∃ c thr, f (boolLabels y) s (some (bootMat p.rows.length counts)) = .ok (c, thr) ∧ Drawable c ∧ CoversGrid c grid) ∧
      (∀ q, ref = .preds q → ∀ s', IsPosScore q s' → (∃ c thr, f (boolLabels y) s' none = .ok (c, thr) ∧ Drawable c) ∧
        ∃ c thr, f (boolLabels y) s' (some (bootMat p.rows.length counts)) = .ok (c, thr) ∧ Drawable c) := by
  obtain rfl := isPosScore_unique hs (isPosScore_colAt p)
  unfold curveBoot at h
  simp only [boolLabels_eq] at h
  rw [bind_ok_iff] at h
  obtain ⟨sh, hv, h⟩ := h
  have hsh : sh.1 = p.rows.length := by
    unfold shapeAndValidate at hv
    simp only [bind_ok_iff, exists_unit, pyAssert_eq_ok, pure_eq_ok, Except.ok.injEq] at hv
    rw [← hv.2.2.2.2]
  rw [hsh] at h
  simp only [bind_ok_iff, exists_unit, pyAssert_eq_ok, decide_eq_true_eq, pure_eq_ok, Except.ok.injEq,
    unpackOne_ok_iff, Bool.and_eq_true, List.all_eq_true] at h
  obtain ⟨-, -, hn, -, ⟨c0, t0⟩, h1, c, h2, a0, h3, auc', h4, g0, h5, yG, h6, h7, w, h8, ⟨cb0, tb0⟩, h9, cb, h10, A, h11, h12,
    Y, h13, ⟨h14, h15⟩, r, h16, EB', h17, pv, h18, bounds, h19, h20⟩ := h
  obtain ⟨n, rfl⟩ := Int.eq_ofNat_of_zero_le (show 0 ≤ nBoot by omega)
  obtain ⟨e1, e2, e3⟩ := bootWeights_mat h8
  rw [e1] at h9 h16
  obtain ⟨d1, d2⟩ := drawable_of_ok h2
  obtain ⟨d3, d4⟩ := drawable_of_ok h10
  refine ⟨xGrid.getD defaultGrid, ?_, ⟨c0, t0, h1, d1, d2 _ rfl (hf _ (Or.inl rfl) _ _ h1)⟩,
    ⟨cb0, tb0, h9, d3, d4 _ rfl (hf _ (Or.inr rfl) _ _ h9)⟩, ?_⟩
  · cases xGrid with
    | none => exact Or.inr ⟨rfl, rfl⟩
    | some g => exact Or.inl rfl
  · rintro q rfl s' hs'
    rw [isPosScore_unique hs' (isPosScore_colAt q)]
    unfold refAreas at h16
    simp only [bind_ok_iff, exists_unit, pyAssert_eq_ok, decide_eq_true_eq, pure_eq_ok, Except.ok.injEq] at h16
    obtain ⟨⟨c1, t1⟩, k1, c1', k2, -, -, -, ⟨c2, t2⟩, k3, c2', k4, -⟩ := h16
    exact ⟨⟨c2, t2, k3, (drawable_of_ok k4).1⟩, ⟨c1, t1, k1, (drawable_of_ok k2).1⟩⟩

end

/-- Two curves of three points. -/
def twoCurves : Curve ℚ :=
  ⟨⟨3, [finVec [0, 1 / 2, 1], finVec [0, 0, 1]]⟩, ⟨3, [finVec [0, 1, 1], [.fin 0, .ninf, .fin 1]]⟩, .linear⟩

theorem twoCurves_drawable : Drawable twoCurves := by
  refine ⟨rfl, rfl, by decide, ?_, ?_⟩
  · intro r hr
    simp only [twoCurves, List.mem_cons, List.not_mem_nil, or_false] at hr
    rcases hr with rfl | rfl
    · exact ⟨_, rfl, by norm_num [List.pairwise_cons]⟩
    · exact ⟨_, rfl, by norm_num [List.pairwise_cons]⟩
  · intro r hr
    simp only [twoCurves, List.mem_cons, List.not_mem_nil, or_false] at hr
    rcases hr with rfl | rfl <;> simp [finVec]

example : checkCurve (twoCurves, finVec [3, 2, 1]) none = .ok twoCurves := C112_accept twoCurves_drawable _

example : checkCurve (twoCurves, finVec [3, 2, 1]) (some (finVec [0, 1 / 3, 1])) = .ok twoCurves := by
  refine (C112_grid ?_ twoCurves_drawable _ _).1 (by simp [finVec]) ⟨.fin 0, .fin 1, rfl, rfl, ?_⟩
  · intro r hr
    simp only [twoCurves, List.mem_cons, List.not_mem_nil, or_false] at hr
    rcases hr with rfl | rfl <;> rfl
  · intro r hr a b ha hb
    simp only [twoCurves, List.mem_cons, List.not_mem_nil, or_false] at hr
    rcases hr with rfl | rfl <;> (cases ha; cases hb; exact ⟨le_rfl, nofun, le_rfl⟩)

example : checkCurve (twoCurves, finVec [3, 2, 1]) (some (finVec [0, 2])) = .error .assertion := by
  refine (C112_grid ?_ twoCurves_drawable _ _).2.1 (by simp [finVec]) ?_
  · intro r hr
    simp only [twoCurves, List.mem_cons, List.not_mem_nil, or_false] at hr
    rcases hr with rfl | rfl <;> rfl
  · rintro ⟨f, l, hf, hl, h⟩
    have h3 := (h _ (List.mem_cons_self ..) _ _ rfl rfl).2.2
    cases hl
    exact absurd h3 (by simp)

theorem unit_ok {lo : Flt ℚ} {f : CurveF ℚ} (hf : UnitCurves lo f) {y : List Bool} {s : List ℚ} {W : Option (List (List ℚ))}
    (h : CurveInput y s W) {c : Curve ℚ} {thr : List (Flt ℚ)} (hc : f y (finVec s) (W.map (finMat y.length)) = .ok (c, thr)) :
    c.x.Ok := by
  obtain ⟨n, X, Y, k, thr', e, -, u⟩ := hf y s W h
  rw [hc] at e
  obtain ⟨rfl, -⟩ := Prod.mk.inj (Except.ok.inj e)
  intro r hr
  obtain ⟨x, hx, rfl⟩ := List.mem_map.1 hr
  simpa [finVec, finMat] using (u.xs x hx).1

/-- The ROC curves of the example of `curve_boot` can be drawn and cover the default grid. -/
example (other : Interp ℚ) : ∃ c thr, rocCurve (boolLabels bootY) (finVec [-2, 0, -1, -1])
    (some (bootMat 4 bootCounts)) = .ok (c, thr) ∧ Drawable c ∧
      CoversGrid c ((List.range 100).map fun (i : Nat) => .fin ((i : ℚ) / 99)) := by
  obtain ⟨a, b, c, d, e, -⟩ := C82_success other (Or.inr rfl) unitCurves_std.1 bootInput bootPreds.1
    (ref := .preds bootQ) ⟨rfl, _, bootPreds.2⟩ (xGrid := none) (by simp) (counts := bootCounts) (by decide) (by decide)
    (conf := 95 / 100) (by norm_num) (by norm_num) (pairwise := true) (by simp)
  obtain ⟨g, hg, -, h2, -⟩ := C112_curve_boot e bootPreds.1.score (by
    rintro W (rfl | rfl) c thr h
    · exact unit_ok unitCurves_std.1 (curveInput_none (by decide) (by decide)) h
    · rw [bootMat_finMat] at h
      exact unit_ok unitCurves_std.1 (W := some _) (curveInput_boot (by decide) (by decide) (counts := bootCounts) (by decide)
        (by decide)) h)
  rcases hg with hg | ⟨-, rfl⟩
  · cases hg
  · exact h2

/-- A curve that rises to infinity is refused. -/
example : checkCurve (⟨⟨2, [finVec [0, 1]]⟩, ⟨2, [[.fin 0, .pinf]]⟩, .linear⟩, finVec [(1 : ℚ)]) none = .error .assertion := by
  refine C112_reject (fun h => ?_) _ _
  exact (h.ys _ (List.mem_cons_self ..) .pinf (by simp)).2 rfl

end Mlp.Props
