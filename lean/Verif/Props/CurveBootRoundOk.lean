import Verif.Props.CurveBootRound

/-! # Property C115: `curve_boot` succeeds in floating point arithmetic for curves from 0 to 1 -/

set_option linter.unusedSectionVars false

namespace Mlp.Props
open Mlp.PerfR Mlp.Perf Mlp.BootR Mlp.Boot Mlp.Util Mlp.Spec Mlp.Lemmas Mlp.CurveR Mlp.Classif Mlp.Frame Mlp.Round

section
variable {K : Type} [Field K] [LinearOrder K] [IsStrictOrderedRing K] [FloorRing K] {rnd : K → K} {sumR : List K → K}

/-- A computed area: a number or `-inf`; for curves with values in [0, 1] a number from 0 to `(1 + u) ^ (N + 2)`. -/
def AreaRange (u : K) (N : Nat) (lo a : Flt K) : Prop :=
  NumOrNinf a ∧ (lo = .fin 0 → Flt.fin 0 ≤ a ∧ a ≤ .fin ((1 + u) ^ (N + 2)))

/-- A computed value of a curve: at most `1 + 7u`; for curves with values in [0, 1] at least `-7u`. -/
def ValueRange (u : K) (lo v : Flt K) : Prop :=
  v ≤ .fin (1 + 7 * u) ∧ (lo = .fin 0 → Flt.fin (-(7 * u)) ≤ v)

theorem area_unitR (hr : FloatRounding rnd) (hs : AddsAlongTrees rnd sumR) {u : K} (hu : 0 ≤ u) (he : RelError u rnd)
    {lo : Flt K} (hlo : lo = .ninf ∨ lo = .fin 0) {n N : Nat} (hN : n ≤ N) {X : List (List K)} {Y : List (List (Flt K))} {kind : Kind}
    (h : UnitCurve lo n X Y kind) :
    ∃ A, areaR rnd sumR (finMat n X) ⟨n, Y⟩ kind = .ok A ∧ A.length = X.length ∧ ∀ a ∈ A, AreaRange u N lo a := by
  have hpow : (1 + u) ^ (n + 2) ≤ (1 + u) ^ (N + 2) := pow_le_pow_right₀ (by linarith) (by omega)
  have hy : (Y.any fun r => r.any fun v => v.isNaN) = false := by
    rw [List.any_eq_false]
    intro r hr
    simp only [List.any_eq_true, not_exists, not_and, Bool.not_eq_true]
    exact fun v hv => ne_nan_of_le ((h.ys r hr).2 v hv).2
  have hbound : ∀ g : List (Flt K) → List (Flt K) → Flt K,
      (∀ x ∈ X, ∀ v ∈ Y, AreaRange u N lo (g (finVec x) v)) →
      ((List.zipWith g (X.map finVec) Y).any fun v => v.isNaN) = false ∧
      (List.zipWith g (X.map finVec) Y).length = X.length ∧
      ∀ a ∈ List.zipWith g (X.map finVec) Y, AreaRange u N lo a := by
    intro g hg
    have h3 : ∀ a ∈ List.zipWith g (X.map finVec) Y, AreaRange u N lo a := by
      intro a ha
      obtain ⟨x, hx, v, hv, rfl⟩ := mem_zipWith ha
      obtain ⟨x', hx', rfl⟩ := List.mem_map.1 hx
      exact hg x' hx' v hv
    refine ⟨?_, by simp [h.rows], h3⟩
    rw [List.any_eq_false]
    intro r hr
    rw [Bool.not_eq_true, Flt.isNaN_false]
    exact (h3 r hr).1.ne_nan
  unfold areaR
  simp only [finMat_noNaN]
  simp only [finMat, List.length_map, h.rows, h.two, hy, decide_true, Bool.not_false, Bool.and_true, pyAssert_bind,
    if_true]
  rcases h.kind with rfl | ⟨rfl, hl0⟩
  · obtain ⟨b1, b2, b3⟩ := hbound (areaPrevR rnd sumR) fun x hx v hv => by
      have k1 := h.xs x hx
      have k2 := h.ys v hv
      refine ⟨areaPrevR_unit hr k1.2.1 fun w hw => numOrNinf_of (k2.2 w hw).2, ?_⟩
      rintro rfl
      obtain ⟨ys, rfl, hys⟩ := exists_finVec_of_bounds k2.2
      have hl : ys.length = n := by simpa [finVec] using k2.1
      rw [areaPrevR_fin (by omega), Flt.fin_le_fin, Flt.fin_le_fin]
      have := row_areaR (sumR := sumR) hr hs hu he (Or.inl rfl) h.two k1 hl hys
      exact ⟨this.1, this.2.1.trans hpow⟩
    refine ⟨_, ?_, b2, b3⟩
    simp only [pure_eq_ok, ok_bind, b1, Bool.not_false, if_true]
  · obtain ⟨b1, b2, b3⟩ := hbound (trapzR rnd sumR) fun x hx v hv => by
      have k1 := h.xs x hx
      have k2 := h.ys v hv
      subst hl0
      obtain ⟨ys, rfl, hys⟩ := exists_finVec_of_bounds k2.2
      have hl : ys.length = n := by simpa [finVec] using k2.1
      rw [trapzR_fin (by omega)]
      refine ⟨Or.inr ⟨_, rfl⟩, fun _ => ?_⟩
      rw [Flt.fin_le_fin, Flt.fin_le_fin]
      have := row_areaR (sumR := sumR) hr hs hu he (Or.inr rfl) h.two k1 hl hys
      exact ⟨this.1, this.2.1.trans hpow⟩
    refine ⟨_, ?_, b2, b3⟩
    simp only [pure_eq_ok, ok_bind, b1, Bool.not_false, if_true]

theorem row_interpR (hr : FloatRounding rnd) {u : K} (hu : 0 ≤ u) (hu1 : u ≤ 1 / 100) (he : RelError u rnd) (other : Interp K)
    {lo : Flt K} (hlo : lo = .ninf ∨ lo = .fin 0) {n : Nat} {kind : Kind} {x : List K} {v : List (Flt K)}
    (hk : kind = .previous ∨ kind = .linear ∧ lo = .fin 0) (h2 : 2 ≤ n)
    (hx : x.length = n ∧ x.Pairwise (· ≤ ·) ∧ x.head? = some 0 ∧ x.getLast? = some 1)
    (hv : v.length = n ∧ ∀ w ∈ v, lo ≤ w ∧ w ≤ .fin 1) {grid : List K} (hg : ∀ g ∈ grid, 0 ≤ g ∧ g ≤ 1) :
    ∃ out, interp1dR rnd other (finVec grid) (finVec x) v kind = .ok out ∧ out.length = grid.length ∧
      ∀ w ∈ out, ValueRange u lo w := by
  obtain ⟨out, e1, e2, e3⟩ := row_interp other hk h2 hx hv hg
  rcases hk with rfl | ⟨rfl, rfl⟩
  · refine ⟨out, by rw [C114_previous hr other _ _ _ (by simp)]; exact e1, e2, fun w hw => ?_⟩
    obtain ⟨b1, b2⟩ := e3 w hw
    refine ⟨b2.trans (Flt.fin_le_fin.2 (by linarith)), ?_⟩
    rintro rfl
    exact (Flt.fin_le_fin.2 (by linarith)).trans b1
  · obtain ⟨ys, rfl, hys⟩ := exists_finVec_of_bounds hv.2
    have h0 : (0 : K) ∈ x := List.mem_of_head? hx.2.2.1
    have h1 : (1 : K) ∈ x := List.mem_of_getLast? hx.2.2.2
    obtain ⟨o, o', k1, k2, k3, k4, k5⟩ := C114_linear hr hu hu1 he other hx.2.1 (ys := ys)
      (by have := hv.1; simp [finVec] at this; omega) (by omega) (lo := 0) (hi := 1) hys (grid := grid)
      fun g hg' => ⟨⟨0, h0, (hg g hg').1⟩, ⟨1, h1, (hg g hg').2⟩⟩
    rw [k1] at e1
    cases e1
    refine ⟨finVec o', k2, by simpa [finVec] using k3, fun w hw => ?_⟩
    obtain ⟨z, hz, rfl⟩ := List.mem_map.1 hw
    obtain ⟨i, hi, rfl⟩ := List.getElem_of_mem hz
    have := (k5 i grid[i] o[i] o'[i] (by simp) (by simp) (by simp)).1
    obtain ⟨b1, b2⟩ := e3 (.fin o[i]) (List.mem_map_of_mem (List.getElem_mem _))
    rw [Flt.fin_le_fin] at b1 b2
    rw [abs_zero, abs_one, max_eq_right zero_le_one, abs_le] at this
    exact ⟨Flt.fin_le_fin.2 (by linarith), fun _ => Flt.fin_le_fin.2 (by linarith)⟩

theorem interp_unitR (hr : FloatRounding rnd) {u : K} (hu : 0 ≤ u) (hu1 : u ≤ 1 / 100) (he : RelError u rnd) (other : Interp K)
    {lo : Flt K} (hlo : lo = .ninf ∨ lo = .fin 0) {n : Nat} {X : List (List K)} {Y : List (List (Flt K))} {kind : Kind}
    (h : UnitCurve lo n X Y kind) {grid : List K} (hg : ∀ g ∈ grid, 0 ≤ g ∧ g ≤ 1) :
    ∃ G, interpRowsR rnd other (finVec grid) ⟨finMat n X, ⟨n, Y⟩, kind⟩ = .ok G ∧ G.length = X.length ∧
      ∀ r ∈ G, r.length = grid.length ∧ ∀ v ∈ r, ValueRange u lo v := by
  have hrow : ∀ xy ∈ List.zip (X.map finVec) Y, ∃ out, interp1dR rnd other (finVec grid) xy.1 xy.2 kind = .ok out ∧
      out.length = grid.length ∧ ∀ v ∈ out, ValueRange u lo v := by
    rintro ⟨a, v⟩ hm
    obtain ⟨m1, m2⟩ := List.of_mem_zip hm
    obtain ⟨x, hx, rfl⟩ := List.mem_map.1 m1
    exact row_interpR hr hu hu1 he other hlo h.kind h.two (h.xs x hx) (h.ys v m2) hg
  choose! F hF using hrow
  refine ⟨(List.zip (X.map finVec) Y).map F, ?_, by simp [h.rows], ?_⟩
  · unfold interpRowsR
    exact mapM_eq_ok_map _ _ _ fun xy hm => (hF xy hm).1
  · intro r hr
    obtain ⟨xy, hm, rfl⟩ := List.mem_map.1 hr
    exact (hF xy hm).2

/-- The computed default grid. -/
theorem default_gridR (hr : FloatRounding rnd) {u : K} (hu1 : u ≤ 1 / 100) (he : RelError u rnd) :
    ∃ g : List K, (defaultGridR rnd : List (Flt K)) = finVec g ∧ g.length = 100 ∧ ∀ v ∈ g, 0 ≤ v ∧ v ≤ 1 := by
  refine ⟨((List.range 99).map fun (i : Nat) => rnd (rnd ((i : K) * rnd (1 / 99)) + 0)) ++ [1], ?_, by simp, ?_⟩
  · unfold defaultGridR finVec
    rw [List.map_append, List.map_map]; rfl
  · intro v hv
    rw [List.mem_append, List.mem_singleton] at hv
    rcases hv with hv | rfl
    · obtain ⟨i, hi, rfl⟩ := List.mem_map.1 hv
      rw [List.mem_range] at hi
      have h1 : (i : K) ≤ 98 := by exact_mod_cast Nat.le_of_lt_succ hi
      have h2 : (0 : K) ≤ rnd (1 / 99) := hr.nonneg (by norm_num)
      have h3 : rnd (1 / 99 : K) ≤ 1 / 98 := by
        have := (abs_le.1 (he (1 / 99))).2
        rw [abs_of_pos (by norm_num : (0 : K) < 1 / 99)] at this
        linarith
      have h4 : (i : K) * rnd (1 / 99) ≤ 1 := by
        calc (i : K) * rnd (1 / 99) ≤ 98 * (1 / 98) := mul_le_mul h1 h3 h2 (by norm_num)
          _ = 1 := by norm_num
      rw [add_zero]
      exact ⟨hr.nonneg (hr.nonneg (by positivity)), hr.le_one (hr.le_one h4)⟩
    · exact ⟨zero_le_one, le_rfl⟩

/-- The areas for given input. -/
theorem unit_areaR (hr : FloatRounding rnd) (hs : AddsAlongTrees rnd sumR) {u : K} (hu : 0 ≤ u) (hu1 : u ≤ 1 / 100) (he : RelError u rnd)
    {lo : Flt K} (hlo : lo = .ninf ∨ lo = .fin 0) {f : CurveF K} {N : Nat}
    {y : List Bool} {s : List K} {W : Option (List (List K))} (hf : UnitCurveAt lo N f y s W) {g : Option (List (Flt K))}
    (hg : ∀ l, g = some l → ∃ grid : List K, l = finVec grid ∧ grid ≠ [] ∧ ∀ v ∈ grid, 0 ≤ v ∧ v ≤ 1) :
    ∃ c thr A, f y (finVec s) (W.map (finMat y.length)) = .ok (c, thr) ∧ checkCurveR rnd (c, thr) g = .ok c ∧
      areaR rnd sumR c.x c.y c.kind = .ok A ∧ A.length = (weightRows y.length W).length ∧ (∀ a ∈ A, AreaRange u N lo a) ∧
      ∀ (other : Interp K) (l : List (Flt K)), g = some l → ∃ G, interpRowsR rnd other l c = .ok G ∧ G.length = A.length ∧
        ∀ r ∈ G, r.length = l.length ∧ ∀ v ∈ r, ValueRange u lo v := by
  obtain ⟨n, X, Y, kind, thr, e, hn, hl, hc⟩ := hf
  obtain ⟨A, a1, a2, a3⟩ := area_unitR hr hs hu he hlo hn hc
  refine ⟨_, thr, A, e, by rw [C114_check hr]; exact checkCurve_unit hc thr hg, a1, a2.trans hl, a3, ?_⟩
  intro other l hl'
  obtain ⟨grid, rfl, -, hb⟩ := hg l hl'
  obtain ⟨G, g1, g2, g3⟩ := interp_unitR hr hu hu1 he other hlo hc hb
  refine ⟨G, g1, g2.trans a2.symm, ?_⟩
  intro r hr'
  rw [(g3 r hr').1]
  exact ⟨by simp [finVec], (g3 r hr').2⟩

/-- A possible reference: a finite number, or predictions for the same samples, for which the curves are from 0 to 1. -/
def GoodRefAt (lo : Flt K) (N : Nat) (f : CurveF K) (y : List Bool) (W : List (List K)) (p : Mat K) : RefArg K → Prop
  | .value r => ∃ x, r = .fin x
  | .preds q => q.rows.length = p.rows.length ∧ ∃ s, BinaryPreds q s ∧ UnitCurveAt lo N f y s none ∧
    UnitCurveAt lo N f y s (some W)

theorem exists_fin_of_range {u : K} {N : Nat} {l : List (Flt K)} (h : ∀ a ∈ l, AreaRange u N (.fin 0) a) : ∃ xs : List K, l = finVec xs ∧
    ∀ x ∈ xs, 0 ≤ x ∧ x ≤ (1 + u) ^ (N + 2) := by
  induction l with
  | nil => exact ⟨[], rfl, by simp⟩
  | cons a l ih =>
    obtain ⟨xs, rfl, h2⟩ := ih fun v hv => h v (by simp [hv])
    obtain ⟨h3, h4⟩ := h a (by simp)
    rcases h3 with rfl | ⟨x, rfl⟩
    · exact absurd (h4 rfl).1 (by simp)
    · refine ⟨x :: xs, rfl, ?_⟩
      intro z hz
      rcases List.mem_cons.1 hz with rfl | hz
      · exact ⟨Flt.fin_le_fin.1 (h4 rfl).1, Flt.fin_le_fin.1 (h4 rfl).2⟩
      · exact h2 z hz

theorem ref_areasR (hr : FloatRounding rnd) (hs : AddsAlongTrees rnd sumR) {u : K} (hu : 0 ≤ u) (hu1 : u ≤ 1 / 100) (he : RelError u rnd)
    {lo : Flt K} (hlo : lo = .ninf ∨ lo = .fin 0) {f : CurveF K} {N : Nat} {y : List Bool} {p : Mat K} {ref : RefArg K}
    {W : List (List K)} (h : GoodRefAt lo N f y W p ref) :
    ∃ r : Ref K × Flt K, refAreasR rnd sumR f y (finMat y.length W) (W.length : Int) ref = .ok r ∧
      (refVec W.length r.1).length = W.length ∧ NoNaN (refVec W.length r.1) ∧
      (lo = .fin 0 → (∃ xs, refVec W.length r.1 = finVec xs) ∧ ∃ x, r.2 = .fin x) := by
  cases ref with
  | value v =>
    obtain ⟨x, rfl⟩ := h
    refine ⟨_, rfl, by simp [refVec], noNaN_replicate (by simp), fun _ => ⟨⟨List.replicate W.length x, ?_⟩, x, rfl⟩⟩
    simp [refVec, finVec]
  | preds q =>
    obtain ⟨hq, s, ⟨h2, hnn, hsc⟩, u0, u1⟩ := h
    obtain ⟨cb, thrb, A, e1, e2, e3, e4, e5, -⟩ := unit_areaR hr hs hu hu1 he hlo u1 (g := none) (by simp)
    obtain ⟨c, thr, B, k1, k2, k3, k4, k5, -⟩ := unit_areaR hr hs hu hu1 he hlo u0 (g := none) (by simp)
    simp only [weightRows, Option.getD_some, Option.getD_none, List.length_singleton] at e4 k4
    obtain ⟨a, rfl⟩ := List.length_eq_one_iff.1 k4
    rw [Option.map_some] at e1
    rw [Option.map_none] at k1
    refine ⟨(.paired A, a), ?_, e4, fun hn => (e5 _ hn).1.ne_nan rfl, ?_⟩
    · unfold refAreasR
      simp only [isPosScore_unique (isPosScore_colAt q) hsc, e1, e2, e3, k1, k2, k3, ok_bind, e4, decide_true, pyAssert_bind,
        if_true, unpackOne, pure_eq_ok]
    · rintro rfl
      obtain ⟨xs, rfl, -⟩ := exists_fin_of_range e5
      refine ⟨⟨xs, rfl⟩, ?_⟩
      obtain ⟨z1, z2⟩ := k5 a (List.mem_singleton.2 rfl)
      rcases z1 with rfl | h
      · exact absurd (z2 rfl).1 (by simp)
      · exact h

/-- **C115, success.**  In floating point arithmetic with relative error `u` (at most 1/100), for labels 0 and 1, predictions without NaN
where the log-probabilities of label 1 are finite, a valid reference, a grid in [0, 1] (or the default) and a
confidence between 0 and 1: if the curve function gives curves from 0 to 1 with at most `N` points, then `curve_boot` returns a result.  The
estimate is not NaN and not `+inf`, and for curves with values in [0, 1] it is between 0 and `(1 + u) ^ (N + 2)`, the error bar
at most `(1 + u) ^ (N + 3)`; the p-value is in [0, 1]; every value of the curve and of its
envelope is within `7u` of [0, 1] (only the upper end for `lo = -inf`). -/
theorem C115_success (hr : FloatRounding rnd) (hs : AddsAlongTrees rnd sumR) {u : K} (hu : 0 ≤ u) (hu1 : u ≤ 1 / 100) (he : RelError u rnd)
    {m : Nat} (hm : HalvesExact rnd m) (h100 : 100 ≤ m) (other : Interp K) {lo : Flt K} (hlo : lo = .ninf ∨ lo = .fin 0) {f : CurveF K}
    {N : Nat} {y : LabelVec} {p : Mat K} (hy : ClassInput y p) {s : List K} (hp : BinaryPreds p s)
    {counts : List (List Nat)} (hc : counts ≠ []) (hcm : counts.length ≤ m) (hcr : ∀ row ∈ counts, row.length = p.rows.length)
    (hf : UnitCurveAt lo N f (boolLabels y) s none)
    (hfb : UnitCurveAt lo N f (boolLabels y) s (some (countRows (rnd (1 / 10000000000)) counts)))
    {ref : RefArg K} (href : GoodRefAt lo N f (boolLabels y) (countRows (rnd (1 / 10000000000)) counts) p ref)
    {xGrid : Option (List (Flt K))}
    (hg : ∀ l, xGrid = some l → ∃ grid : List K, l = finVec grid ∧ grid ≠ [] ∧ ∀ v ∈ grid, 0 ≤ v ∧ v ≤ 1)
    {conf : K} (h0 : 0 < conf) (h1 : conf < 1) {pairwise : Bool} (hpw : pairwise = true → lo = .fin 0) :
    ∃ auc EB pval rows,
      curveBootR rnd sumR other y p ref f xGrid counts.length pairwise (.fin conf) counts = .ok ((auc, EB, pval), rows) ∧
      auc ≠ .nan ∧ auc ≠ .pinf ∧ (lo = .fin 0 → Flt.fin 0 ≤ auc ∧ auc ≤ .fin ((1 + u) ^ (N + 2))) ∧
      (∀ x, auc = .fin x → Flt.fin 0 ≤ EB ∧ EB ≠ .nan) ∧
      (pairwise = false → lo = .fin 0 → EB ≤ .fin ((1 + u) ^ (N + 3))) ∧
      (∃ v : K, pval = .fin v ∧ 0 ≤ v ∧ v ≤ 1) ∧
      rows.length = (xGrid.getD (defaultGridR rnd)).length ∧
      ∀ r ∈ rows, r.2.1 ≤ .fin (1 + 7 * u) ∧ r.2.2.1 ≤ r.2.2.2 ∧ r.2.2.2 ≤ .fin (1 + 7 * u) ∧
        r.2.1 ≠ .nan ∧ r.2.2.1 ≠ .nan ∧ r.2.2.2 ≠ .nan ∧
        (lo = .fin 0 → Flt.fin (-(7 * u)) ≤ r.2.1 ∧ Flt.fin (-(7 * u)) ≤ r.2.2.1) := by
  have hbl : (boolLabels y).length = p.rows.length := by rw [boolLabels, List.length_map, hy.length]
  have hgrid : ∃ grid : List K, xGrid.getD (defaultGridR rnd) = finVec grid ∧ grid ≠ [] ∧ ∀ v ∈ grid, 0 ≤ v ∧ v ≤ 1 := by
    cases xGrid with
    | some l => exact hg l rfl
    | none =>
      obtain ⟨g, e1, e2, e3⟩ := default_gridR hr hu1 he
      exact ⟨g, e1, by rintro rfl; simp at e2, e3⟩
  set G := xGrid.getD (defaultGridR rnd) with hG
  have hgrid' : ∀ l, some G = some l → ∃ grid : List K, l = finVec grid ∧ grid ≠ [] ∧ ∀ v ∈ grid, 0 ≤ v ∧ v ≤ 1 := by
    rintro l e
    rw [← Option.some.inj e]; exact hgrid
  have hn : 1 ≤ counts.length := List.length_pos_iff.2 hc
  have hWl : (countRows (rnd (1 / 10000000000)) counts).length = counts.length := by simp [countRows]
  obtain ⟨cb, thrb, A, e1, e2, e3, e4, e5, e6⟩ := unit_areaR hr hs hu hu1 he hlo hfb hgrid'
  obtain ⟨c, thr, B, k1, k2, k3, k4, k5, k6⟩ := unit_areaR hr hs hu hu1 he hlo hf hgrid'
  simp only [weightRows, Option.getD_some, Option.getD_none, List.length_singleton] at e4 k4
  rw [hWl] at e4
  obtain ⟨auc, rfl⟩ := List.length_eq_one_iff.1 k4
  obtain ⟨Gb, e7, e8, e9⟩ := e6 other G rfl
  obtain ⟨G0, k7, k8, k9⟩ := k6 other G rfl
  obtain ⟨yG, rfl⟩ := List.length_eq_one_iff.1 k8
  obtain ⟨r, r1, r2, r3, r4⟩ := ref_areasR hr hs hu hu1 he hlo href
  rw [hWl] at r1 r2 r3 r4
  rw [Option.map_some, hbl] at e1
  rw [Option.map_none] at k1
  rw [hbl] at r1
  have hAne : A ≠ [] := by
    intro e; rw [e] at e4; simp at e4; omega
  have hAnn : NoNaN A := fun hn => (e5 _ hn).1.ne_nan rfl
  have hauc := k5 auc (by simp)
  -- the weights
  have hw : bootWeights (p.rows.length : Int) counts.length (rnd ((1 : K) / 10000000000)) counts =
      .ok (countRows (rnd (1 / 10000000000)) counts) := by
    unfold bootWeights
    have : 1 ≤ p.rows.length := List.length_pos_iff.2 hy.nonempty
    have h3 : ((counts.map fun row => row.map fun (c : Nat) => max (rnd ((1 : K) / 10000000000)) (c : K)).all
        fun row => decide ((row.length : Int) = p.rows.length)) = true := by
      simp only [List.all_eq_true, List.mem_map, decide_eq_true_eq]
      rintro _ ⟨row, hrow, rfl⟩
      simp [hcr row hrow]
    simp only [h3, List.length_map, decide_true, Bool.and_true, pyAssert_bind, if_true, pure_eq_ok]
    rw [if_pos (decide_eq_true (by omega)), if_pos (decide_eq_true (by omega))]
    rfl
  have w1 : (⟨p.rows.length, (countRows (rnd (1 / 10000000000)) counts).map fun r => r.map fun (v : K) => Flt.fin v⟩ : Mat K) =
      finMat p.rows.length (countRows (rnd (1 / 10000000000)) counts) := rfl
  -- the error bar
  obtain ⟨LB, UB, hper, hbar, hbar0⟩ := C107_error_bar hr hm h100 hAne (by omega) hAnn h0 h1 auc
  obtain ⟨EB, hEB, hEB0, hEB1⟩ : ∃ EB, (if pairwise then errorBarR rnd (minusRefR rnd A r.1) (rF rnd (auc.sub r.2)) (.fin conf)
      else errorBarR rnd A auc (.fin conf) : Py (Flt K)) = .ok EB ∧ (∀ x, auc = .fin x → Flt.fin 0 ≤ EB ∧ EB ≠ .nan) ∧
      (pairwise = false → lo = .fin 0 → EB ≤ .fin ((1 + u) ^ (N + 3))) := by
    cases pairwise with
    | false =>
      refine ⟨_, hbar, hbar0, fun _ hl => ?_⟩
      subst hl
      obtain ⟨l, w, i, j, f1, f2, f3, -⟩ := C107_interval hr hm h100 hAne (by omega) hAnn h0 h1
      rw [hper] at f1
      simp only [Except.ok.injEq, Prod.mk.injEq] at f1
      obtain ⟨rfl, rfl⟩ := f1
      obtain ⟨xs, ex, hx⟩ := exists_fin_of_range (u := u) (N := N) (l := [LB, UB, auc]) (by
        intro v hv
        simp only [List.mem_cons, List.not_mem_nil, or_false] at hv
        rcases hv with rfl | rfl | rfl
        · exact e5 _ f2.1
        · exact e5 _ f3.1
        · exact hauc)
      match xs, ex, hx with
      | [l, w, a], ex, hx =>
        simp only [finVec, List.map_cons, List.map_nil, List.cons.injEq, and_true] at ex
        obtain ⟨rfl, rfl, rfl⟩ := ex
        have q1 := hx l (by simp)
        have q2 := hx w (by simp)
        have q3 := hx a (by simp)
        have hq : ∀ z : K, z ≤ (1 + u) ^ (N + 2) → rnd z ≤ (1 + u) ^ (N + 3) := by
          intro z hz
          have hp0 : (0 : K) ≤ (1 + u) ^ (N + 2) := by positivity
          refine (hr.mono hz).trans ?_
          have := (abs_le.1 (he ((1 + u) ^ (N + 2)))).2
          rw [abs_of_nonneg hp0] at this
          calc rnd ((1 + u) ^ (N + 2)) ≤ (1 + u) ^ (N + 2) + u * (1 + u) ^ (N + 2) := by linarith
            _ = (1 + u) ^ (N + 3) := by ring
        simp only [Flt.sub_fin, rF, Flt.fmax_fin, Flt.fin_le_fin]
        exact max_le (hq _ (by linarith)) (hq _ (by linarith))
    | true =>
      obtain rfl := hpw rfl
      obtain ⟨⟨rs, hrs⟩, x, hx⟩ := r4 rfl
      obtain ⟨xs, rfl, -⟩ := exists_fin_of_range e5
      obtain ⟨as, ea, -⟩ := exists_fin_of_range (l := [auc]) k5
      match as, ea with
      | [a], ea =>
        simp only [finVec, List.map_cons, List.map_nil, List.cons.injEq, and_true] at ea
        subst ea
        have hd : minusRefR rnd (finVec xs) r.1 = finVec (List.zipWith (fun a b => rnd (a - b)) xs rs) := by
          rw [minusRefR_eq, e4, hrs]
          unfold finVec
          rw [List.zipWith_map, List.map_zipWith]
          simp only [Flt.sub_fin, rF]
        have hlen : (List.zipWith (fun a b => rnd (a - b)) xs rs).length = counts.length := by
          rw [hrs, finVec, List.length_map] at r2
          rw [finVec, List.length_map] at e4
          rw [List.length_zipWith, e4, r2, min_self]
        have hlen' : (finVec (List.zipWith (fun a b => rnd (a - b)) xs rs)).length = counts.length := by
          rw [finVec, List.length_map, hlen]
        obtain ⟨l, w, -, g1, g2⟩ := C107_error_bar hr hm h100 (boot := finVec (List.zipWith (fun a b => rnd (a - b)) xs rs))
          (by intro e; rw [e] at hlen'; simp at hlen'; omega) (by omega)
          (fun hn => by obtain ⟨_, -, e⟩ := List.mem_map.1 hn; cases e) h0 h1 (.fin (rnd (a - x)))
        refine ⟨_, ?_, fun z _ => g2 _ rfl, by simp⟩
        rw [if_pos rfl, hd, hx, Flt.sub_fin]
        exact g1
  -- the p-value
  obtain ⟨pv, hpv, hpv0, hpv1⟩ : ∃ pv : K, significanceR rnd A r.1 = .ok (.fin pv) ∧ 0 ≤ pv ∧ pv ≤ 1 := by
    obtain ⟨v, hv, g1, g2, -⟩ := C107_paired hr.toMonoRounding hAne (r := refVec counts.length r.1) (by rw [r2, e4]) hAnn r3
    refine ⟨v, ?_, g1, g2⟩
    rw [significanceR_vec hAne, e4]
    exact hv
  -- the envelope
  have henv : ∀ j ∈ List.range G.length, ∃ b : Flt K × Flt K, percentileR rnd (Gb.map fun r => r.getD j .nan) (.fin conf) = .ok b ∧
      ValueRange u lo b.1 ∧ b.1 ≤ b.2 ∧ ValueRange u lo b.2 := by
    intro j hj
    rw [List.mem_range] at hj
    have hb : ∀ v ∈ Gb.map fun r => r.getD j .nan, ValueRange u lo v := by
      intro v hv
      obtain ⟨row, hrow, rfl⟩ := List.mem_map.1 hv
      obtain ⟨b1, b2⟩ := e9 row hrow
      refine b2 _ ?_
      rw [List.getD_eq_getElem?_getD, List.getElem?_eq_getElem (by omega)]
      exact List.getElem_mem _
    obtain ⟨l, w, i, k, f1, f2, f3, -, -, -, f4⟩ := C107_interval hr hm h100 (boot := Gb.map fun r => r.getD j .nan)
      (by intro e; rw [List.map_eq_nil_iff] at e; rw [e] at e8; simp at e8; omega)
      (by rw [List.length_map]; omega)
      (noNaN_of_le fun a ha => (hb a ha).1) h0 h1
    exact ⟨(l, w), f1, hb l f2.1, f4, hb w f3.1⟩
  have : Nonempty (Flt K × Flt K) := ⟨(.nan, .nan)⟩
  choose! E hE using henv
  have henv' : envelopeR rnd Gb G.length (.fin conf) = .ok ((List.range G.length).map E) := by
    unfold envelopeR
    exact mapM_eq_ok_map _ _ _ fun j hj => (hE j hj).1
  have hyG := k9 yG (by simp)
  refine ⟨auc, EB, .fin pv, List.zip G (List.zip yG ((List.range G.length).map E)), ?_, hauc.1.ne_nan, ?_, hauc.2, hEB0, hEB1,
    ⟨pv, rfl, hpv0, hpv1⟩, ?_, ?_⟩
  · unfold curveBootR
    have hrc : ref.check p = .ok () := by
      cases ref with
      | value v =>
        obtain ⟨x, rfl⟩ := href
        rfl
      | preds q =>
        obtain ⟨hq, s', hq2, -⟩ := href
        unfold RefArg.check
        simp only [hq, hq2.two, hp.two, anyNaN_false hq2.noNaN, decide_true, Bool.and_self, pyAssert_bind, if_true,
          Bool.not_false]
        rfl
    rw [validate_ok hy, boolLabels_eq, isPosScore_unique (isPosScore_colAt p) hp.score]
    simp only [ok_bind, hp.two, decide_true, pyAssert_bind, if_true, hrc, ← hG, anyNaN_false hp.noNaN, Bool.not_false,
      k1, k2, k3, k7, unpackOne, hyG.1, hw, w1, e1, e2, e3, e4, e7, e8, r1, hEB, hpv, henv', pure_eq_ok]
    rw [if_pos (decide_eq_true (by omega)), if_pos]
    simp only [Bool.and_eq_true, List.all_eq_true, decide_eq_true_eq, true_and]
    exact fun r hr => (e9 r hr).1
  · rcases hauc.1 with h | ⟨x, h⟩ <;> rw [h] <;> simp
  · simp [hyG.1]
  · rintro ⟨x, v, l, w⟩ hmem
    obtain ⟨-, m2⟩ := List.of_mem_zip hmem
    obtain ⟨m3, m4⟩ := List.of_mem_zip m2
    obtain ⟨j, hj, hju⟩ := List.mem_map.1 m4
    have hb := (hE j hj).2
    rw [hju] at hb
    have hv := hyG.2 v m3
    have nn : ∀ {z : Flt K}, ValueRange u lo z → z ≠ .nan := fun hz e => by rw [e] at hz; exact absurd hz.1 (by simp)
    exact ⟨hv.1, hb.2.1, hb.2.2.1, nn hv, nn hb.1, nn hb.2.2, fun hl => ⟨hv.2 hl, hb.1.2 hl⟩⟩

end
end Mlp.Props
