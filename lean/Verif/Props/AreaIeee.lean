import Verif.Props.CurvesIeee
import Verif.Model.CurveRound

/-! # Property C127: areas, interpolation and percentiles do not overflow or underflow -/

set_option linter.unusedSectionVars false

namespace Mlp.Props
open Mlp.Util Mlp.Perf Mlp.PerfR Mlp.Spec Mlp.Lemmas Mlp.Round Mlp.CurveR Mlp.Boot Mlp.BootR Mlp.Classif

section
variable {K : Type} [Field K] [LinearOrder K] [IsStrictOrderedRing K] [FloorRing K] {rnd : K → K} (hi : FollowsIeee rnd)
  {order : List K → SumTree K} (ho : IsOrder order) {k e kx ex ky ey : Nat}
include hi

/-! ## Areas -/

omit hi [IsStrictOrderedRing K] [FloorRing K] in
theorem foldl_add_not_fin {acc : Flt K} (h : ∀ x, acc ≠ .fin x) (l : List (Flt K)) : ∀ x, l.foldl Flt.add acc ≠ .fin x := by
  induction l generalizing acc with
  | nil => exact h
  | cons a l ih =>
    refine ih fun x hx => ?_
    cases acc <;> cases a <;> simp [Flt.add] at hx
    exact h _ rfl

omit hi [IsStrictOrderedRing K] [FloorRing K] in
theorem sum_not_fin {acc : Flt K} {l : List (Flt K)} {a : Flt K} (ha : a ∈ l) (h : a.isFinite = false) :
    ∀ x, l.foldl Flt.add acc ≠ .fin x := by
  induction l generalizing acc with
  | nil => simp at ha
  | cons b l ih =>
    rcases List.mem_cons.1 ha with rfl | ha
    · refine foldl_add_not_fin (fun x hx => ?_) l
      cases acc <;> cases a <;> simp [Flt.add] at hx
      simp [Flt.isFinite] at h
    · exact ih ha

include ho in
theorem sumFR_ieee (hk : k ≤ 1074) (he : e + 53 ≤ 1023) {l : List (Flt K)} (h : ∀ v ∈ l, GridFlt k e v) (hl : l.length ≤ 2 ^ 53) :
    sumFR (sumBy order rnd) l = sumFR (sumBy order binary64) l ∧ GridFlt k (e + 53) (sumFR (sumBy order binary64) l) := by
  unfold sumFR
  split_ifs with hf
  · have := sumBy_ieee hi hk he ho (l := numbers l) (fun v hv => h _ (finPart_mem hv) v rfl)
      (le_trans (List.length_filterMap_le _ _) hl)
    exact ⟨congrArg Flt.fin this.1, GridFlt.fin this.2⟩
  · refine ⟨rfl, fun x hx => ?_⟩
    rw [List.all_eq_true] at hf
    push Not at hf
    obtain ⟨a, ha, hb⟩ := hf
    exact (sum_not_fin ha (by simpa using hb) x hx).elim

include ho in
theorem areaPrevR_ieee (hk : kx + ky ≤ 1000) (he : ex + ey ≤ 900) {x y : List (Flt K)} (hx : ∀ v ∈ x, GridFlt kx ex v)
    (hy : ∀ v ∈ y, GridFlt ky ey v) (hl : x.length ≤ 2 ^ 53 + 1) :
    areaPrevR rnd (sumBy order rnd) x y = areaPrevR binary64 (sumBy order binary64) x y ∧
      GridFlt (kx + ky + 53) (ex + ey + 56) (areaPrevR binary64 (sumBy order binary64) x y) := by
  obtain ⟨d1, d2⟩ := diffFR_ieee hi hx (by omega) (by omega)
  have hm : ∀ a ∈ y.dropLast, ∀ d ∈ diffFR binary64 x, rF rnd (Flt.mul a d) = rF binary64 (Flt.mul a d) ∧
      GridFlt (ky + kx) (ey + (ex + 1)) (rF binary64 (Flt.mul a d)) := fun a ha d hd =>
    rF_ieee hi ((hy a (List.mem_of_mem_dropLast ha)).mul (d2 d hd)) (by omega) (by omega)
  unfold areaPrevR
  rw [d1, zipWith_congr_mem fun a ha d hd => (hm a ha d hd).1]
  have := sumFR_ieee hi ho (k := ky + kx) (e := ey + (ex + 1)) (by omega) (by omega)
    (l := (List.zipWith (fun a d => rF binary64 (Flt.mul a d)) y.dropLast (diffFR binary64 x)).map fun v =>
      if v.isNaN then .fin 0 else v) ?_ ?_
  · exact ⟨this.1, this.2.mono (by omega) (by omega)⟩
  · intro v hv
    obtain ⟨w, hw, rfl⟩ := List.mem_map.1 hv
    obtain ⟨a, ha, d, hd, rfl⟩ := mem_zipWith_of hw
    split_ifs
    · exact GridFlt.fin OnGrid.zero
    · exact (hm a ha d hd).2
  · simp only [List.length_map, List.length_zipWith, diffFR, List.length_tail, List.length_dropLast]
    omega

include ho in
theorem trapzR_ieee (hk : kx + ky ≤ 1000) (he : ex + ey ≤ 900) {x y : List (Flt K)} (hx : ∀ v ∈ x, GridFlt kx ex v)
    (hy : ∀ v ∈ y, GridFlt ky ey v) (hl : x.length ≤ 2 ^ 53 + 1) :
    trapzR rnd (sumBy order rnd) x y = trapzR binary64 (sumBy order binary64) x y ∧
      GridFlt (kx + ky + 53) (ex + ey + 56) (trapzR binary64 (sumBy order binary64) x y) := by
  obtain ⟨d1, d2⟩ := diffFR_ieee hi hx (by omega) (by omega)
  have hs : ∀ a ∈ y.tail, ∀ b ∈ y.dropLast, rF rnd (Flt.add a b) = rF binary64 (Flt.add a b) ∧
      GridFlt ky (ey + 1) (rF binary64 (Flt.add a b)) := fun a ha b hb =>
    rF_ieee hi ((hy a (List.mem_of_mem_tail ha)).add (hy b (List.mem_of_mem_dropLast hb))) (by omega) (by omega)
  have h2 : GridFlt 0 1 (Flt.fin (2 : K)) := GridFlt.fin (by
    have := nat_onGrid (K := K) (n := 2) (e := 1) (by norm_num)
    exact_mod_cast this)
  have hm : ∀ d, GridFlt kx (ex + 1) d → ∀ s, GridFlt ky (ey + 1) s →
      rF rnd ((rF rnd (Flt.mul d s)).div (.fin 2)) = rF binary64 ((rF binary64 (Flt.mul d s)).div (.fin 2)) ∧
      GridFlt (kx + ky + 53) (ex + ey + 2) (rF binary64 ((rF binary64 (Flt.mul d s)).div (.fin 2))) := by
    intro d hd s hs
    obtain ⟨m1, m2⟩ := rF_ieee hi (hd.mul hs) (by omega) (by omega)
    obtain ⟨q1, q2⟩ := rF_div_ieee hi m2 h2 (by omega) (by omega)
    rw [m1]
    exact ⟨q1, q2.mono (by omega) (by omega)⟩
  unfold trapzR
  rw [d1, zipWith_congr_mem fun a ha b hb => (hs a ha b hb).1]
  have hsl : ∀ s ∈ List.zipWith (fun a b => rF binary64 (Flt.add a b)) y.tail y.dropLast, GridFlt ky (ey + 1) s := by
    intro s h
    obtain ⟨a, ha, b, hb, rfl⟩ := mem_zipWith_of h
    exact (hs a ha b hb).2
  rw [zipWith_congr_mem fun d hd s h => (hm d (d2 d hd) s (hsl s h)).1]
  have := sumFR_ieee hi ho (k := kx + ky + 53) (e := ex + ey + 2) (by omega) (by omega)
    (l := List.zipWith (fun d s => rF binary64 ((rF binary64 (Flt.mul d s)).div (.fin 2))) (diffFR binary64 x)
      (List.zipWith (fun a b => rF binary64 (Flt.add a b)) y.tail y.dropLast)) ?_ ?_
  · exact ⟨this.1, this.2.mono (by omega) (by omega)⟩
  · intro v hv
    obtain ⟨d, hd, s, h, rfl⟩ := mem_zipWith_of hv
    exact (hm d (d2 d hd) s (hsl s h)).2
  · simp only [List.length_zipWith, diffFR, List.length_tail]
    omega

include ho in
/-- **C127, areas.** -/
theorem area_ieee (hk : kx + ky ≤ 1000) (he : ex + ey ≤ 900) {c : Curve K} (hc : GridCurve kx ex ky ey c) :
    areaR rnd (sumBy order rnd) c.x c.y c.kind = areaR binary64 (sumBy order binary64) c.x c.y c.kind ∧
      ∀ a, areaR binary64 (sumBy order binary64) c.x c.y c.kind = .ok a → ∀ v ∈ a, GridFlt (kx + ky + 53) (ex + ey + 56) v := by
  have hp : ∀ x ∈ c.x.rows, ∀ y ∈ c.y.rows, _ := fun x hx y hy =>
    areaPrevR_ieee hi ho hk he (hc.x x hx).1 (hc.y y hy).1 (hc.x x hx).2
  have ht : ∀ x ∈ c.x.rows, ∀ y ∈ c.y.rows, _ := fun x hx y hy =>
    trapzR_ieee hi ho hk he (hc.x x hx).1 (hc.y y hy).1 (hc.x x hx).2
  have ep := zipWith_congr_mem fun x hx y hy => (hp x hx y hy).1
  have et := zipWith_congr_mem fun x hx y hy => (ht x hx y hy).1
  unfold areaR
  constructor
  · rw [ep, et]
  · intro a ha
    simp only [bind_ok_iff] at ha
    obtain ⟨_, -, _, -, _, -, _, -, auc, hauc, _, -, ha⟩ := ha
    simp only [pure_eq_ok, Except.ok.injEq] at ha
    subst ha
    intro v hv
    cases hkd : c.kind <;> rw [hkd] at hauc <;> simp only [pure_eq_ok, Except.ok.injEq, reduceCtorEq] at hauc
    all_goals
      subst hauc
      obtain ⟨x, hx, y, hy, rfl⟩ := mem_zipWith_of hv
    · first | exact (hp x hx y hy).2 | exact (ht x hx y hy).2
    · first | exact (hp x hx y hy).2 | exact (ht x hx y hy).2

/-! ## Interpolation -/

theorem uniqueTakeLastR_ieee {β : Type} {xp : List (Flt K)} (hx : ∀ v ∈ xp, GridFlt kx ex v) (hk : kx ≤ 1074) (he : ex + 1 ≤ 1023)
    (yp : Option (List β)) : uniqueTakeLastR rnd xp yp = uniqueTakeLastR binary64 xp yp := by
  unfold uniqueTakeLastR
  rw [(diffFR_ieee hi hx hk he).1]

theorem npInterpR_ieee {xp yp : List (Flt K)} {x : Flt K} (hx : ∀ v ∈ xp, GridFlt 438 0 v) (hy : ∀ v ∈ yp, GridFlt 438 0 v)
    (hg : GridFlt 400 10 x) : npInterpR rnd xp yp x = npInterpR binary64 xp yp x ∧
      ∀ v, npInterpR binary64 xp yp x = .ok v → GridFlt 929 451 v := by
  unfold npInterpR
  split_ifs with h1
  · refine ⟨rfl, fun v hv => ?_⟩
    rw [Except.ok.injEq] at hv
    subst hv
    intro z hz
    simp at hz
  simp only
  split_ifs with h2 h3
  · exact ⟨rfl, fun v hv => (hy v (pyIdx_mem hv)).mono (by norm_num) (by norm_num)⟩
  · exact ⟨rfl, fun v hv => (hy v (pyIdx_mem hv)).mono (by norm_num) (by norm_num)⟩
  have key : ∀ x0, GridFlt 438 0 x0 → ∀ x1, GridFlt 438 0 x1 → ∀ y0, GridFlt 438 0 y0 → ∀ y1, GridFlt 438 0 y1 →
      rF rnd ((rF rnd ((rF rnd ((rF rnd (y1.sub y0)).div (rF rnd (x1.sub x0)))).mul (rF rnd (x.sub x0)))).add y0) =
        rF binary64 ((rF binary64 ((rF binary64 ((rF binary64 (y1.sub y0)).div (rF binary64 (x1.sub x0)))).mul
          (rF binary64 (x.sub x0)))).add y0) ∧
      GridFlt 929 451 (rF binary64 ((rF binary64 ((rF binary64 ((rF binary64 (y1.sub y0)).div (rF binary64 (x1.sub x0)))).mul
          (rF binary64 (x.sub x0)))).add y0)) := by
    intro x0 hx0 x1 hx1 y0 hy0 y1 hy1
    obtain ⟨a1, a2⟩ := rF_ieee hi (hy1.sub hy0) (by norm_num) (by norm_num)
    obtain ⟨b1, b2⟩ := rF_ieee hi (hx1.sub hx0) (by norm_num) (by norm_num)
    obtain ⟨c1, c2⟩ := rF_ieee hi ((hg.mono (k' := 438) (e' := 10) (by norm_num) le_rfl).sub
      (hx0.mono (k' := 438) (e' := 10) le_rfl (by norm_num))) (by norm_num) (by norm_num)
    obtain ⟨d1, d2⟩ := rF_div_ieee hi a2 b2 (by norm_num) (by norm_num)
    obtain ⟨e1, e2⟩ := rF_ieee hi (d2.mul c2) (by norm_num) (by norm_num)
    obtain ⟨f1, f2⟩ := rF_ieee hi ((e2.mono (k' := 929) (e' := 450) (by norm_num) (by norm_num)).add
      (hy0.mono (k' := 929) (e' := 450) (by norm_num) (by norm_num))) (by norm_num) (by norm_num)
    rw [a1, b1, c1, d1, e1, f1]
    exact ⟨rfl, f2⟩
  constructor
  · refine bind_congr_eq rfl fun x0 hx0 => bind_congr_eq rfl fun x1 hx1 => bind_congr_eq rfl fun y0 hy0 =>
      bind_congr_eq rfl fun y1 hy1 => ?_
    rw [(key x0 (hx _ (pyIdx_mem hx0)) x1 (hx _ (pyIdx_mem hx1)) y0 (hy _ (pyIdx_mem hy0)) y1 (hy _ (pyIdx_mem hy1))).1]
  · intro v hv
    simp only [bind_ok_iff, pure_eq_ok, Except.ok.injEq] at hv
    obtain ⟨x0, hx0, x1, hx1, y0, hy0, y1, hy1, rfl⟩ := hv
    exact (key x0 (hx _ (pyIdx_mem hx0)) x1 (hx _ (pyIdx_mem hx1)) y0 (hy _ (pyIdx_mem hy0)) y1 (hy _ (pyIdx_mem hy1))).2

/-- What the curves of this package have in common: the step curves are on some grid, the linear ones on a fine grid in the
unit square. -/
structure TameCurve (c : Curve K) : Prop where
  kind : c.kind = .linear ∧ GridCurve 438 0 438 0 c ∨
    c.kind = .previous ∧ ∃ kx ex ky ey, kx + ky ≤ 1000 ∧ ex + ey ≤ 900 ∧ GridCurve kx ex ky ey c

theorem interp1dR_ieee (other : Interp K) {c : Curve K} (hc : TameCurve c) {grid : List (Flt K)}
    (hg : ∀ v ∈ grid, GridFlt 400 10 v) : interpRowsR rnd other grid c = interpRowsR binary64 other grid c := by
  unfold interpRowsR
  refine mapM_congr _ _ _ fun p hp => ?_
  have hpx := (List.of_mem_zip hp).1
  have hpy := (List.of_mem_zip hp).2
  unfold interp1dR
  rcases hc.kind with ⟨hk, h⟩ | ⟨hk, kx, ex, ky, ey, hkk, hee, h⟩
  · rw [hk, (diffFR_ieee hi (h.x _ hpx).1 (by norm_num) (by norm_num)).1]
    refine assert_congr rfl fun _ => assert_congr rfl fun _ => assert_congr rfl fun _ => ?_
    simp only [scipyLinearR]
    rw [mapM_congr _ _ _ fun v hv => (npInterpR_ieee hi (h.x _ hpx).1 (h.y _ hpy).1 (hg v hv)).1]
  · rw [hk, (diffFR_ieee hi (h.x _ hpx).1 (by omega) (by omega)).1]
    refine assert_congr rfl fun _ => assert_congr rfl fun _ => assert_congr rfl fun _ => ?_
    simp only
    refine bind_congr_eq (uniqueTakeLastR_ieee hi (h.x _ hpx).1 (by omega) (by omega) _) fun r hr => ?_
    have hmem : ∀ v ∈ r.1, GridFlt kx ex v := by
      unfold uniqueTakeLastR at hr
      simp only [bind_ok_iff, pure_eq_ok, Except.ok.injEq] at hr
      obtain ⟨_, -, _, -, _, -, _, -, rfl⟩ := hr
      exact fun v hv => (h.x _ hpx).1 v (mask_mem_of hv)
    unfold evalStepFuncR
    refine assert_congr rfl fun _ => ?_
    refine bind_congr_eq rfl fun q hq => ?_
    simp only [if_true, pure_eq_ok, Except.ok.injEq] at hq
    subst hq
    rw [(diffFR_ieee hi hmem (by omega) (by omega)).1]

theorem checkCurveR_ieee {c : Curve K} (hc : TameCurve c) (thr : List (Flt K)) (grid : Option (List (Flt K))) :
    checkCurveR rnd (c, thr) grid = checkCurveR binary64 (c, thr) grid := by
  have hd : ∀ r ∈ c.x.rows, diffFR rnd r = diffFR binary64 r := by
    intro r hr
    rcases hc.kind with ⟨hk, h⟩ | ⟨hk, kx, ex, ky, ey, hkk, hee, h⟩
    · exact (diffFR_ieee hi (h.x _ hr).1 (by norm_num) (by norm_num)).1
    · exact (diffFR_ieee hi (h.x _ hr).1 (by omega) (by omega)).1
  unfold checkCurveR
  refine assert_congr rfl fun _ => assert_congr rfl fun _ => assert_congr rfl fun _ => assert_congr rfl fun _ =>
    assert_congr ?_ fun _ => rfl
  rw [Bool.eq_iff_iff, List.all_eq_true, List.all_eq_true]
  exact forall₂_congr fun r hr => by rw [hd r hr]

theorem defaultGridR_ieee : defaultGridR rnd = defaultGridR (binary64 : K → K) ∧
    ∀ v ∈ defaultGridR (binary64 : K → K), GridFlt 400 10 v := by
  obtain ⟨r1, d1, -⟩ := inv_dyadic (q := (99 : K)) (j := 7) (by norm_num) (by norm_num) (by norm_num)
  have key : ∀ i ∈ List.range 99, rnd (rnd ((i : K) * rnd (1 / 99)) + 0) = binary64 (binary64 ((i : K) * binary64 (1 / 99)) + 0) ∧
      OnGrid 59 7 (binary64 (binary64 ((i : K) * binary64 (1 / 99)) + 0)) := by
    intro i hi'
    have hn := nat_onGrid (K := K) (n := i) (e := 7) (by have := List.mem_range.1 hi'; omega)
    have hm : OnGrid 59 7 ((i : K) * binary64 (1 / 99)) := (hn.mul d1).mono (by norm_num) (by norm_num)
    rw [hi.eq r1, rnd_dyadic hi hm (by norm_num) (by norm_num), add_zero,
      rnd_dyadic hi hm.rnd (by norm_num) (by norm_num)]
    exact ⟨rfl, hm.rnd.rnd⟩
  unfold defaultGridR
  constructor
  · rw [List.map_congr_left fun i hi' => congrArg Flt.fin (key i hi').1]
  · intro v hv
    rcases List.mem_append.1 hv with hv | hv
    · obtain ⟨i, hi', rfl⟩ := List.mem_map.1 hv
      exact GridFlt.fin ((key i hi').2.mono (by norm_num) (by norm_num))
    · rw [List.mem_singleton] at hv
      subst hv
      exact GridFlt.fin OnGrid.one

/-! ## Percentiles and tests -/

theorem percentiles_ieee {v : Flt K} (hv : ∀ c, v = .fin c → IsDouble c) :
    confidenceToPercentilesR rnd v = confidenceToPercentilesR binary64 v ∧
      ∀ p, confidenceToPercentilesR binary64 v = .ok p → OnGrid 54 8 p.1 ∧ OnGrid 54 8 p.2 := by
  cases v with
  | fin c =>
    obtain ⟨hd, hc⟩ := (hv c rfl).facts
    unfold confidenceToPercentilesR
    simp only [assert_bind_ok]
    have main : 0 < c → c < 1 → (rnd (100 * rnd (1 / 2 * rnd (1 - c))), rnd (100 * rnd (1 - rnd (1 / 2 * rnd (1 - c))))) =
        (binary64 (100 * binary64 (1 / 2 * binary64 (1 - c))), binary64 (100 * binary64 (1 - binary64 (1 / 2 * binary64 (1 - c))))) ∧
        OnGrid 54 8 (binary64 (100 * binary64 (1 / 2 * binary64 (1 - c)))) ∧
        OnGrid 54 8 (binary64 (100 * binary64 (1 - binary64 (1 / 2 * binary64 (1 - c))))) := by
      intro h0 h1
      have hb := binary64_floatRounding (K := K)
      have g1 : InRange (1 - c) := by
        have h2 : OnGrid 1074 0 c := hc.bound (by rw [abs_of_pos h0, pow_zero]; exact h1.le)
        exact (OnGrid.one.sub h2).inRange le_rfl (by norm_num)
      have hA : OnGrid 53 0 (binary64 (1 - c)) := by
        have hpos := hb.pos (1 - c) (by linarith)
        rcases one_sub_grid hd with h2 | h2
        · exact absurd h2 (not_le.2 hpos)
        · exact ⟨h2, by rw [abs_of_pos hpos, pow_zero]; exact hb.le_one (by linarith)⟩
      have hh : OnGrid 1 0 (1 / 2 : K) := ⟨⟨1, by norm_num⟩, by rw [abs_of_pos (by norm_num)]; norm_num⟩
      have h100 : OnGrid 0 7 (100 : K) := by
        have := nat_onGrid (K := K) (n := 100) (e := 7) (by norm_num)
        exact_mod_cast this
      have hal : OnGrid 54 0 (1 / 2 * binary64 (1 - c)) := (hh.mul hA).mono (by norm_num) le_rfl
      have h1a : OnGrid 54 1 (1 - binary64 (1 / 2 * binary64 (1 - c))) := OnGrid.one.sub hal.rnd
      have hq1 : OnGrid 54 8 (100 * binary64 (1 / 2 * binary64 (1 - c))) := (h100.mul hal.rnd).mono (by norm_num) (by norm_num)
      have hq2 : OnGrid 54 8 (100 * binary64 (1 - binary64 (1 / 2 * binary64 (1 - c)))) :=
        (h100.mul h1a.rnd).mono (by norm_num) (by norm_num)
      rw [hi.eq g1, rnd_dyadic hi hal (by norm_num) (by norm_num), rnd_dyadic hi h1a (by norm_num) (by norm_num),
        rnd_dyadic hi hq1 (by norm_num) (by norm_num), rnd_dyadic hi hq2 (by norm_num) (by norm_num)]
      exact ⟨rfl, hq1.rnd, hq2.rnd⟩
    constructor
    · refine assert_congr rfl fun h => ?_
      simp only [Bool.and_eq_true, decide_eq_true_eq] at h
      rw [(main h.1 h.2).1]
    · rintro p ⟨h, hp⟩
      simp only [Bool.and_eq_true, decide_eq_true_eq] at h
      simp only [pure_eq_ok, Except.ok.injEq] at hp
      subst hp
      exact (main h.1 h.2).2
  | pinf => exact ⟨rfl, fun p hp => by simp [confidenceToPercentilesR] at hp⟩
  | ninf => exact ⟨rfl, fun p hp => by simp [confidenceToPercentilesR] at hp⟩
  | nan => exact ⟨rfl, fun p hp => by simp [confidenceToPercentilesR] at hp⟩

theorem positionR_ieee {q : K} (hq : OnGrid 54 8 q) {n : Nat} (hn : n ≤ 2 ^ 53) : positionR rnd q n = positionR binary64 q n := by
  have h100 : OnGrid 0 7 (100 : K) := by
    have := nat_onGrid (K := K) (n := 100) (e := 7) (by norm_num)
    exact_mod_cast this
  unfold positionR
  rw [hi.eq (hq.div_inRange h100 (by norm_num) (by norm_num) (by norm_num))]
  exact rnd_dyadic hi ((hq.div_rnd h100 (by norm_num)).mul ((nat_onGrid hn).sub (OnGrid.one (k := 0) (e := 53))))
    (by norm_num) (by norm_num)

omit hi [IsStrictOrderedRing K] in
theorem match_mem {l : List (Flt K)} {i : Nat} {v : Flt K}
    (h : (match l[i]? with | some v => .ok v | none => .error .indexError : Py (Flt K)) = .ok v) : v ∈ l := by
  cases hg : l[i]? with
  | none => rw [hg] at h; simp at h
  | some w =>
    rw [hg] at h
    simp only [Except.ok.injEq] at h
    exact h ▸ List.mem_of_getElem? hg

/-- **C127, percentiles.** -/
theorem percentileR_ieee {boot : List (Flt K)} {v : Flt K} (hv : ∀ c, v = .fin c → IsDouble c) (hl : boot.length ≤ 2 ^ 53) :
    percentileR rnd boot v = percentileR binary64 boot v ∧
      ∀ p, percentileR binary64 boot v = .ok p → p.1 ∈ boot ∧ p.2 ∈ boot := by
  obtain ⟨h1, h2⟩ := percentiles_ieee hi hv
  unfold percentileR
  constructor
  · refine assert_congr rfl fun _ => bind_congr_eq h1 fun p hp => ?_
    obtain ⟨g1, g2⟩ := h2 p hp
    unfold percentileLowerR percentileHigherR
    rw [positionR_ieee hi g1 hl, positionR_ieee hi g2 hl]
  · intro p hp
    simp only [bind_ok_iff, pure_eq_ok, Except.ok.injEq] at hp
    obtain ⟨_, -, q, -, LB, hLB, UB, hUB, rfl⟩ := hp
    have hs := fun w => (List.perm_insertionSort (· ≤ ·) boot).mem_iff (a := w)
    exact ⟨(hs LB).1 (match_mem hLB), (hs UB).1 (match_mem hUB)⟩

/-- **C127, error bars.** -/
theorem errorBarR_ieee {boot : List (Flt K)} {v w : Flt K} (hv : ∀ c, v = .fin c → IsDouble c) (hl : boot.length ≤ 2 ^ 53)
    (hb : ∀ b ∈ boot, GridFlt 1074 1010 b) (hw : GridFlt 1074 1010 w) :
    errorBarR rnd boot w v = errorBarR binary64 boot w v := by
  obtain ⟨h1, h2⟩ := percentileR_ieee hi hv hl
  unfold errorBarR
  refine bind_congr_eq h1 fun p hp => ?_
  obtain ⟨m1, m2⟩ := h2 p hp
  rw [(rF_ieee hi ((hb _ m2).sub hw) le_rfl (by norm_num)).1, (rF_ieee hi (hw.sub (hb _ m1)) le_rfl (by norm_num)).1]

theorem meanBoolR_ieee {l : List Bool} (hl : l.length ≤ 2 ^ 53) :
    meanBoolR rnd l = (meanBoolR binary64 l : Flt K) ∧ GridFlt 105 53 (meanBoolR binary64 l : Flt K) := by
  have h1 : OnGrid 0 53 (l.count true : K) := nat_onGrid (List.count_le_length.trans hl)
  exact rF_div_ieee hi (GridFlt.fin h1) (GridFlt.fin (nat_onGrid hl)) (by norm_num) (by norm_num)

omit hi in
theorem _root_.Mlp.Lemmas.GridFlt.minimum {a b : Flt K} (ha : GridFlt k e a) (hb : GridFlt k e b) : GridFlt k e (Flt.minimum a b) := by
  unfold Flt.minimum
  split_ifs
  · intro x hx; simp at hx
  · rcases min_choice a b with h | h <;> rw [h]
    · exact ha
    · exact hb

/-- **C127, bootstrap tests.** -/
theorem significanceR_ieee {boot : List (Flt K)} (ref : Ref K) (hl : boot.length ≤ 2 ^ 53) :
    significanceR rnd boot ref = significanceR binary64 boot ref := by
  unfold significanceR
  cases hr : ref.broadcast boot.length with
  | none => rfl
  | some r =>
    have h2 : GridFlt 0 1 (Flt.fin (2 : K)) := GridFlt.fin (by
      have := nat_onGrid (K := K) (n := 2) (e := 1) (by norm_num)
      exact_mod_cast this)
    obtain ⟨a1, a2⟩ := meanBoolR_ieee hi (l := List.zipWith Flt.le boot r) (by rw [List.length_zipWith]; omega)
    obtain ⟨b1, b2⟩ := meanBoolR_ieee hi (l := List.zipWith Flt.le r boot) (by rw [List.length_zipWith]; omega)
    simp only
    rw [a1, b1, (rF_ieee hi (h2.mul (a2.minimum b2)) (by norm_num) (by norm_num)).1]

end
end Mlp.Props
