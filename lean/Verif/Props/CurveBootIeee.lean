import Verif.Props.AreaIeee
import Verif.Spec.IeeeCurve

/-! # Property C127: `curve_boot` and `curve_summary_table` do not overflow or underflow -/

set_option linter.unusedSectionVars false

namespace Mlp.Props
open Mlp.Util Mlp.Perf Mlp.PerfR Mlp.Spec Mlp.Lemmas Mlp.Round Mlp.CurveR Mlp.Boot Mlp.BootR Mlp.Classif Mlp.Frame

section
variable {K : Type} [Field K] [LinearOrder K] [IsStrictOrderedRing K] [FloorRing K] {rnd : K → K} (hi : FollowsIeee rnd)
  {order : List K → SumTree K} (ho : IsOrder order)
include hi ho

theorem package_ieee (f : PackageCurve) {y : List Bool} {s : List (Flt K)} {W : Option (Mat K)} (h : CurveRange y s W) :
    f.fn rnd (sumBy order rnd) y s W = f.fn binary64 (sumBy order binary64) y s W ∧
      ∀ c, f.fn binary64 (sumBy order binary64) y s W = .ok c → TameCurve c.1 := by
  cases f with
  | roc =>
    refine ⟨(roc_ieee hi ho h).1, fun ⟨c, thr⟩ hc => ⟨Or.inl ⟨?_, (roc_ieee hi ho h).2 c thr hc⟩⟩⟩
    simp only [PackageCurve.fn, rocCurveR, bind_ok_iff, pure_eq_ok, Except.ok.injEq, Prod.mk.injEq] at hc
    obtain ⟨_, -, rfl, -⟩ := hc
    rfl
  | recallPrecision =>
    refine ⟨(rp_ieee hi ho h).1, fun ⟨c, thr⟩ hc => ⟨Or.inr ⟨?_, 438, 0, 439, 0, by norm_num, by norm_num,
      (rp_ieee hi ho h).2 c thr hc⟩⟩⟩
    simp only [PackageCurve.fn, recallPrecisionCurveR, bind_ok_iff, pure_eq_ok, Except.ok.injEq, Prod.mk.injEq] at hc
    obtain ⟨_, -, _, -, _, -, rfl, -⟩ := hc
    rfl
  | prg =>
    refine ⟨(prg_ieee hi ho h).1, fun ⟨c, thr⟩ hc => ⟨Or.inr ⟨?_, 53, 0, 824, 774, by norm_num, by norm_num,
      (prg_ieee hi ho h).2 c thr hc⟩⟩⟩
    simp only [PackageCurve.fn, prgCurveR, bind_ok_iff, pure_eq_ok, Except.ok.injEq, Prod.mk.injEq] at hc
    obtain ⟨_, -, _, -, _, -, _, -, _, -, rfl, -⟩ := hc
    rfl

theorem tame_area_ieee {c : Curve K} (hc : TameCurve c) :
    areaR rnd (sumBy order rnd) c.x c.y c.kind = areaR binary64 (sumBy order binary64) c.x c.y c.kind ∧
      ∀ a, areaR binary64 (sumBy order binary64) c.x c.y c.kind = .ok a → ∀ v ∈ a, GridFlt 1073 1000 v := by
  rcases hc.kind with ⟨-, h⟩ | ⟨-, kx, ex, ky, ey, hkk, hee, h⟩
  · obtain ⟨h1, h2⟩ := area_ieee hi ho (by norm_num) (by norm_num) h
    exact ⟨h1, fun a ha v hv => (h2 a ha v hv).mono (by norm_num) (by norm_num)⟩
  · obtain ⟨h1, h2⟩ := area_ieee hi ho hkk hee h
    exact ⟨h1, fun a ha v hv => (h2 a ha v hv).mono (by omega) (by omega)⟩

omit hi ho in
theorem checkCurve_fst {r : Curve K × List (Flt K)} {g : Option (List (Flt K))} {c : Curve K}
    (h : checkCurveR rnd r g = .ok c) : c = r.1 := by
  unfold checkCurveR at h
  simp only [bind_ok_iff, pure_eq_ok, Except.ok.injEq] at h
  obtain ⟨_, -, _, -, _, -, _, -, _, -, _, -, rfl⟩ := h
  rfl

omit hi ho in
theorem unpackOne_mem {α : Type} {l : List α} {a : α} (h : unpackOne l = .ok a) : a ∈ l := by
  match l, h with
  | [b], h => simp only [unpackOne, Except.ok.injEq] at h; simp [h]
  | [], h => simp [unpackOne] at h
  | _ :: _ :: _, h => simp [unpackOne] at h

omit hi ho [IsStrictOrderedRing K] [FloorRing K] in
theorem colAt_range {p : Mat K} (h : MatRange p) (j : Nat) : ∀ x, Flt.fin x ∈ colAt p j → OnGrid 1074 1022 x := by
  intro x hx
  obtain ⟨r, hr, e⟩ := List.mem_map.1 hx
  refine h r hr x ?_
  rw [List.getD_eq_getElem?_getD] at e
  cases hg : r[j]? with
  | none => rw [hg] at e; simp at e
  | some w => rw [hg] at e; simp only [Option.getD_some] at e; exact e ▸ List.mem_of_getElem? hg

omit hi ho in
theorem bootWeights_range {N nBoot : Int} {counts : List (List Nat)} (hc : CountRange counts) {w : List (List K)}
    (h : bootWeights N nBoot (binary64 ((1 : K) / 10000000000)) counts = .ok w) : ∀ r ∈ w, ∀ v ∈ r, OnGrid 100 60 v := by
  unfold bootWeights at h
  simp only [bind_ok_iff, pure_eq_ok, Except.ok.injEq] at h
  obtain ⟨_, -, _, -, _, -, rfl⟩ := h
  intro r hr v hv
  obtain ⟨row, hrow, rfl⟩ := List.mem_map.1 hr
  obtain ⟨c, hcm, rfl⟩ := List.mem_map.1 hv
  rcases max_choice (binary64 ((1 : K) / 10000000000)) (c : K) with e | e <;> rw [e]
  · have := (epsilon_dyadic (K := K)).2.1
    unfold epsilon at this
    exact this.mono (by norm_num) (by norm_num)
  · exact (nat_onGrid (e := 60) (hc row hrow c hcm)).mono (by norm_num) le_rfl

/-- `refAreasR` and the grid on which its results lie. -/
theorem refAreas_ieee (f : PackageCurve) {y : List Bool} {W : Mat K} {nBoot : Int} (hn : y.length ≤ 2 ^ 53)
    (hW : ∀ r ∈ W.rows, ∀ x, Flt.fin x ∈ r → OnGrid 100 60 x) {ref : RefArg K} (href : RefRange ref) :
    refAreasR rnd (sumBy order rnd) (f.fn rnd (sumBy order rnd)) y W nBoot ref =
        refAreasR binary64 (sumBy order binary64) (f.fn binary64 (sumBy order binary64)) y W nBoot ref ∧
      ∀ r, refAreasR binary64 (sumBy order binary64) (f.fn binary64 (sumBy order binary64)) y W nBoot ref = .ok r →
        GridFlt 1074 1000 r.2 ∧ (∀ b, r.1 = .scalar b → GridFlt 1074 1000 b) ∧
          ∀ l, r.1 = .paired l → ∀ b ∈ l, GridFlt 1074 1000 b := by
  cases ref with
  | value r =>
    refine ⟨rfl, fun q hq => ?_⟩
    simp only [refAreasR, Except.ok.injEq] at hq
    subst hq
    refine ⟨href, fun b hb => ?_, fun l hl => by simp at hl⟩
    rw [Ref.scalar.injEq] at hb
    exact hb ▸ href
  | preds q =>
    have hr1 : CurveRange y (colAt q 1) (some W) := ⟨hn, colAt_range href 1, fun m hm => by
      rw [Option.some.injEq] at hm; exact hm ▸ hW⟩
    have hr0 : CurveRange y (colAt q 1) none := ⟨hn, colAt_range href 1, fun m hm => by simp at hm⟩
    obtain ⟨b1, b2⟩ := package_ieee hi ho f hr1
    obtain ⟨a1, a2⟩ := package_ieee hi ho f hr0
    constructor
    · unfold refAreasR
      refine bind_congr_eq b1 fun cb hcb => ?_
      refine bind_congr_eq (checkCurveR_ieee hi (b2 cb hcb) _ _) fun cb' hcb' => ?_
      obtain rfl := checkCurve_fst hcb'
      refine bind_congr_eq (tame_area_ieee hi ho (b2 cb hcb)).1 fun ab hab => assert_congr rfl fun _ => ?_
      refine bind_congr_eq a1 fun c hc => ?_
      refine bind_congr_eq (checkCurveR_ieee hi (a2 c hc) _ _) fun c' hc' => ?_
      obtain rfl := checkCurve_fst hc'
      exact bind_congr_eq (tame_area_ieee hi ho (a2 c hc)).1 fun ab hab => rfl
    · intro r hr
      unfold refAreasR at hr
      simp only [bind_ok_iff, pure_eq_ok, Except.ok.injEq] at hr
      obtain ⟨cb, hcb, cb', hcb', ab, hab, _, -, c, hc, c', hc', a, ha, a', ha', rfl⟩ := hr
      obtain rfl := checkCurve_fst hcb'
      obtain rfl := checkCurve_fst hc'
      refine ⟨?_, fun b hb => by simp at hb, fun l hl b hb => ?_⟩
      · exact ((tame_area_ieee hi ho (a2 c hc)).2 a ha _ (unpackOne_mem ha')).mono (by norm_num) le_rfl
      · simp only [Ref.paired.injEq] at hl
        subst hl
        exact ((tame_area_ieee hi ho (b2 cb hcb)).2 _ hab b hb).mono (by norm_num) le_rfl

omit ho in
theorem minusRef_ieee {boot : List (Flt K)} (hb : ∀ b ∈ boot, GridFlt 1074 1000 b) {r : Ref K}
    (h1 : ∀ b, r = .scalar b → GridFlt 1074 1000 b) (h2 : ∀ l, r = .paired l → ∀ b ∈ l, GridFlt 1074 1000 b) :
    minusRefR rnd boot r = minusRefR binary64 boot r ∧ ∀ v ∈ minusRefR binary64 boot r, GridFlt 1074 1001 v := by
  have key : ∀ a, GridFlt 1074 1000 a → ∀ b, GridFlt 1074 1000 b → rF rnd (Flt.sub a b) = rF binary64 (Flt.sub a b) ∧
      GridFlt 1074 1001 (rF binary64 (Flt.sub a b)) := fun a ha b hb => rF_ieee hi (ha.sub hb) le_rfl (by norm_num)
  cases r with
  | scalar b =>
    refine ⟨List.map_congr_left fun a ha => (key a (hb a ha) b (h1 b rfl)).1, fun v hv => ?_⟩
    obtain ⟨a, ha, rfl⟩ := List.mem_map.1 hv
    exact (key a (hb a ha) b (h1 b rfl)).2
  | paired l =>
    refine ⟨zipWith_congr_mem fun a ha b hbl => (key a (hb a ha) b (h2 l rfl b hbl)).1, fun v hv => ?_⟩
    obtain ⟨a, ha, b, hbl, rfl⟩ := mem_zipWith_of hv
    exact (key a (hb a ha) b (h2 l rfl b hbl)).2

omit hi ho in
theorem minusRef_length_le (boot : List (Flt K)) (r : Ref K) : (minusRefR rnd boot r).length ≤ boot.length := by
  cases r <;> simp [minusRefR]

/-- **C127, `curve_boot`.**  For the curves of the package and inputs in range, `curve_boot` in IEEE 754 double precision returns what
it returns (or fails in the way it fails) when there is no smallest and no largest exponent, whatever the order in which `np.sum`
adds. -/
theorem C127_curve_boot (f : PackageCurve) (other : Interp K) {y : LabelVec} (hy : y.vals.length ≤ 2 ^ 53) {p : Mat K}
    (hp : MatRange p) {ref : RefArg K} (href : RefRange ref) {xGrid : Option (List (Flt K))} {nBoot : Int} {confidence : Flt K}
    (hb : BootParams xGrid nBoot confidence) (pairwise : Bool) {counts : List (List Nat)} (hc : CountRange counts) :
    curveBootR rnd (sumBy order rnd) other y p ref (f.fn rnd (sumBy order rnd)) xGrid nBoot pairwise confidence counts =
      curveBootR binary64 (sumBy order binary64) other y p ref (f.fn binary64 (sumBy order binary64)) xGrid nBoot pairwise
        confidence counts := by
  have hn : (y.vals.map fun v => decide (v ≠ 0)).length ≤ 2 ^ 53 := by rwa [List.length_map]
  have hg : xGrid.getD (defaultGridR rnd) = xGrid.getD (defaultGridR binary64) ∧
      ∀ v ∈ xGrid.getD (defaultGridR binary64), GridFlt 400 10 v := by
    cases xGrid with
    | none => exact defaultGridR_ieee hi
    | some g => exact ⟨rfl, fun v hv x hx => hb.grid g rfl x (hx ▸ hv)⟩
  have he : rnd ((1 : K) / 10000000000) = binary64 (1 / 10000000000) := by
    have := hi.eq (epsilon_dyadic (K := K)).1
    unfold epsilon at this
    exact this
  have hr0 : CurveRange (y.vals.map fun v => decide (v ≠ 0)) (colAt p 1) none :=
    ⟨hn, colAt_range hp 1, fun m hm => by simp at hm⟩
  obtain ⟨a1, a2⟩ := package_ieee hi ho f hr0
  unfold curveBootR
  rw [hg.1, he]
  refine bind_congr_eq rfl fun s hs => assert_congr rfl fun _ => bind_congr_eq rfl fun _ _ => assert_congr rfl fun _ =>
    assert_congr rfl fun _ => ?_
  refine bind_congr_eq a1 fun c0 hc0 => ?_
  have t0 := a2 c0 hc0
  refine bind_congr_eq (checkCurveR_ieee hi t0 _ _) fun c hcc => ?_
  obtain rfl := checkCurve_fst hcc
  refine bind_congr_eq (tame_area_ieee hi ho t0).1 fun a0 ha0 => bind_congr_eq rfl fun auc hauc => ?_
  have gauc : GridFlt 1074 1000 auc := ((tame_area_ieee hi ho t0).2 a0 ha0 _ (unpackOne_mem hauc)).mono (by norm_num) le_rfl
  refine bind_congr_eq (interp1dR_ieee hi other t0 hg.2) fun g0 _ => bind_congr_eq rfl fun yGrid _ => assert_congr rfl fun _ => ?_
  refine bind_congr_eq rfl fun w hw => ?_
  have hW : ∀ r ∈ (⟨s.1, w.map fun r => r.map fun (v : K) => Flt.fin v⟩ : Mat K).rows, ∀ x, Flt.fin x ∈ r → OnGrid 100 60 x := by
    intro r hr x hx
    obtain ⟨r', hr', rfl⟩ := List.mem_map.1 hr
    obtain ⟨v, hv, e⟩ := List.mem_map.1 hx
    rw [Flt.fin.injEq] at e
    exact e ▸ bootWeights_range hc hw r' hr' v hv
  have hr1 : CurveRange (y.vals.map fun v => decide (v ≠ 0)) (colAt p 1)
      (some ⟨s.1, w.map fun r => r.map fun (v : K) => Flt.fin v⟩) := ⟨hn, colAt_range hp 1, fun m hm => by
      rw [Option.some.injEq] at hm; exact hm ▸ hW⟩
  obtain ⟨b1, b2⟩ := package_ieee hi ho f hr1
  refine bind_congr_eq b1 fun cb0 hcb0 => ?_
  have t1 := b2 cb0 hcb0
  refine bind_congr_eq (checkCurveR_ieee hi t1 _ _) fun cb hcb => ?_
  obtain rfl := checkCurve_fst hcb
  refine bind_congr_eq (tame_area_ieee hi ho t1).1 fun aucBoot hab => assert_congr rfl fun hlen => ?_
  have gab : ∀ v ∈ aucBoot, GridFlt 1074 1000 v := fun v hv =>
    ((tame_area_ieee hi ho t1).2 aucBoot hab v hv).mono (by norm_num) le_rfl
  have hlb : aucBoot.length ≤ 2 ^ 53 := by
    have := hb.boots
    rw [decide_eq_true_eq] at hlen
    omega
  refine bind_congr_eq (interp1dR_ieee hi other t1 hg.2) fun yGridBoot _ => assert_congr rfl fun hlen2 => ?_
  obtain ⟨r1, r2⟩ := refAreas_ieee hi ho f (nBoot := nBoot) hn hW href
  refine bind_congr_eq r1 fun r hr => ?_
  obtain ⟨g0, g1, g2⟩ := r2 r hr
  obtain ⟨m1, m2⟩ := minusRef_ieee hi gab g1 g2
  obtain ⟨d1, d2⟩ := rF_ieee hi (gauc.sub g0) le_rfl (by norm_num)
  refine bind_congr_eq ?_ fun EB _ => bind_congr_eq (significanceR_ieee hi r.1 hlb) fun pval _ => bind_congr_eq ?_ fun _ _ => rfl
  · cases pairwise with
    | true =>
      simp only [if_true]
      rw [m1, d1]
      exact errorBarR_ieee hi hb.confidence ((minusRef_length_le _ _).trans hlb) (fun v hv => (m2 v hv).mono le_rfl (by norm_num))
        (d2.mono le_rfl (by norm_num))
    | false =>
      simp only [Bool.false_eq_true, if_false]
      exact errorBarR_ieee hi hb.confidence hlb (fun v hv => (gab v hv).mono le_rfl (by norm_num))
        (gauc.mono le_rfl (by norm_num))
  · unfold envelopeR
    refine mapM_congr _ _ _ fun j _ => (percentileR_ieee hi hb.confidence ?_).1
    have := hb.boots
    simp only [Bool.and_eq_true, decide_eq_true_eq] at hlen2
    rw [List.length_map]
    omega

omit hi ho in
/-- The matrix of a method has the entries of the table. -/
theorem matrix_range {t : PredTable K} (ht : ∀ c ∈ t.cols, ∀ x, Flt.fin x ∈ c.2 → OnGrid 1074 1022 x) {m : Str} {p : Mat K}
    (h : t.matrix m = .ok p) : MatRange p := by
  unfold PredTable.matrix at h
  simp only [bind_ok_iff, pure_eq_ok, Except.ok.injEq] at h
  obtain ⟨s, hs, _, -, _, -, rfl⟩ := h
  have hsub : ∀ c ∈ s, ∀ x, Flt.fin x ∈ c.2 → OnGrid 1074 1022 x := by
    unfold PredTable.sub at hs
    intro c hc
    split at hs
    · simp at hs
    · rename_i l _ _
      rw [Except.ok.injEq] at hs
      subst hs
      obtain ⟨d, hd, rfl⟩ := List.mem_map.1 hc
      exact ht d (List.mem_of_mem_filter hd)
  intro r hr x hx
  obtain ⟨i, -, rfl⟩ := List.mem_map.1 hr
  obtain ⟨c, hc, e⟩ := List.mem_map.1 hx
  refine hsub c hc x ?_
  rw [List.getD_eq_getElem?_getD] at e
  cases hg : c.2[i]? with
  | none => rw [hg] at e; simp at e
  | some w => rw [hg] at e; simp only [Option.getD_some] at e; exact e ▸ List.mem_of_getElem? hg

/-- **C127, `curve_summary_table`.**  The same for the summary table and the dump of the curves. -/
theorem C127_table (curves : List (Str × PackageCurve)) (other : Interp K) {y : LabelVec} (hy : y.vals.length ≤ 2 ^ 53)
    {t : PredTable K} (ht : ∀ c ∈ t.cols, ∀ x, Flt.fin x ∈ c.2 → OnGrid 1074 1022 x) (refMethod : Str)
    {xGrid : Option (List (Flt K))} {nBoot : Int} {confidence : Flt K}
    (hb : BootParams xGrid nBoot confidence) (pairwise : Bool) {draws : BootDraws} (hc : ∀ m c, CountRange (draws m c)) :
    curveSummaryTableR rnd (sumBy order rnd) other t y (curves.map fun c => (c.1, c.2.fn rnd (sumBy order rnd))) refMethod xGrid nBoot
        pairwise confidence draws =
      curveSummaryTableR binary64 (sumBy order binary64) other t y (curves.map fun c => (c.1, c.2.fn binary64 (sumBy order binary64)))
        refMethod xGrid nBoot pairwise confidence draws := by
  unfold curveSummaryTableR
  refine assert_congr rfl fun _ => assert_congr rfl fun _ => assert_congr (by simp only [List.length_map]) fun _ => ?_
  refine bind_congr_eq rfl fun q hq => bind_congr_eq (mapM_congr _ _ _ fun m _ => ?_) fun R _ => ?_
  · unfold curveMethodR
    refine bind_congr_eq rfl fun p hp => ?_
    rw [List.mapM_map, List.mapM_map]
    refine mapM_congr _ _ _ fun c _ => ?_
    simp only [Function.comp]
    rw [C127_curve_boot hi ho c.2 other hy (matrix_range ht hp) (ref := .preds q) (matrix_range ht hq) hb pairwise (hc m c.1)]
  · simp only [List.map_map, Function.comp_def]

end
end Mlp.Props
