import Verif.Props.TableEBAccuracy
import Verif.Props.TableRound

/-! # C134: accuracy of the error bars of `loss_summary_table` -/

namespace Mlp.Props
open Mlp.Paper Mlp.PaperR Mlp.PerfR Mlp.BootR Mlp.Boot Mlp.Spec Mlp.Lemmas Mlp.Round

variable {L : Lib ℝ} {u : ℝ}

/-- `get_mean_EB_test` returns the mean and the error bar of `get_mean_and_EB`, also in floating point. -/
theorem meanEBTestR_meanEB {x : List (Flt ℝ)} {conf minEB lower upper : Flt ℝ} {method : EBMethod} {counts : List (List Nat)}
    (hm : method ≠ .boot) {mu EB p : Flt ℝ} (h : getMeanEBTestR L x conf minEB lower upper method counts = .ok (mu, EB, p)) :
    getMeanEBR L x conf minEB lower upper method counts = .ok (mu, EB) := by
  unfold getMeanEBTestR at h
  unfold getMeanEBR
  rw [assert_bind_ok] at h ⊢
  refine ⟨h.1, ?_⟩
  obtain ⟨-, h⟩ := h
  obtain ⟨r, h1, h⟩ := (bind_ok_iff _ _ _).1 h
  obtain ⟨m, h2, h⟩ := (bind_ok_iff _ _ _).1 h
  obtain ⟨e, h3, h⟩ := (bind_ok_iff _ _ _).1 h
  simp only [pure_eq_ok, Except.ok.injEq, Prod.mk.injEq] at h
  obtain ⟨rfl, rfl, -⟩ := h
  refine (bind_ok_iff _ _ _).2 ⟨r.1, ?_, (bind_ok_iff _ _ _).2 ⟨m, h2, (bind_ok_iff _ _ _).2 ⟨e, h3, rfl⟩⟩⟩
  cases method with
  | t =>
    obtain ⟨a, ha, h1⟩ := (bind_ok_iff _ _ _).1 h1
    obtain ⟨b, hb, h1⟩ := (bind_ok_iff _ _ _).1 h1
    cases h1
    exact ha
  | bernstein =>
    obtain ⟨a, ha, h1⟩ := (bind_ok_iff _ _ _).1 h1
    obtain ⟨b, hb, h1⟩ := (bind_ok_iff _ _ _).1 h1
    cases h1
    exact ha
  | boot => exact absurd rfl hm
  | other => cases h1

/-- What a cell of the table computed in floating point is. -/
theorem summaryCellR {tbl : LossTable} {refMethod : Str} {pairwise : Bool} {confidence : Flt ℝ} {methodEB : EBMethod}
    (hm : methodEB ≠ .boot) {limits : List (Str × (Flt ℝ × Flt ℝ))} {draws : Str → Str → Draws}
    {out : List (List (Flt ℝ × Flt ℝ × Flt ℝ))}
    (ho : lossSummaryTableR L tbl refMethod pairwise confidence methodEB limits draws = .ok out)
    {metric method : Str} {cell : Flt ℝ × Flt ℝ × Flt ℝ} (hc : SummaryCell tbl out metric method cell)
    {lower upper : Flt ℝ} (hlim : LimitsOf limits metric lower upper) {xs rs : List ℝ} (hX : HasLoss tbl metric method (finVec xs))
    (hY : HasLoss tbl metric refMethod (finVec rs)) (hne : xs ≠ []) :
    cell.1 = .fin (meanR L xs) ∧
    (pairwise = false → ∃ m, getMeanEBR L (finVec xs) confidence (.fin 0) lower upper methodEB (draws metric method).eb = .ok (m, cell.2.1)) ∧
    (pairwise = true → method ≠ refMethod → ∃ m, getMeanEBR L (finVec ((List.zipWith (· - ·) xs rs).map L.rnd)) confidence (.fin 0)
      (rF L.rnd (upper.sub lower)).neg (rF L.rnd (upper.sub lower)) methodEB (draws metric method).eb = .ok (m, cell.2.1)) := by
  obtain ⟨i, j, row, h1, h2, h3, h4⟩ := hc
  obtain ⟨-, -, -, h⟩ := summaryR_ok.1 ho
  obtain ⟨lo, hi, lr, k1, -, k2, -, -, h⟩ := forall₂_getElem? h h1 h3
  obtain ⟨loss, k3, h⟩ := forall₂_getElem? h h2 h4
  obtain rfl := hasLoss_unique hX k3
  obtain rfl := hasLoss_unique hY k2
  obtain ⟨rfl, rfl⟩ := limitsOf_unique hlim k1
  unfold cellOfR at h
  have hz : List.zipWith (fun a b : ℝ => L.rnd (a - b)) xs rs = (List.zipWith (· - ·) xs rs).map L.rnd := by
    rw [List.map_zipWith]
  simp only [assert_bind_ok, meanFR_finVec hne, deltasR_finVec, hz] at h
  obtain ⟨-, -, h⟩ := h
  cases pairwise with
  | true =>
    simp only [if_true] at h
    by_cases hs : method = refMethod
    · simp only [hs, decide_true, if_true] at h
      cases h
      exact ⟨rfl, by simp, fun _ h => absurd hs h⟩
    · simp only [hs, decide_false, Bool.false_eq_true, if_false] at h
      obtain ⟨⟨m, e, p⟩, h5, h⟩ := (bind_ok_iff _ _ _).1 h
      cases h
      exact ⟨rfl, by simp, fun _ _ => ⟨m, meanEBTestR_meanEB hm h5⟩⟩
  | false =>
    simp only [Bool.false_eq_true, if_false] at h
    obtain ⟨⟨m, e⟩, h5, h⟩ := (bind_ok_iff _ _ _).1 h
    rw [assert_bind_ok] at h
    obtain ⟨-, h⟩ := h
    obtain ⟨p, -, h⟩ := (bind_ok_iff _ _ _).1 h
    cases h
    exact ⟨rfl, fun _ => ⟨m, h5⟩, by simp⟩

/-- What the same cell is in exact arithmetic. -/
theorem summaryCell_exact {T : Nat → RefDist} {tbl : LossTable} {refMethod : Str} {pairwise : Bool} {confidence : Flt ℝ} {methodEB : EBMethod}
    {limits : List (Str × (Flt ℝ × Flt ℝ))} {draws : Str → Str → Draws} {out : List (List (Flt ℝ × Flt ℝ × Flt ℝ))}
    (ho : lossSummaryTable T tbl refMethod pairwise confidence methodEB limits draws = .ok out)
    {metric method : Str} {cell : Flt ℝ × Flt ℝ × Flt ℝ} (hc : SummaryCell tbl out metric method cell)
    {lower upper : Flt ℝ} (hlim : LimitsOf limits metric lower upper) {xs rs : List ℝ} (hX : HasLoss tbl metric method (finVec xs))
    (hY : HasLoss tbl metric refMethod (finVec rs)) (hne : xs ≠ []) :
    Within lower upper xs ∧ Within lower upper rs ∧ cell.1 = .fin (avg xs) ∧
    (pairwise = false → ∃ m, getMeanEB T (finVec xs) confidence (.fin 0) lower upper methodEB (draws metric method).eb = .ok (m, cell.2.1)) ∧
    (pairwise = true → method ≠ refMethod → ∃ m, getMeanEB T (finVec (List.zipWith (· - ·) xs rs)) confidence (.fin 0)
      (upper.sub lower).neg (upper.sub lower) methodEB (draws metric method).eb = .ok (m, cell.2.1)) := by
  obtain ⟨loss, lossRef, lo, hi, h1, h2, h3, -, -, w1, w2, h8, -, h10, h11⟩ := summaryCell_isCell ho hc
  obtain rfl := hasLoss_unique hX h1
  obtain rfl := hasLoss_unique hY h2
  obtain ⟨rfl, rfl⟩ := limitsOf_unique hlim h3
  rw [deltas_finVec] at h10
  rw [mean_finVec hne] at h8
  have hmem : ∀ {ys : List ℝ} {y : ℝ}, y ∈ ys → Flt.fin y ∈ finVec ys := fun hy => List.mem_map.2 ⟨_, hy, rfl⟩
  refine ⟨fun x hx => w1 _ (hmem hx), fun x hx => w2 _ (hmem hx), h8, fun hp => ⟨_, (h11 hp).1⟩, fun hp hm => ?_⟩
  obtain ⟨m, hm'⟩ := h10 hp hm
  exact ⟨m, ((C49_agree T _ _ _ _ _ _ _ m cell.2.1 cell.2.2).1 hm').1⟩

/-- Differences of numbers within finite limits. -/
theorem diff_range {l h : ℝ} {xs rs : List ℝ} (hx : ∀ x ∈ xs, l ≤ x ∧ x ≤ h) (hr : ∀ x ∈ rs, l ≤ x ∧ x ≤ h) :
    ∀ d ∈ List.zipWith (· - ·) xs rs, -(h - l) ≤ d ∧ d ≤ h - l := by
  intro d hd
  obtain ⟨i, hi, rfl⟩ := List.mem_iff_getElem.1 hd
  rw [List.getElem_zipWith]
  rw [List.length_zipWith] at hi
  have a := hx _ (List.getElem_mem (l := xs) (n := i) (by omega))
  have b := hr _ (List.getElem_mem (l := rs) (n := i) (by omega))
  constructor <;> linarith [a.1, a.2, b.1, b.2]

theorem rnd_sym_within (hL : GoodLib L) {R : ℝ} {ds : List ℝ} (hw : ∀ x ∈ ds, -R ≤ x ∧ x ≤ R) :
    ∀ x ∈ ds.map L.rnd, -L.rnd R ≤ x ∧ x ≤ L.rnd R := by
  intro x hx
  obtain ⟨y, hy, rfl⟩ := List.mem_map.1 hx
  rw [← hL.rnd.neg]
  exact ⟨hL.rnd.mono (hw y hy).1, hL.rnd.mono (hw y hy).2⟩

section
variable (hL : GoodLib L) (hA : AccurateLib u L) {T : Nat → RefDist} {tbl : LossTable} {refMethod : Str} {pairwise : Bool} {c : ℝ}
  (h0 : 0 < c) (h1 : c < 1) {limits : List (Str × (Flt ℝ × Flt ℝ))} {draws : Str → Str → Draws}
  {out outR : List (List (Flt ℝ × Flt ℝ × Flt ℝ))} {metric method : Str} {cell cellR : Flt ℝ × Flt ℝ × Flt ℝ}
  (hc : SummaryCell tbl out metric method cell) (hcR : SummaryCell tbl outR metric method cellR)
  {xs rs : List ℝ} (hX : HasLoss tbl metric method (finVec xs)) (hY : HasLoss tbl metric refMethod (finVec rs))
  (hlen : rs.length = xs.length) (hn : xs.length * u ≤ 1 / 1000000)
include hL hA h0 h1 hc hcR hX hY hlen hn

/-- **C134, Bernstein.**  The table computed in floating point next to the table in exact arithmetic: the means differ by at most `2 n u`
times the larger limit `B`, the error bars without `pairwise_CI` by at most `130 n u log(3/(1-c)) B`, and those with `pairwise_CI` by at most
`138 n u log(3/(1-c))` times the difference of the limits. -/
theorem C134_bernstein (hne : xs ≠ [])
    (ho : lossSummaryTable T tbl refMethod pairwise (.fin c) .bernstein limits draws = .ok out)
    (hoR : lossSummaryTableR L tbl refMethod pairwise (.fin c) .bernstein limits draws = .ok outR)
    {l h : ℝ} (hlim : LimitsOf limits metric (.fin l) (.fin h)) :
    (∃ m mR : ℝ, cell.1 = .fin m ∧ cellR.1 = .fin mR ∧ |mR - m| ≤ 2 * (xs.length * u) * max |l| |h|) ∧
    (pairwise = false → ∃ e eR : ℝ, cell.2.1 = .fin e ∧ cellR.2.1 = .fin eR ∧
      |eR - e| ≤ 130 * (xs.length * u) * (Real.log (3 / (1 - c)) * max |l| |h|)) ∧
    (pairwise = true → method ≠ refMethod → ∃ e eR : ℝ, cell.2.1 = .fin e ∧ cellR.2.1 = .fin eR ∧
      |eR - e| ≤ 138 * (xs.length * u) * (Real.log (3 / (1 - c)) * (h - l))) := by
  obtain ⟨w1, w2, e1, e2, e3⟩ := summaryCell_exact ho hc hlim hX hY hne
  obtain ⟨f1, f2, f3⟩ := summaryCellR (by simp) hoR hcR hlim hX hY hne
  have w1' : ∀ x ∈ xs, l ≤ x ∧ x ≤ h := fun x hx => by simpa using w1 x hx
  have w2' : ∀ x ∈ rs, l ≤ x ∧ x ≤ h := fun x hx => by simpa using w2 x hx
  have hlh : l ≤ h := by
    obtain ⟨x, hx⟩ := List.exists_mem_of_ne_nil xs hne
    exact (w1' x hx).1.trans (w1' x hx).2
  have hg := gradual_of_relError hL.rnd hL.double hA.nonneg hA.rnd
  refine ⟨⟨_, _, e1, f1, (C111_mean hA.nonneg hA.rnd hL.sum hne hn).trans
    (mul_le_mul_of_nonneg_left (C111_scale hne w1') (mul_nonneg (by norm_num) (mul_nonneg (by positivity) hA.nonneg)))⟩, fun hp => ?_, fun hp hm => ?_⟩
  · obtain ⟨m, e2⟩ := e2 hp
    obtain ⟨mR, f2⟩ := f2 hp
    obtain ⟨muR, e, eR, g1, g2, -, g4⟩ := C133_mean_and_EB_bernstein hL hA T hne hn hlh w1' h0 h1 le_rfl hg.zero (by linarith) (draws metric method).eb
    rw [e2, Except.ok.injEq, Prod.mk.injEq] at g1
    rw [f2, Except.ok.injEq, Prod.mk.injEq] at g2
    exact ⟨e, eR, g1.2, g2.2, g4⟩
  · obtain ⟨m, e3⟩ := e3 hp hm
    obtain ⟨mR, f3⟩ := f3 hp hm
    have hdl : (List.zipWith (· - ·) xs rs).length = xs.length := by rw [List.length_zipWith]; omega
    have hdw := diff_range w1' w2'
    have hdne : List.zipWith (· - ·) xs rs ≠ [] := by
      intro e
      rw [e] at hdl
      exact hne (List.length_eq_zero_iff.1 hdl.symm)
    obtain ⟨muR, e, eR, g1, g2, g3⟩ := pair_bernstein hdne hdw (rnd_sym_within hL hdw) (by rwa [hdl]) h0 h1 hL hA T (draws metric method).eb
    simp only [Flt.sub_fin, Flt.neg_fin, rF] at e3 f3
    rw [e3, Except.ok.injEq, Prod.mk.injEq] at g1
    rw [f3, Except.ok.injEq, Prod.mk.injEq] at g2
    rw [hdl] at g3
    exact ⟨e, eR, g1.2, g2.2, g3⟩

/-- **C134, t with finite limits.**  With `q` the quantile of the t distribution. -/
theorem C134_t (hne : xs ≠ [])
    (ho : lossSummaryTable T tbl refMethod pairwise (.fin c) .t limits draws = .ok out)
    (hoR : lossSummaryTableR L tbl refMethod pairwise (.fin c) .t limits draws = .ok outR)
    {l h : ℝ} (hlim : LimitsOf limits metric (.fin l) (.fin h)) {q : ℝ} (hq0 : 0 ≤ q)
    (hT : 2 ≤ xs.length → IsSymmetric (T (xs.length - 1)) ∧ q = (T (xs.length - 1)).ppf ((1 + c) / 2) ∧
      AccurateQuantile u L xs.length c q) :
    (∃ m mR : ℝ, cell.1 = .fin m ∧ cellR.1 = .fin mR ∧ |mR - m| ≤ 2 * (xs.length * u) * max |l| |h|) ∧
    (pairwise = false → ∃ e eR : ℝ, cell.2.1 = .fin e ∧ cellR.2.1 = .fin eR ∧
      |eR - e| ≤ (33 * q + 4) * (xs.length * u) * max |l| |h|) ∧
    (pairwise = true → method ≠ refMethod → ∃ e eR : ℝ, cell.2.1 = .fin e ∧ cellR.2.1 = .fin eR ∧
      |eR - e| ≤ (38 * q + 7) * (xs.length * u) * (h - l)) := by
  obtain ⟨w1, w2, e1, e2, e3⟩ := summaryCell_exact ho hc hlim hX hY hne
  obtain ⟨f1, f2, f3⟩ := summaryCellR (by simp) hoR hcR hlim hX hY hne
  have w1' : ∀ x ∈ xs, l ≤ x ∧ x ≤ h := fun x hx => by simpa using w1 x hx
  have w2' : ∀ x ∈ rs, l ≤ x ∧ x ≤ h := fun x hx => by simpa using w2 x hx
  have hlh : l ≤ h := by
    obtain ⟨x, hx⟩ := List.exists_mem_of_ne_nil xs hne
    exact (w1' x hx).1.trans (w1' x hx).2
  have hg := gradual_of_relError hL.rnd hL.double hA.nonneg hA.rnd
  refine ⟨⟨_, _, e1, f1, (C111_mean hA.nonneg hA.rnd hL.sum hne hn).trans
    (mul_le_mul_of_nonneg_left (C111_scale hne w1') (mul_nonneg (by norm_num) (mul_nonneg (by positivity) hA.nonneg)))⟩, fun hp => ?_, fun hp hm => ?_⟩
  · obtain ⟨m, e2⟩ := e2 hp
    obtain ⟨mR, f2⟩ := f2 hp
    obtain ⟨muR, e, eR, g1, g2, -, g4⟩ := C133_mean_and_EB_t hL hA (T := T) hne hn hlh w1' h0 h1 le_rfl hg.zero (by linarith) (draws metric method).eb hq0 hT
    rw [e2, Except.ok.injEq, Prod.mk.injEq] at g1
    rw [f2, Except.ok.injEq, Prod.mk.injEq] at g2
    exact ⟨e, eR, g1.2, g2.2, g4⟩
  · obtain ⟨m, e3⟩ := e3 hp hm
    obtain ⟨mR, f3⟩ := f3 hp hm
    have hdl : (List.zipWith (· - ·) xs rs).length = xs.length := by rw [List.length_zipWith]; omega
    have hdw := diff_range w1' w2'
    have hdne : List.zipWith (· - ·) xs rs ≠ [] := by
      intro e
      rw [e] at hdl
      exact hne (List.length_eq_zero_iff.1 hdl.symm)
    obtain ⟨muR, e, eR, g1, g2, g3⟩ := pair_t hL hA (T := T) hdne hdw (rnd_sym_within hL hdw) (by rwa [hdl]) h0 h1 (draws metric method).eb hq0
      (by rwa [hdl])
    simp only [Flt.sub_fin, Flt.neg_fin, rF] at e3 f3
    rw [e3, Except.ok.injEq, Prod.mk.injEq] at g1
    rw [f3, Except.ok.injEq, Prod.mk.injEq] at g2
    rw [hdl] at g3
    exact ⟨e, eR, g1.2, g2.2, g3⟩

/-- **C134, t without limits** (the default), for at least two rows.  The errors are relative to the standard error and to the average
absolute value of the losses, or of the differences to the reference. -/
theorem C134_t_open (h2 : 2 ≤ xs.length)
    (ho : lossSummaryTable T tbl refMethod pairwise (.fin c) .t limits draws = .ok out)
    (hoR : lossSummaryTableR L tbl refMethod pairwise (.fin c) .t limits draws = .ok outR)
    {lower upper : Flt ℝ} (hlim : LimitsOf limits metric lower upper) (hv : ValidLimits lower upper) (hinf : lower = .ninf ∨ upper = .pinf)
    (hT : IsSymmetric (T (xs.length - 1)))
    (hq : AccurateQuantile u L xs.length c ((T (xs.length - 1)).ppf ((1 + c) / 2))) :
    (∃ m mR : ℝ, cell.1 = .fin m ∧ cellR.1 = .fin mR ∧ |mR - m| ≤ 2 * (xs.length * u) * avgAbs xs) ∧
    (pairwise = false → ∃ e eR : ℝ, cell.2.1 = .fin e ∧ cellR.2.1 = .fin eR ∧
      |eR - e| ≤ (T (xs.length - 1)).ppf ((1 + c) / 2) * (xs.length * u) * (14 * stdErr xs + 5 * (avgAbs xs / Real.sqrt xs.length))) ∧
    (pairwise = true → method ≠ refMethod → ∃ e eR : ℝ, cell.2.1 = .fin e ∧ cellR.2.1 = .fin eR ∧
      |eR - e| ≤ (T (xs.length - 1)).ppf ((1 + c) / 2) * (xs.length * u) * (15 * stdErr (List.zipWith (· - ·) xs rs) +
        7 * (avgAbs (List.zipWith (· - ·) xs rs) / Real.sqrt xs.length))) := by
  have hne : xs ≠ [] := by rintro rfl; simp at h2
  obtain ⟨w1, w2, e1, e2, e3⟩ := summaryCell_exact ho hc hlim hX hY hne
  obtain ⟨f1, f2, f3⟩ := summaryCellR (by simp) hoR hcR hlim hX hY hne
  have hg := gradual_of_relError hL.rnd hL.double hA.nonneg hA.rnd
  refine ⟨⟨_, _, e1, f1, C111_mean hA.nonneg hA.rnd hL.sum hne hn⟩, fun hp => ?_, fun hp hm => ?_⟩
  · obtain ⟨m, e2⟩ := e2 hp
    obtain ⟨mR, f2⟩ := f2 hp
    obtain ⟨muR, e, eR, g1, g2, -, g4⟩ := C133_mean_and_EB_t_open hL hA (T := T) h2 hn hv w1 hinf h0 h1 le_rfl hg.zero (draws metric method).eb hT hq
    rw [e2, Except.ok.injEq, Prod.mk.injEq] at g1
    rw [f2, Except.ok.injEq, Prod.mk.injEq] at g2
    exact ⟨e, eR, g1.2, g2.2, g4⟩
  · obtain ⟨m, e3⟩ := e3 hp hm
    obtain ⟨mR, f3⟩ := f3 hp hm
    have hdl : (List.zipWith (· - ·) xs rs).length = xs.length := by rw [List.length_zipWith]; omega
    obtain ⟨muR, e, eR, g1, g2, g3⟩ := pair_t_open hL hA (T := T) (ds := List.zipWith (· - ·) xs rs) (by rwa [hdl]) (by rwa [hdl]) h0 h1
      (draws metric method).eb (by rwa [hdl]) (by rwa [hdl])
    have hsub : upper.sub lower = .pinf := by
      obtain ⟨v1, v2, v3, v4, v5⟩ := hv
      cases lower <;> cases upper <;> simp_all [Flt.sub, Flt.add, Flt.neg]
    rw [hsub] at e3 f3
    have e2 : (Flt.pinf : Flt ℝ).neg = .ninf := rfl
    simp only [rF, e2] at e3 f3
    rw [e3, Except.ok.injEq, Prod.mk.injEq] at g1
    rw [f3, Except.ok.injEq, Prod.mk.injEq] at g2
    rw [hdl] at g3
    exact ⟨e, eR, g1.2, g2.2, g3⟩

end

end Mlp.Props
