import Verif.Props.BernsteinIeee
import Verif.Props.TableCoverage

/-!
# Property C129: `loss_summary_table` does not overflow

`IeeeLib` knows nothing about the result of an operation that overflows.
-/

namespace Mlp.Props
open Mlp.Paper Mlp.PaperR Mlp.PerfR Mlp.BootR Mlp.Boot Mlp.Spec Mlp.Lemmas Mlp.Round

theorem sub_fin_iff {a b : Flt ℝ} {r : ℝ} (h : a.sub b = .fin r) : ∃ x y, a = .fin x ∧ b = .fin y ∧ r = x - y := by
  cases a <;> cases b <;> simp [Flt.sub, Flt.add, Flt.neg] at h
  exact ⟨_, _, rfl, rfl, by rw [← h]; ring⟩

theorem rF_fin_iff {v : Flt ℝ} {r : ℝ} (h : rF ieeeRound v = .fin r) : ∃ x, v = .fin x ∧ r = ieeeRound x := by
  cases v with
  | fin x => exact ⟨x, rfl, (Flt.fin.inj h).symm⟩
  | _ => simp [rF] at h

/-- The range of the differences is zero or not extremely small. -/
theorem range_gap {lower upper : Flt ℝ} (hm : ModerateLimits lower upper) {R : ℝ}
    (h : rF ieeeRound ((rF ieeeRound (upper.sub lower)).sub (rF ieeeRound (upper.sub lower)).neg) = .fin R) :
    R = 0 ∨ 1 / 2 ^ 201 ≤ R := by
  obtain ⟨y, h1, rfl⟩ := rF_fin_iff h
  obtain ⟨a, b, h2, h3, rfl⟩ := sub_fin_iff h1
  rw [h2, Flt.neg_fin, Flt.fin.injEq] at h3
  obtain ⟨z, h4, rfl⟩ := rF_fin_iff h2
  obtain ⟨u, l, h5, h6, rfl⟩ := sub_fin_iff h4
  rw [← h3]
  rcases hm.2.2 l u h6 h5 with e | e
  · left
    rw [e, sub_self, ieeeRound_monoRounding.zero, neg_zero, sub_zero, ieeeRound_monoRounding.zero]
  · right
    have h7 := ieee_ge (by norm_num) e
    have h8 : (1 : ℝ) / 2 ^ 201 ≤ 1 / 2 ^ 200 := one_div_le_one_div_of_le (by positivity) (pow_le_of (by norm_num))
    have h9 : (0 : ℝ) < 1 / 2 ^ 200 := by positivity
    exact ieee_ge (by norm_num) (by linarith)

section
variable {L : Lib ℝ} {order : List ℝ → SumTree ℝ} (H : IeeeLib L order)
include H

theorem allclose_eq {a b : ℝ} (ha : |a| ≤ 2 ^ 202) (hb : |b| ≤ 2 ^ 202) : allcloseR L.rnd a b = allcloseR ieeeRound a b := by
  have h1 : |a - b| ≤ 2 ^ 203 := by
    have := abs_sub a b
    rw [pow_succ]
    linarith
  have h2 : |(1 : ℝ) / 100000000| ≤ 2 ^ 0 := by rw [abs_of_pos (by norm_num)]; norm_num
  have h3 : |(1 : ℝ) / 100000| ≤ 2 ^ 0 := by rw [abs_of_pos (by norm_num)]; norm_num
  have h4 : |ieeeRound ((1 : ℝ) / 100000) * (|b|)| ≤ 2 ^ 202 := prod_ub (ieee_bound h3) (by rwa [abs_abs]) (by norm_num)
  have h5 : |ieeeRound ((1 : ℝ) / 100000000) + ieeeRound (ieeeRound ((1 : ℝ) / 100000) * |b|)| ≤ 2 ^ 203 := by
    have := abs_add_le (ieeeRound ((1 : ℝ) / 100000000)) (ieeeRound (ieeeRound ((1 : ℝ) / 100000) * |b|))
    have := le_pow (ieee_bound h2) (show 0 ≤ 202 by norm_num)
    have := ieee_bound h4
    rw [pow_succ]
    linarith
  unfold allcloseR
  rw [rnd_eq H.rnd h1 (by norm_num), rnd_eq H.rnd h2 (by norm_num), rnd_eq H.rnd h3 (by norm_num), rnd_eq H.rnd h4 (by norm_num),
    rnd_eq H.rnd h5 (by norm_num)]

theorem isclose_eq {a b : Flt ℝ} (ha : FltBound 202 a) (hb : FltBound 202 b) : iscloseR L a b = iscloseR (wideLib L order) a b := by
  cases a <;> cases b <;> simp only [iscloseR]
  exact allclose_eq H (ha _ rfl) (hb _ rfl)

/-- `np.mean` does not overflow. -/
theorem meanFR_eq {x : List (Flt ℝ)} {e : Nat} (he : e + 53 ≤ 1023) (h : ∀ v ∈ x, FltBound e v) (hl : x.length ≤ 2 ^ 53) :
    meanFR L x = meanFR (wideLib L order) x ∧ ((x.all fun v => v.isFinite) = true → FltBound e (meanFR (wideLib L order) x)) := by
  unfold meanFR
  split_ifs with hf
  · cases x with
    | nil =>
      have e1 := (sum_eq H (e := 0) (l := []) (by norm_num) (by simp) (by simp)).1
      have e2 : Flt.div (Flt.fin (0 : ℝ)) (.fin 0) = .nan := by simp [Flt.div, Flt.signInf]
      have e3 : (wideLib L order).sum [] = 0 := by change sumBy order ieeeRound [] = 0; simp [sumBy]
      simp only [finVals, List.filterMap_nil, e1, e3, List.length_nil, Nat.cast_zero, e2, rF]
      exact ⟨trivial, fun _ x hx => by simp at hx⟩
    | cons a l =>
      have hb : ∀ v ∈ finVals (a :: l), |v| ≤ 2 ^ e := by
        intro v hv
        obtain ⟨w, hw, hv⟩ := List.mem_filterMap.1 hv
        cases w <;> simp at hv
        exact hv ▸ h _ hw _ rfl
      have hlen : (finVals (a :: l)).length ≤ (a :: l).length := List.length_filterMap_le _ _
      obtain ⟨s1, s2⟩ := sum_eq H he hb (hlen.trans hl)
      have hp : (0 : ℝ) < (a :: l).length := by exact_mod_cast Nat.succ_pos _
      have hlen' : ((finVals (a :: l)).length : ℝ) ≤ (a :: l).length := by exact_mod_cast hlen
      have hq : FltBound e ((Flt.fin ((wideLib L order).sum (finVals (a :: l)))).div (.fin ((a :: l).length : ℝ))) := by
        simp only [Flt.div]
        rw [if_neg hp.ne']
        refine FltBound.fin ?_
        rw [abs_div, abs_of_pos hp, div_le_iff₀ hp]
        refine s2.trans ?_
        rw [mul_comm]
        exact mul_le_mul_of_nonneg_left hlen' (by positivity)
      rw [s1]
      exact ⟨rF_eq' H hq (by omega), fun _ => hq.rF⟩
  · exact ⟨rfl, fun h => absurd h hf⟩

/-- The mean that `clip_chk` returns. -/
theorem clipChk_eq {a lo hi : Flt ℝ} (ha : FltBound 202 a) (hlo : FltBound 202 lo) (hhi : FltBound 202 hi) :
    clipChkR L a lo hi = clipChkR (wideLib L order) a lo hi ∧
      ∀ v, clipChkR (wideLib L order) a lo hi = .ok v → FltBound 202 v := by
  constructor
  · unfold clipChkR
    rw [isclose_eq H ha hlo, isclose_eq H ha hhi]
  · intro v hv
    unfold clipChkR at hv
    simp only [bind_ok_iff, pure_eq_ok, Except.ok.injEq] at hv
    obtain ⟨_, -, rfl⟩ := hv
    unfold Flt.clip
    split_ifs <;> assumption

/-- `clip_EB` does not overflow. -/
theorem clipEB_eq {mu EB lower upper : Flt ℝ} (hm : FltBound 202 mu) (hlo : FltBound 202 lower) (hup : FltBound 202 upper) :
    clipEBR L mu EB lower upper (.fin 0) = clipEBR (wideLib L order) mu EB lower upper (.fin 0) := by
  have h2 : FltBound 1 ((Flt.fin (2 : ℝ)).mul (.fin 0)) := by
    simp only [Flt.mul]
    exact FltBound.fin (by simp)
  unfold clipEBR
  rw [rF_eq' H (hup.sub hlo) (by norm_num), rF_eq' H (hup.sub hm) (by norm_num), rF_eq' H (hm.sub hlo) (by norm_num),
    rF_eq' H h2 (by norm_num)]
  rfl

/-- What is left of `get_mean_and_EB` after the error bar, for data with an infinity too: their mean is not a number. -/
theorem mean_bound_any {x : List (Flt ℝ)} (h : ∀ v ∈ x, FltBound 201 v) (hl : x.length ≤ 2 ^ 53) :
    meanFR L x = meanFR (wideLib L order) x ∧ FltBound 202 (meanFR (wideLib L order) x) := by
  obtain ⟨m1, m2⟩ := meanFR_eq H (by norm_num) h hl
  refine ⟨m1, ?_⟩
  by_cases hf : (x.all fun v => v.isFinite) = true
  · exact (m2 hf).mono (by norm_num)
  · have hx : ∃ a ∈ x, a.isFinite = false := by
      simpa using hf
    obtain ⟨a, ha, ha'⟩ := hx
    unfold meanFR
    rw [if_neg hf]
    intro y hy
    exfalso
    have := sum_not_fin (acc := .fin 0) ha ha'
    unfold Flt.mean Flt.sum at hy
    generalize x.foldl Flt.add (.fin 0) = s at *
    cases s with
    | fin z => exact this z rfl
    | _ => simp only [Flt.div] at hy; try split_ifs at hy
           all_goals simp at hy

variable {x : List (Flt ℝ)} (h : ∀ v ∈ x, FltBound 201 v) (hl : x.length ≤ 9 * 10 ^ 9)
  {lower upper : Flt ℝ} (hlo : FltBound 201 lower) (hup : FltBound 201 upper) {c : ℝ} (hc : ieeeRound c = c) (h0 : 0 < c) (h1 : c < 1)
  (method : EBMethod) (counts : List (List Nat)) (hd : method = .boot → ValidDraws x.length 1000 counts)
include h hl hlo hup hd

/-- `get_test` does not overflow. -/
theorem getTest_eq (hR : ∀ R, rF ieeeRound (upper.sub lower) = .fin R → R = 0 ∨ 1 / 2 ^ 201 ≤ R) :
    getTestR L x lower upper method counts = getTestR (wideLib L order) x lower upper method counts := by
  have hl' : x.length ≤ 2 ^ 53 := hl.trans (by norm_num)
  cases method with
  | t => exact tTestR_eq H h hl'
  | bernstein => exact bernsteinTestR_eq H h hl (hlo.mono (by norm_num)) (hup.mono (by norm_num)) hR
  | boot => exact bootTestR_eq H h hl' (by norm_num [defaultNBoot]) (hd rfl)
  | other => rfl

include hc h0 h1

/-- `get_mean_and_EB` does not overflow. -/
theorem getMeanEB_eq : getMeanEBR L x (.fin c) (.fin 0) lower upper method counts =
    getMeanEBR (wideLib L order) x (.fin c) (.fin 0) lower upper method counts := by
  have hl' : x.length ≤ 2 ^ 53 := hl.trans (by norm_num)
  obtain ⟨m1, m2⟩ := mean_bound_any H h hl'
  obtain ⟨k1, k2⟩ := clipChk_eq H m2 (hlo.mono (by norm_num)) (hup.mono (by norm_num))
  unfold getMeanEBR
  refine assert_congr rfl fun _ => bind_congr_eq ?_ fun EB _ => ?_
  · cases method with
    | t => exact tEBR_eq H h hl' hc h0 h1
    | bernstein => exact bernsteinEBR_eq H h hl' hlo hup hc h0 h1
    | boot => exact bootEBR_eq H h hl' (by norm_num [defaultNBoot]) (hd rfl) (isDouble_conf H hc h0 h1)
    | other => rfl
  · rw [m1]
    refine bind_congr_eq k1 fun mu hmu => ?_
    rw [clipEB_eq H (k2 mu hmu) (hlo.mono (by norm_num)) (hup.mono (by norm_num))]

/-- `get_mean_EB_test` does not overflow. -/
theorem getMeanEBTest_eq (hR : ∀ R, rF ieeeRound (upper.sub lower) = .fin R → R = 0 ∨ 1 / 2 ^ 201 ≤ R) :
    getMeanEBTestR L x (.fin c) (.fin 0) lower upper method counts =
      getMeanEBTestR (wideLib L order) x (.fin c) (.fin 0) lower upper method counts := by
  have hl' : x.length ≤ 2 ^ 53 := hl.trans (by norm_num)
  obtain ⟨m1, m2⟩ := mean_bound_any H h hl'
  obtain ⟨k1, k2⟩ := clipChk_eq H m2 (hlo.mono (by norm_num)) (hup.mono (by norm_num))
  unfold getMeanEBTestR
  refine assert_congr rfl fun _ => bind_congr_eq ?_ fun r _ => ?_
  · cases method with
    | t =>
      simp only
      rw [tEBR_eq H h hl' hc h0 h1, tTestR_eq H h hl']
    | bernstein =>
      simp only
      rw [bernsteinEBR_eq H h hl' hlo hup hc h0 h1,
        bernsteinTestR_eq H h hl (hlo.mono (by norm_num)) (hup.mono (by norm_num)) hR]
    | boot =>
      simp only
      rw [bootEBTestR_eq H h hl' (nBoot := defaultNBoot) (by norm_num [defaultNBoot]) (hd rfl) (isDouble_conf H hc h0 h1)]
    | other => rfl
  · rw [m1]
    refine bind_congr_eq k1 fun mu hmu => ?_
    rw [clipEB_eq H (k2 mu hmu) (hlo.mono (by norm_num)) (hup.mono (by norm_num))]

end

section
variable {L : Lib ℝ} {order : List ℝ → SumTree ℝ} (H : IeeeLib L order)
include H

/-- One cell does not overflow. -/
theorem cellOf_eq {loss lossRef : List (Flt ℝ)} {n : Nat} (hn : n ≤ 9 * 10 ^ 9) (hll : loss.length = n) (hlr : lossRef.length = n)
    (h : ∀ v ∈ loss, FltBound 200 v) (hr : ∀ v ∈ lossRef, FltBound 200 v) (self pairwise : Bool) {c : ℝ} (hc : ieeeRound c = c)
    (h0 : 0 < c) (h1 : c < 1) (method : EBMethod) {lower upper : Flt ℝ} (hm : ModerateLimits lower upper) {draws : Draws}
    (hd : method = .boot → ValidDraws n 1000 draws.eb) (hd2 : method = .boot → pairwise = false → ValidDraws n 1000 draws.test) :
    cellOfR L loss lossRef self pairwise (.fin c) method lower upper draws =
      cellOfR (wideLib L order) loss lossRef self pairwise (.fin c) method lower upper draws := by
  have hlo : FltBound 200 lower := fun x hx => (hm.1 x hx).2
  have hup : FltBound 200 upper := fun x hx => (hm.2.1 x hx).2
  have hrange := rF_eq' H (hup.sub hlo) (by norm_num)
  have hrb := (hup.sub hlo).rF
  have hdl : List.zipWith (fun a b => rF L.rnd (Flt.sub a b)) loss lossRef =
      List.zipWith (fun a b => rF ieeeRound (Flt.sub a b)) loss lossRef :=
    zipWith_congr_mem fun a ha b hb => rF_eq' H ((h a ha).sub (hr b hb)) (by norm_num)
  have hdb : ∀ v ∈ List.zipWith (fun a b => rF ieeeRound (Flt.sub a b)) loss lossRef, FltBound 201 v := by
    intro v hv
    obtain ⟨a, ha, b, hb, rfl⟩ := mem_zipWith_of hv
    exact ((h a ha).sub (hr b hb)).rF
  have hdn : (List.zipWith (fun a b => rF ieeeRound (Flt.sub a b)) loss lossRef).length = n := by
    rw [List.length_zipWith, hll, hlr, Nat.min_self]
  have h' : ∀ v ∈ loss, FltBound 201 v := fun v hv => (h v hv).mono (by norm_num)
  have wr : (wideLib L order).rnd = ieeeRound := rfl
  unfold cellOfR
  rw [hrange, hdl, (meanFR_eq H (by norm_num) h (by rw [hll]; exact hn.trans (by norm_num))).1, wr]
  refine assert_congr rfl fun _ => assert_congr rfl fun _ => ?_
  simp only
  cases pairwise with
  | true =>
    simp only [if_true]
    rw [getMeanEBTest_eq H hdb (by rw [hdn]; exact hn) hrb.neg hrb hc h0 h1 method draws.eb (by rw [hdn]; exact hd)
      (fun R hR => range_gap hm hR)]
  | false =>
    simp only [Bool.false_eq_true, if_false]
    rw [getMeanEB_eq H h' (by rw [hll]; exact hn) (hlo.mono (by norm_num)) (hup.mono (by norm_num)) hc h0 h1 method draws.eb
      (by rw [hll]; exact hd),
      getTest_eq H hdb (by rw [hdn]; exact hn) hrb.neg hrb method draws.test (by rw [hdn]; exact fun e => hd2 e rfl)
      (fun R hR => range_gap hm hR)]

/-- The table does not depend on what happens on overflow. -/
theorem table_eq {tbl : LossTable} {refMethod : Str} {pairwise : Bool}
    {c : ℝ} (hc : ieeeRound c = c) (h0 : 0 < c) (h1 : c < 1) {methodEB : EBMethod}
    {limits : List (Str × (Flt ℝ × Flt ℝ))} {draws : Str → Str → Draws}
    (hd : methodEB = .boot → ∀ metric method, ValidDraws tbl.nrows 1000 (draws metric method).eb ∧
      (pairwise = false → ValidDraws tbl.nrows 1000 (draws metric method).test)) (hn : tbl.nrows ≤ 9 * 10 ^ 9)
    (hlim : ∀ metric ∈ tbl.metrics, ∀ lower upper, LimitsOf limits metric lower upper → ModerateLimits lower upper)
    (hloss : ∀ metric ∈ tbl.metrics, ∀ method ∈ tbl.methods, ∀ loss, HasLoss tbl metric method loss →
      loss.length = tbl.nrows ∧ ∀ x : ℝ, .fin x ∈ loss → |x| ≤ 2 ^ 200) :
    lossSummaryTableR L tbl refMethod pairwise (.fin c) methodEB limits draws =
      lossSummaryTableR (wideLib L order) tbl refMethod pairwise (.fin c) methodEB limits draws := by
  have hfb : ∀ {loss : List (Flt ℝ)}, (∀ x : ℝ, .fin x ∈ loss → |x| ≤ 2 ^ 200) → ∀ v ∈ loss, FltBound 200 v := by
    intro loss h v hv x hx
    exact h x (hx ▸ hv)
  unfold lossSummaryTableR
  refine assert_congr rfl fun href => assert_congr rfl fun _ => mapM_congr _ _ _ fun metric hmet => ?_
  have href : refMethod ∈ tbl.methods := by simpa using href
  refine assert_congr rfl fun _ => bind_congr_eq rfl fun lossRef hlr => ?_
  refine assert_congr rfl fun _ => assert_congr rfl fun _ => mapM_congr _ _ _ fun method hmeth => ?_
  unfold lossCellR
  refine bind_congr_eq rfl fun loss hls => ?_
  obtain ⟨r1, r2⟩ := hloss metric hmet refMethod href lossRef ((column_ok_iff _ _ _ _).1 hlr)
  obtain ⟨l1, l2⟩ := hloss metric hmet method hmeth loss ((column_ok_iff _ _ _ _).1 hls)
  exact cellOf_eq H hn l1 r1 (hfb l2) (hfb r2) _ _ hc h0 h1 _ (hlim metric hmet _ _ ((limitsGet_spec limits metric _ _).1 rfl))
    (fun e => (hd e metric method).1) (fun e => (hd e metric method).2)


omit H in
theorem forall₂_weaken {α β : Type} {R S : α → β → Prop} {l : List α} {l' : List β} (h : List.Forall₂ R l l')
    (hs : ∀ a ∈ l, ∀ b, R a b → S a b) : List.Forall₂ S l l' := by
  induction h with
  | nil => exact .nil
  | cons h _ ih => exact .cons (hs _ List.mem_cons_self _ h) (ih fun a ha => hs a (List.mem_cons_of_mem _ ha))

omit H in
theorem moderate_limits {tbl : LossTable} {limits : List (Str × (Flt ℝ × Flt ℝ))} {P : Str → Flt ℝ → Flt ℝ → Prop}
    (hfin : ∀ metric ∈ tbl.metrics, ∃ lower upper, LimitsOf limits metric lower upper ∧
      ValidLimits lower upper ∧ ModerateLimits lower upper ∧ P metric lower upper) :
    ∀ metric ∈ tbl.metrics, ∀ lower upper, LimitsOf limits metric lower upper → ModerateLimits lower upper := by
  intro metric hm lower upper hl
  obtain ⟨lower', upper', a, -, m, -⟩ := hfin metric hm
  obtain ⟨rfl, rfl⟩ := limitsOf_unique hl a
  exact m

omit H in
theorem moderate_losses {tbl : LossTable} {limits : List (Str × (Flt ℝ × Flt ℝ))}
    (hfin : ∀ metric ∈ tbl.metrics, ∃ lower upper, LimitsOf limits metric lower upper ∧
      ValidLimits lower upper ∧ ModerateLimits lower upper ∧ ∀ method ∈ tbl.methods, ∃ xs : List ℝ,
        HasLoss tbl metric method (finVec xs) ∧ xs.length = tbl.nrows ∧ Within lower upper xs ∧ ∀ x ∈ xs, |x| ≤ 2 ^ 200) :
    ∀ metric ∈ tbl.metrics, ∀ method ∈ tbl.methods, ∀ loss, HasLoss tbl metric method loss →
      loss.length = tbl.nrows ∧ ∀ x : ℝ, .fin x ∈ loss → |x| ≤ 2 ^ 200 := by
  intro metric hm method hmeth loss hl
  obtain ⟨lower, upper, -, -, -, d⟩ := hfin metric hm
  obtain ⟨xs, d1, d2, -, d4⟩ := d method hmeth
  rw [hasLoss_unique hl d1]
  refine ⟨by simpa [finVec] using d2, fun x hx => ?_⟩
  obtain ⟨y, hy, e⟩ := List.mem_map.1 hx
  rw [← Flt.fin.inj e]
  exact d4 y hy

theorem mean_loss_eq {n : Nat} (hn : n ≤ 9 * 10 ^ 9) (h1 : 1 ≤ n) {xs : List ℝ}
    (h : (finVec xs).length = n ∧ ∀ x : ℝ, .fin x ∈ finVec xs → |x| ≤ 2 ^ 200) : meanR L xs = meanR (wideLib L order) xs := by
  have hl : xs.length = n := by simpa [finVec] using h.1
  refine (mean_eq H (e := 200) (by norm_num) ?_ (fun v hv => h.2 v (List.mem_map_of_mem hv)) ?_).1
  · rintro rfl
    simp at hl
    omega
  · rw [hl]
    exact hn.trans (by norm_num)

/-- Replacing the rounding by another one that agrees where nothing overflows. -/
theorem IeeeLib.replace {rnd' : ℝ → ℝ} (h : FollowsIeee rnd') : IeeeLib { L with rnd := rnd', sum := sumBy order rnd' } order :=
  { H with rnd := h, sum := fun _ => rfl }

/-- **C129.**  No operation of `loss_summary_table` overflows: the outcome is the same whatever an overflowing operation
would give.  The losses may be infinite or NaN; finite losses are at most `2 ^ 200` (about `1.6e60`) in absolute value, and limits are
moderate in the same way.  The table may have up to nine thousand million rows. -/
theorem C129_no_overflow {rnd' : ℝ → ℝ} (hrnd : FollowsIeee rnd') {tbl : LossTable} {refMethod : Str} {pairwise : Bool}
    {c : ℝ} (hc : ieeeRound c = c) (h0 : 0 < c) (h1 : c < 1) {methodEB : EBMethod}
    {limits : List (Str × (Flt ℝ × Flt ℝ))} {draws : Str → Str → Draws}
    (hd : methodEB = .boot → ∀ metric method, ValidDraws tbl.nrows 1000 (draws metric method).eb ∧
      (pairwise = false → ValidDraws tbl.nrows 1000 (draws metric method).test)) (hn : tbl.nrows ≤ 9 * 10 ^ 9)
    (hlim : ∀ metric ∈ tbl.metrics, ∀ lower upper, LimitsOf limits metric lower upper → ModerateLimits lower upper)
    (hloss : ∀ metric ∈ tbl.metrics, ∀ method ∈ tbl.methods, ∀ loss, HasLoss tbl metric method loss →
      loss.length = tbl.nrows ∧ ∀ x : ℝ, .fin x ∈ loss → |x| ≤ 2 ^ 200) :
    lossSummaryTableR { L with rnd := rnd', sum := sumBy order rnd' } tbl refMethod pairwise (.fin c) methodEB limits draws =
      lossSummaryTableR L tbl refMethod pairwise (.fin c) methodEB limits draws := by
  rw [table_eq H hc h0 h1 hd hn hlim hloss, table_eq (IeeeLib.replace H hrnd) hc h0 h1 hd hn hlim hloss]
  rfl

omit H in
theorem _root_.Mlp.Spec.ModerateLimits.ieee {lower upper : Flt ℝ} (h : ModerateLimits lower upper) : IeeeLimits lower upper := by
  refine ⟨fun l hl => (h.1 l hl).1, fun u hu => (h.2.1 u hu).1, fun l u hl hu => (h.2.2 l u hl hu).imp id fun h' => le_trans ?_ h'⟩
  exact one_div_le_one_div_of_le (by positivity) (pow_le_of (by norm_num))

/-- **C129, with `pairwise_CI`.**  In IEEE arithmetic, with overflow as well as gradual underflow, the table is produced for all finite
losses up to `2 ^ 200` within moderate limits, for up to nine thousand million rows, every confidence level in (0,1) that
is a double, every method and all bootstrap draws. -/
theorem C129_paired {tbl : LossTable} {refMethod : Str}
    {c : ℝ} (hc : ieeeRound c = c) (h0 : 0 < c) (h1 : c < 1) {methodEB : EBMethod} (hme : methodEB ≠ .other)
    {limits : List (Str × (Flt ℝ × Flt ℝ))} {draws : Str → Str → Draws}
    (hd : methodEB = .boot → ∀ metric method, ValidDraws tbl.nrows 1000 (draws metric method).eb)
    (href : refMethod ∈ tbl.methods) (hrows : 1 ≤ tbl.nrows) (hn : tbl.nrows ≤ 9 * 10 ^ 9) (hmetrics : tbl.metrics ≠ [])
    (hfin : ∀ metric ∈ tbl.metrics, ∃ lower upper, LimitsOf limits metric lower upper ∧
      ValidLimits lower upper ∧ ModerateLimits lower upper ∧ ∀ method ∈ tbl.methods, ∃ xs : List ℝ,
        HasLoss tbl metric method (finVec xs) ∧ xs.length = tbl.nrows ∧ Within lower upper xs ∧ ∀ x ∈ xs, |x| ≤ 2 ^ 200) :
    ∃ out, lossSummaryTableR L tbl refMethod true (.fin c) methodEB limits draws = .ok out ∧
      List.Forall₂ (fun metric row => List.Forall₂ (fun method cell =>
        (∃ xs : List ℝ, HasLoss tbl metric method (finVec xs) ∧ cell.1 = .fin (meanR L xs)) ∧
        (method = refMethod → cell.2 = (.nan, .nan)) ∧
        (method ≠ refMethod → cell.2.1 ≠ .nan ∧ .fin 0 ≤ cell.2.1 ∧ ∃ p : ℝ, cell.2.2 = .fin p ∧ 0 ≤ p ∧ p ≤ 1))
        tbl.methods row) tbl.metrics out := by
  obtain ⟨out, e, ho⟩ := C128_ieee_paired (wide_sign H) rfl hc h0 h1 hme hd href hrows hn hmetrics (limits := limits)
    (fun metric hm => by
      obtain ⟨lower, upper, a, b, m, d⟩ := hfin metric hm
      refine ⟨lower, upper, a, b, m.ieee, fun method hmeth => ?_⟩
      obtain ⟨xs, d1, d2, d3, -⟩ := d method hmeth
      exact ⟨xs, d1, d2, d3⟩)
  have hloss := moderate_losses hfin
  refine ⟨out, ?_, ?_⟩
  · rw [table_eq H hc h0 h1 (fun e metric method => ⟨hd e metric method, by simp⟩) hn (moderate_limits hfin) hloss, e]
  · refine forall₂_weaken ho fun metric hmet row hrow => forall₂_weaken hrow fun method hmeth cell hcell => ?_
    obtain ⟨⟨xs, x1, x2⟩, hrest⟩ := hcell
    refine ⟨⟨xs, x1, ?_⟩, hrest⟩
    rw [x2, mean_loss_eq H hn hrows (hloss metric hmet method hmeth _ x1)]

/-- **C129, without `pairwise_CI`.**  The same for losses that are doubles: if every computed mean lies within the limits, the
table is produced; if one does not, the call ends in an AssertionError. -/
theorem C129_unpaired {tbl : LossTable} {refMethod : Str}
    {c : ℝ} (hc : ieeeRound c = c) (h0 : 0 < c) (h1 : c < 1) {methodEB : EBMethod} (hme : methodEB ≠ .other)
    {limits : List (Str × (Flt ℝ × Flt ℝ))} {draws : Str → Str → Draws}
    (hd : methodEB = .boot → ∀ metric method, ValidDraws tbl.nrows 1000 (draws metric method).eb ∧
      ValidDraws tbl.nrows 1000 (draws metric method).test)
    (href : refMethod ∈ tbl.methods) (hrows : 1 ≤ tbl.nrows) (hn : tbl.nrows ≤ 9 * 10 ^ 9) (hmetrics : tbl.metrics ≠ [])
    (hfin : ∀ metric ∈ tbl.metrics, ∃ lower upper, LimitsOf limits metric lower upper ∧
      ValidLimits lower upper ∧ ModerateLimits lower upper ∧ ∀ method ∈ tbl.methods, ∃ xs : List ℝ,
        HasLoss tbl metric method (finVec xs) ∧ xs.length = tbl.nrows ∧ Within lower upper xs ∧ ∀ x ∈ xs, ieeeRound x = x ∧ |x| ≤ 2 ^ 200) :
    ((∀ metric ∈ tbl.metrics, ∀ method ∈ tbl.methods, ∀ lower upper, ∀ xs : List ℝ, LimitsOf limits metric lower upper →
        HasLoss tbl metric method (finVec xs) → lower ≤ .fin (meanR L xs) ∧ .fin (meanR L xs) ≤ upper) →
      ∃ out, lossSummaryTableR L tbl refMethod false (.fin c) methodEB limits draws = .ok out ∧
      List.Forall₂ (fun metric row => List.Forall₂ (fun method cell =>
        (∃ xs : List ℝ, HasLoss tbl metric method (finVec xs) ∧ cell.1 = .fin (meanR L xs)) ∧
        cell.2.1 ≠ .nan ∧ .fin 0 ≤ cell.2.1 ∧
        (method = refMethod → cell.2.2 = .nan) ∧
        (method ≠ refMethod → ∃ p : ℝ, cell.2.2 = .fin p ∧ 0 ≤ p ∧ p ≤ 1))
        tbl.methods row) tbl.metrics out) ∧
    (∀ metric ∈ tbl.metrics, ∀ method ∈ tbl.methods, ∀ lower upper, ∀ xs : List ℝ, LimitsOf limits metric lower upper →
        HasLoss tbl metric method (finVec xs) → ¬ (lower ≤ .fin (meanR L xs) ∧ .fin (meanR L xs) ≤ upper) →
      lossSummaryTableR L tbl refMethod false (.fin c) methodEB limits draws = .error .assertion) := by
  have hfin' : ∀ metric ∈ tbl.metrics, ∃ lower upper, LimitsOf limits metric lower upper ∧
      ValidLimits lower upper ∧ ModerateLimits lower upper ∧ ∀ method ∈ tbl.methods, ∃ xs : List ℝ,
        HasLoss tbl metric method (finVec xs) ∧ xs.length = tbl.nrows ∧ Within lower upper xs ∧ ∀ x ∈ xs, |x| ≤ 2 ^ 200 := by
    intro metric hm
    obtain ⟨lower, upper, a, b, m, d⟩ := hfin metric hm
    refine ⟨lower, upper, a, b, m, fun method hmeth => ?_⟩
    obtain ⟨xs, d1, d2, d3, d4⟩ := d method hmeth
    exact ⟨xs, d1, d2, d3, fun x hx => (d4 x hx).2⟩
  have hloss := moderate_losses hfin'
  rw [table_eq H hc h0 h1 (fun e metric method => ⟨(hd e metric method).1, fun _ => (hd e metric method).2⟩) hn
    (moderate_limits hfin') hloss]
  obtain ⟨t1, t2⟩ := C128_ieee_unpaired (wide_sign H) rfl hc h0 h1 hme hd href hrows hn hmetrics (limits := limits)
    (fun metric hm => by
      obtain ⟨lower, upper, a, b, m, d⟩ := hfin metric hm
      refine ⟨lower, upper, a, b, m.ieee, fun method hmeth => ?_⟩
      obtain ⟨xs, d1, d2, d3, d4⟩ := d method hmeth
      exact ⟨xs, d1, d2, d3, fun x hx => (d4 x hx).1⟩)
  constructor
  · intro hmean
    obtain ⟨out, e, ho⟩ := t1 fun metric hmet method hmeth lower upper xs a b => by
      rw [← mean_loss_eq H hn hrows (hloss metric hmet method hmeth _ b)]
      exact hmean metric hmet method hmeth lower upper xs a b
    refine ⟨out, e, ?_⟩
    refine forall₂_weaken ho fun metric hmet row hrow => forall₂_weaken hrow fun method hmeth cell hcell => ?_
    obtain ⟨⟨xs, x1, x2⟩, hrest⟩ := hcell
    refine ⟨⟨xs, x1, ?_⟩, hrest⟩
    rw [x2, mean_loss_eq H hn hrows (hloss metric hmet method hmeth _ x1)]
  · intro metric hmet method hmeth lower upper xs a b hnot
    refine t2 metric hmet method hmeth lower upper xs a b ?_
    rwa [← mean_loss_eq H hn hrows (hloss metric hmet method hmeth _ b)]

/-- **C129, integer limits.**  Without `pairwise_CI` the table is produced if the limits are infinite or integers whose product with
the number of rows is at most `2 ^ 53`, as for the losses between 0 and 1. -/
theorem C129_integers {tbl : LossTable} {refMethod : Str}
    {c : ℝ} (hc : ieeeRound c = c) (h0 : 0 < c) (h1 : c < 1) {methodEB : EBMethod} (hme : methodEB ≠ .other)
    {limits : List (Str × (Flt ℝ × Flt ℝ))} {draws : Str → Str → Draws}
    (hd : methodEB = .boot → ∀ metric method, ValidDraws tbl.nrows 1000 (draws metric method).eb ∧
      ValidDraws tbl.nrows 1000 (draws metric method).test)
    (href : refMethod ∈ tbl.methods) (hrows : 1 ≤ tbl.nrows) (hn : tbl.nrows ≤ 9 * 10 ^ 9) (hmetrics : tbl.metrics ≠ [])
    (hfin : ∀ metric ∈ tbl.metrics, ∃ lower upper, LimitsOf limits metric lower upper ∧ ValidLimits lower upper ∧
      (∀ l, lower = .fin l → ∃ v : ℤ, l = v ∧ tbl.nrows * |v| ≤ 2 ^ 53) ∧
      (∀ h, upper = .fin h → ∃ v : ℤ, h = v ∧ tbl.nrows * |v| ≤ 2 ^ 53) ∧ ∀ method ∈ tbl.methods, ∃ xs : List ℝ,
        HasLoss tbl metric method (finVec xs) ∧ xs.length = tbl.nrows ∧ Within lower upper xs ∧ ∀ x ∈ xs, ieeeRound x = x ∧ |x| ≤ 2 ^ 200) :
    ∃ out, lossSummaryTableR L tbl refMethod false (.fin c) methodEB limits draws = .ok out ∧
      List.Forall₂ (fun metric row => List.Forall₂ (fun method cell =>
        (∃ xs : List ℝ, HasLoss tbl metric method (finVec xs) ∧ cell.1 = .fin (meanR L xs)) ∧
        cell.2.1 ≠ .nan ∧ .fin 0 ≤ cell.2.1 ∧
        (method = refMethod → cell.2.2 = .nan) ∧
        (method ≠ refMethod → ∃ p : ℝ, cell.2.2 = .fin p ∧ 0 ≤ p ∧ p ≤ 1))
        tbl.methods row) tbl.metrics out := by
  have int : ∀ {v : ℤ}, tbl.nrows * |v| ≤ 2 ^ 53 → ieeeRound (v : ℝ) = v ∧ |(v : ℝ)| ≤ 2 ^ 200 := by
    intro v hv
    have h1 : |v| ≤ 2 ^ 53 := le_trans (le_mul_of_one_le_left (abs_nonneg v) (by exact_mod_cast hrows)) hv
    have h2 : |(v : ℝ)| ≤ 2 ^ 53 := by rw [← Int.cast_abs]; exact_mod_cast h1
    exact ⟨ieeeRound_int h1, le_pow h2 (by norm_num)⟩
  have hfin' : ∀ metric ∈ tbl.metrics, ∃ lower upper, LimitsOf limits metric lower upper ∧
      ValidLimits lower upper ∧ ModerateLimits lower upper ∧ ∀ method ∈ tbl.methods, ∃ xs : List ℝ,
        HasLoss tbl metric method (finVec xs) ∧ xs.length = tbl.nrows ∧ Within lower upper xs ∧ ∀ x ∈ xs, |x| ≤ 2 ^ 200 := by
    intro metric hm
    obtain ⟨lower, upper, a, b, i1, i2, d⟩ := hfin metric hm
    refine ⟨lower, upper, a, b, ⟨?_, ?_, ?_⟩, fun method hmeth => ?_⟩
    · intro l hl
      obtain ⟨v, rfl, hv⟩ := i1 l hl
      exact int hv
    · intro l hl
      obtain ⟨v, rfl, hv⟩ := i2 l hl
      exact int hv
    · rintro l h rfl rfl
      obtain ⟨v, rfl, -⟩ := i1 l rfl
      obtain ⟨w, rfl, -⟩ := i2 h rfl
      rcases eq_or_ne v w with e | e
      · exact .inl (by rw [e])
      · right
        have hle : (v : ℝ) ≤ w := Flt.fin_le_fin.1 b.2.2.1
        have hle' : v ≤ w := by exact_mod_cast hle
        have h1 : v + 1 ≤ w := by omega
        have h1' : (v : ℝ) + 1 ≤ w := by exact_mod_cast h1
        have : (1 : ℝ) / 2 ^ 200 ≤ 1 := by
          rw [div_le_one (by positivity)]
          exact one_le_pow₀ (by norm_num)
        linarith
    · obtain ⟨xs, d1, d2, d3, d4⟩ := d method hmeth
      exact ⟨xs, d1, d2, d3, fun x hx => (d4 x hx).2⟩
  have hloss := moderate_losses hfin'
  rw [table_eq H hc h0 h1 (fun e metric method => ⟨(hd e metric method).1, fun _ => (hd e metric method).2⟩) hn
    (moderate_limits hfin') hloss]
  obtain ⟨out, e, ho⟩ := C128_ieee_integers (wide_sign H) rfl hc h0 h1 hme hd href hrows hn hmetrics (limits := limits)
    (fun metric hm => by
      obtain ⟨lower, upper, a, b, i1, i2, d⟩ := hfin metric hm
      refine ⟨lower, upper, a, b, i1, i2, fun method hmeth => ?_⟩
      obtain ⟨xs, d1, d2, d3, d4⟩ := d method hmeth
      exact ⟨xs, d1, d2, d3, fun x hx => (d4 x hx).1⟩)
  refine ⟨out, e, ?_⟩
  refine forall₂_weaken ho fun metric hmet row hrow => forall₂_weaken hrow fun method hmeth cell hcell => ?_
  obtain ⟨⟨xs, x1, x2⟩, hrest⟩ := hcell
  refine ⟨⟨xs, x1, ?_⟩, hrest⟩
  rw [x2, mean_loss_eq H hn hrows (hloss metric hmet method hmeth _ x1)]

/-- **C129, accuracy.**  The mean of `n` doubles up to `2 ^ 900` differs from their average by at most `2 n / 2 ^ 53` times the average of
their absolute values plus `2 ^ -1022`, in every order of summation. -/
theorem C129_mean {xs : List ℝ} (hne : xs ≠ []) (hn : xs.length ≤ 9 * 10 ^ 9)
    (hx : ∀ x ∈ xs, ieeeRound x = x ∧ |x| ≤ 2 ^ 900) :
    |meanR L xs - avg xs| ≤ 2 * (xs.length / 2 ^ 53) * avgAbs xs + 1 / 2 ^ 1022 := by
  rw [(mean_eq H (e := 900) (by norm_num) hne (fun v hv => (hx v hv).2) (hn.trans (by norm_num))).1]
  exact C128_mean (L := wideLib L order) rfl (wide_sign H).sum hne hn fun x h => (hx x h).1

end
end Mlp.Props
