import Verif.Props.StatsIeee

/-! # No operation of `mlpaper.py` overflows on moderate data: Bernstein bounds, bootstrap and clipping -/

namespace Mlp.Props
open Mlp.Paper Mlp.PaperR Mlp.PerfR Mlp.BootR Mlp.Boot Mlp.Spec Mlp.Lemmas Mlp.Round

theorem ieeeRound_inv_pow {k : Nat} (h : k ≤ 1022) : ieeeRound ((1 : ℝ) / 2 ^ k) = 1 / 2 ^ k := by
  rw [ieeeRound_big]
  · have := binary64_exact (K := ℝ) 1 (-(k : Int)) (by norm_num)
    simpa [zpow_neg] using this
  · rw [abs_of_pos (by positivity), one_div]
    exact inv_anti₀ (by positivity) (pow_le_of h)

theorem ieee_ge {x : ℝ} {k : Nat} (hk : k ≤ 1022) (h : 1 / 2 ^ k ≤ x) : 1 / 2 ^ k ≤ ieeeRound x := by
  have := ieeeRound_mono h
  rwa [ieeeRound_inv_pow hk] at this

theorem ieee_nonneg {x : ℝ} (h : 0 ≤ x) : 0 ≤ ieeeRound x := by
  have := ieeeRound_mono h
  rwa [ieeeRound_monoRounding.zero] at this

theorem abs_ub {x : ℝ} {e : Nat} (h0 : 0 ≤ x) (h : x ≤ 2 ^ e) : |x| ≤ 2 ^ e := by rwa [abs_of_nonneg h0]

theorem prod_ub {x y : ℝ} {a b c : Nat} (hx : |x| ≤ 2 ^ a) (hy : |y| ≤ 2 ^ b) (hc : a + b ≤ c) : |x * y| ≤ 2 ^ c := by
  refine le_pow ?_ hc
  rw [abs_mul, pow_add]
  exact mul_le_mul hx hy (abs_nonneg _) (by positivity)

section
variable {L : Lib ℝ} {order : List ℝ → SumTree ℝ} (H : IeeeLib L order)
include H

/-- `bernstein_EB` does not overflow. -/
theorem bernsteinEBR_eq {x : List (Flt ℝ)} (h : ∀ v ∈ x, FltBound 201 v) (hl : x.length ≤ 2 ^ 53) {lower upper : Flt ℝ}
    (hlo : FltBound 201 lower) (hup : FltBound 201 upper) {c : ℝ} (hc : ieeeRound c = c) (h0 : 0 < c) (h1 : c < 1) :
    bernsteinEBR L x lower upper (.fin c) = bernsteinEBR (wideLib L order) x lower upper (.fin c) := by
  have hr := rF_eq' H (hup.sub hlo) (by norm_num)
  have hrb := (hup.sub hlo).rF
  unfold bernsteinEBR
  rw [hr]
  refine assert_congr rfl fun _ => assert_congr rfl fun _ => assert_congr rfl fun _ => assert_congr rfl fun _ => ?_
  split_ifs with hu
  · rfl
  obtain ⟨xs, rfl, h2⟩ := informative (by simpa using hu)
  have hb := finVec_bound H h
  rw [show (finVec xs).length = xs.length by simp [finVec]] at hl
  obtain ⟨v1, v2, v3, s0, s1⟩ := std_bound H h2 hb hl zero_le_one
  have h2' : (2 : ℝ) ≤ xs.length := by exact_mod_cast h2
  rw [finVals_finVec]
  have wr : (wideLib L order).rnd = ieeeRound := rfl
  have ws : (wideLib L order).sqrt = L.sqrt := rfl
  have wl : (wideLib L order).log = L.log := rfl
  simp only [numOf, v1, wr, ws, wl]
  generalize varR (wideLib L order) 0 xs = V at *
  generalize rF ieeeRound (upper.sub lower) = R at *
  have d1 : |1 - c| ≤ 2 ^ 0 := abs_ub (by linarith) (by norm_num; linarith)
  have d2 : 1 / 2 ^ 53 ≤ ieeeRound (1 - c) := ieee_ge (by norm_num) (float_lt_one hc h0 h1)
  have d3 := ieee_bound d1
  rw [rnd_eq H.rnd d1 (by norm_num)]
  generalize ieeeRound (1 - c) = d at *
  have d0 : 0 < d := lt_of_lt_of_le (by positivity) d2
  rw [abs_of_pos d0, pow_zero] at d3
  have f1 : 3 / d ≤ 2 ^ 55 := by
    rw [div_le_iff₀ d0]
    have := mul_le_mul_of_nonneg_left d2 (show (0 : ℝ) ≤ 2 ^ 55 by positivity)
    norm_num at this ⊢
    linarith
  have f2 : 2 ≤ 3 / d := by
    rw [le_div_iff₀ d0]
    linarith
  have f3 : 2 ≤ ieeeRound (3 / d) := by
    have := ieeeRound_mono f2
    have e : ieeeRound (2 : ℝ) = 2 := by simpa using ieeeRound_pow 1
    rwa [e] at this
  have f4 := ieee_bound (abs_ub (by linarith) f1)
  rw [rnd_eq H.rnd (abs_ub (by linarith) f1) (by norm_num)]
  rw [abs_of_nonneg (by linarith)] at f4
  have A1 := H.log_ge _ f3
  have A2 := (H.log_le _ f3).trans f4
  generalize L.log (ieeeRound (3 / d)) = A at *
  have A3 : |A| ≤ 2 ^ 55 := abs_ub (by linarith) A2
  have g1 : |2 * A| ≤ 2 ^ 56 := prod_ub (a := 1) (b := 55) (by norm_num) A3 (by norm_num)
  have g2 : |3 * A| ≤ 2 ^ 57 := prod_ub (a := 2) (b := 55) (by norm_num) A3 (by norm_num)
  have g3 : 0 ≤ ieeeRound (2 * A) := ieee_nonneg (by linarith)
  have g4 := ieee_bound g1
  rw [abs_of_nonneg g3] at g4
  have g5 : |ieeeRound (2 * A) / xs.length| ≤ 2 ^ 56 := by
    refine abs_ub (by positivity) ?_
    rw [div_le_iff₀ (by linarith)]
    exact g4.trans (le_mul_of_one_le_right (by positivity) (by linarith))
  have g6 : 0 ≤ ieeeRound (ieeeRound (2 * A) / xs.length) := ieee_nonneg (by positivity)
  have g7 := ieee_bound g5
  rw [abs_of_nonneg g6] at g7
  have g8 : |L.sqrt (ieeeRound (ieeeRound (2 * A) / xs.length))| ≤ 2 ^ 29 :=
    abs_ub (H.sqrt_nonneg _ g6) (sqrt_bound H (k := 28) (ieeeRound_idem _) g6 g7)
  have g9 := prod_ub (c := 233) (abs_ub s0 s1) g8 (by norm_num)
  have k1 := (FltBound.fin (ieee_bound g2)).mul hrb
  have k2 := k1.rF.div_nat (n := xs.length) (by omega)
  have k3 := ((FltBound.fin (ieee_bound g9)).mono (show 233 ≤ 259 by norm_num)).add k2.rF
  rw [rnd_eq H.rnd g1 (by norm_num), rnd_eq H.rnd g2 (by norm_num), rnd_eq H.rnd g5 (by norm_num), rnd_eq H.rnd g9 (by norm_num),
    rF_eq' H k1 (by norm_num), rF_eq' H k2 (by norm_num), rF_eq' H k3 (by norm_num)]

/-- `bernstein_test` does not overflow. -/
theorem bernsteinTestR_eq {x : List (Flt ℝ)} (h : ∀ v ∈ x, FltBound 201 v) (hl : x.length ≤ 9 * 10 ^ 9) {lower upper : Flt ℝ}
    (hlo : FltBound 202 lower) (hup : FltBound 202 upper)
    (hR : ∀ R, rF ieeeRound (upper.sub lower) = .fin R → R = 0 ∨ 1 / 2 ^ 201 ≤ R) :
    bernsteinTestR L x lower upper = bernsteinTestR (wideLib L order) x lower upper := by
  have hr := rF_eq' H (hup.sub hlo) (by norm_num)
  have hrb := (hup.sub hlo).rF
  have hw : rF (wideLib L order).rnd (upper.sub lower) = rF ieeeRound (upper.sub lower) := rfl
  unfold bernsteinTestR
  rw [hr, hw]
  refine assert_congr rfl fun _ => assert_congr rfl fun _ => assert_congr rfl fun _ => ?_
  split_ifs with hu
  · rfl
  obtain ⟨xs, rfl, h2⟩ := informative (by simpa using hu)
  have hb := finVec_bound H h
  rw [show (finVec xs).length = xs.length by simp [finVec]] at hl
  have hl' : xs.length ≤ 2 ^ 53 := hl.trans (by norm_num)
  have hne : xs ≠ [] := by rintro rfl; simp at h2
  have h2' : (2 : ℝ) ≤ xs.length := by exact_mod_cast h2
  have hl2 : (xs.length : ℝ) ≤ 2 ^ 34 := by
    have : (xs.length : ℝ) ≤ 9 * 10 ^ 9 := by exact_mod_cast hl
    norm_num
    linarith
  generalize rF ieeeRound (upper.sub lower) = v at *
  cases v with
  | fin R =>
    simp only
    split_ifs with hz
    · rfl
    have R1 : 1 / 2 ^ 201 ≤ R := (hR R rfl).resolve_left hz
    have R0 : 0 < R := lt_of_lt_of_le (by positivity) R1
    have R2 : |R| ≤ 2 ^ 203 := hrb R rfl
    obtain ⟨v1, v2, v3, s0, s1⟩ := std_bound H h2 hb hl' zero_le_one
    obtain ⟨m1, m2⟩ := mean_eq H (e := 201) (by norm_num) hne hb hl'
    rw [finVals_finVec, v1, m1]
    generalize varR (wideLib L order) 0 xs = V at *
    generalize meanR (wideLib L order) xs = m at *
    have a1 : |3 * R| ≤ 2 ^ 205 := prod_ub (a := 2) (by norm_num) R2 (by norm_num)
    have a2 : 1 / 2 ^ 201 ≤ ieeeRound (3 * R) := ieee_ge (by norm_num) (by linarith)
    have a0 : 0 < ieeeRound (3 * R) := lt_of_lt_of_le (by positivity) a2
    have a3 := ieee_bound a1
    rw [abs_of_pos a0] at a3
    have a4 : |ieeeRound (3 * R) / xs.length| ≤ 2 ^ 205 := by
      refine abs_ub (by positivity) ?_
      rw [div_le_iff₀ (by linarith)]
      exact a3.trans (le_mul_of_one_le_right (by positivity) (by linarith))
    have a5 : 1 / 2 ^ 235 ≤ ieeeRound (3 * R) / xs.length := by
      rw [le_div_iff₀ (by linarith)]
      refine le_trans ?_ a2
      rw [show 235 = 201 + 34 by norm_num, pow_add, ← div_div, div_mul_eq_mul_div, div_le_iff₀ (by positivity)]
      exact mul_le_mul_of_nonneg_left hl2 (by positivity)
    have a6 := ieee_ge (by norm_num) a5
    have a7 := (le_abs_self _).trans (ieee_bound a4)
    have b1 : |(2 : ℝ) / xs.length| ≤ 2 ^ 0 := by
      refine abs_ub (by positivity) ?_
      rw [div_le_iff₀ (by linarith)]
      linarith
    have b2 : 0 ≤ ieeeRound ((2 : ℝ) / xs.length) := ieee_nonneg (by positivity)
    have b3 := (le_abs_self _).trans (ieee_bound b1)
    have b4 : |L.sqrt (ieeeRound (2 / xs.length))| ≤ 2 ^ 1 := abs_ub (H.sqrt_nonneg _ b2) (sqrt_bound H (k := 0) (ieeeRound_idem _) b2 b3)
    have b5 := prod_ub (c := 205) (abs_ub s0 s1) b4 (by norm_num)
    have b6 : 0 ≤ ieeeRound (L.sqrt V * L.sqrt (ieeeRound (2 / xs.length))) :=
      ieee_nonneg (mul_nonneg s0 (H.sqrt_nonneg _ b2))
    have b7 := (le_abs_self _).trans (ieee_bound b5)
    have hrr : RootsRange (ieeeRound (ieeeRound (3 * R) / xs.length)) (ieeeRound (L.sqrt V * L.sqrt (ieeeRound (2 / xs.length)))) (-|m|) := by
      refine ⟨le_trans ?_ a6, le_pow a7 (by norm_num), b6, le_pow b7 (by norm_num), by simp, by rw [neg_neg]; exact le_pow m2 (by norm_num)⟩
      exact one_div_le_one_div_of_le (by positivity) (pow_le_of (by norm_num))
    rw [rnd_eq H.rnd a1 (by norm_num), rnd_eq H.rnd a4 (by norm_num), rnd_eq H.rnd b1 (by norm_num), rnd_eq H.rnd b5 (by norm_num)]
    have hw2 : (wideLib L order).roots ((wideLib L order).rnd ((wideLib L order).rnd (3 * R) / xs.length))
        ((wideLib L order).rnd ((wideLib L order).sqrt V * (wideLib L order).sqrt ((wideLib L order).rnd (2 / xs.length)))) (-|m|) =
        L.roots (ieeeRound (ieeeRound (3 * R) / xs.length)) (ieeeRound (L.sqrt V * L.sqrt (ieeeRound (2 / xs.length)))) (-|m|) := by
      unfold wideLib
      simp only
      rw [if_pos hrr]
    rw [hw2]
    obtain ⟨r₁, r₂, e, -, -, c1, c2⟩ := H.roots _ _ _ hrr
    rw [e]
    simp only
    refine assert_congr rfl fun _ => assert_congr rfl fun _ => ?_
    have c3 : |max r₁ r₂| ≤ 2 ^ 500 := by rcases max_choice r₁ r₂ with h | h <;> rw [h] <;> assumption
    have c4 := prod_ub (c := 1000) c3 c3 (by norm_num)
    rw [rnd_eq H.rnd c4 (by norm_num)]
    have c5 : 0 ≤ ieeeRound (max r₁ r₂ * max r₁ r₂) := ieee_nonneg (mul_self_nonneg _)
    have c6 : |L.exp (-ieeeRound (max r₁ r₂ * max r₁ r₂))| ≤ 2 ^ 0 := abs_ub (H.exp_nonneg _) (by simpa using H.exp_le _ (by linarith))
    rw [rnd_eq H.rnd (prod_ub (a := 2) (c := 2) (by norm_num) c6 (by norm_num)) (by norm_num)]
    rfl
  | _ => rfl

/-- The means of resampled data sets do not overflow. -/
theorem resampled_eq {xs : List ℝ} (h2 : 2 ≤ xs.length) (hb : ∀ v ∈ xs, |v| ≤ 2 ^ 201) (hl : xs.length ≤ 2 ^ 53) {nBoot : Nat}
    {counts : List (List Nat)} (hd : ValidDraws xs.length nBoot counts) :
    resampledMeansR L xs counts = resampledMeansR (wideLib L order) xs counts ∧
      ∀ v ∈ resampledMeansR (wideLib L order) xs counts, ieeeRound v = v ∧ |v| ≤ 2 ^ 255 := by
  have h2' : (2 : ℝ) ≤ xs.length := by exact_mod_cast h2
  have key : ∀ row ∈ counts, L.rnd (L.sum (List.zipWith (fun (a : ℝ) (b : Nat) => L.rnd (a * (b : ℝ))) xs row) / (xs.length : ℝ)) =
      ieeeRound ((wideLib L order).sum (List.zipWith (fun (a : ℝ) (b : Nat) => ieeeRound (a * (b : ℝ))) xs row) / (xs.length : ℝ)) ∧
      |ieeeRound ((wideLib L order).sum (List.zipWith (fun (a : ℝ) (b : Nat) => ieeeRound (a * (b : ℝ))) xs row) / (xs.length : ℝ))| ≤ 2 ^ 255 := by
    intro row hrow
    have hp : ∀ a ∈ xs, ∀ b ∈ row, |a * (b : ℝ)| ≤ 2 ^ 254 := by
      intro a ha b hb'
      refine prod_ub (hb a ha) (b := 53) ?_ (by norm_num)
      rw [abs_of_nonneg (by positivity)]
      have : b ≤ row.sum := List.single_le_sum (by simp) _ hb'
      rw [(hd.2.2 row hrow).2] at this
      exact_mod_cast this.trans hl
    have e : List.zipWith (fun (a : ℝ) (b : Nat) => L.rnd (a * (b : ℝ))) xs row =
        List.zipWith (fun (a : ℝ) (b : Nat) => ieeeRound (a * (b : ℝ))) xs row :=
      zipWith_congr_mem fun a ha b hb' => rnd_eq H.rnd (hp a ha b hb') (by norm_num)
    have hlen : (List.zipWith (fun (a : ℝ) (b : Nat) => ieeeRound (a * (b : ℝ))) xs row).length ≤ xs.length := by
      rw [List.length_zipWith]; exact min_le_left _ _
    have hlen' : ((List.zipWith (fun (a : ℝ) (b : Nat) => ieeeRound (a * (b : ℝ))) xs row).length : ℝ) ≤ xs.length := by exact_mod_cast hlen
    rw [e]
    refine quot_eq H (e := 254) (by norm_num) ?_ (hlen.trans hl) (by linarith) (by linarith)
    intro v hv
    obtain ⟨a, ha, b, hb', rfl⟩ := mem_zipWith_of hv
    exact ieee_bound (hp a ha b hb')
  constructor
  · exact List.map_congr_left fun row hrow => (key row hrow).1
  · intro v hv
    obtain ⟨row, hrow, rfl⟩ := List.mem_map.1 hv
    exact ⟨ieeeRound_idem _, (key row hrow).2⟩

/-- The bootstrap does not overflow. -/
theorem bootEBTestR_eq {x : List (Flt ℝ)} (h : ∀ v ∈ x, FltBound 201 v) (hl : x.length ≤ 2 ^ 53) {nBoot : Nat} (hB : nBoot ≤ 2 ^ 53)
    {counts : List (List Nat)} (hd : ValidDraws x.length nBoot counts) {c : ℝ} (hc : IsDouble c) (a b d : Bool) :
    bootEBTestR L x (.fin c) nBoot counts a b d = bootEBTestR (wideLib L order) x (.fin c) nBoot counts a b d := by
  cases hu : uninformative x with
  | true =>
    unfold bootEBTestR
    refine assert_congr rfl fun _ => ?_
    rw [if_pos hu, if_pos hu]
  | false =>
    obtain ⟨xs, rfl, h2⟩ := informative hu
    have hb := finVec_bound H h
    rw [show (finVec xs).length = xs.length by simp [finVec]] at hl hd
    have hne : xs ≠ [] := by rintro rfl; simp at h2
    obtain ⟨r1, r2⟩ := resampled_eq H h2 hb hl hd
    obtain ⟨m1, m2⟩ := mean_eq H (e := 201) (by norm_num) hne hb hl
    rw [bootEBTestR_run h2 hd, bootEBTestR_run h2 hd, r1, m1]
    have hlen : (finVec (resampledMeansR (wideLib L order) xs counts)).length ≤ 2 ^ 53 := by
      simp only [finVec, resampledMeansR, List.length_map]
      rw [hd.2.1]
      exact hB
    have hg : ∀ v ∈ finVec (resampledMeansR (wideLib L order) xs counts), GridFlt 1074 1010 v := by
      intro v hv
      obtain ⟨y, hy, rfl⟩ := List.mem_map.1 hv
      exact GridFlt.fin ⟨float_grid (r2 y hy).1, le_pow (r2 y hy).2 (by norm_num)⟩
    have hm : GridFlt 1074 1010 (.fin (meanR (wideLib L order) xs)) :=
      GridFlt.fin ⟨float_grid (ieeeRound_idem _), le_pow m2 (by norm_num)⟩
    have hv : ∀ c', Flt.fin c = .fin c' → IsDouble c' := by
      intro c' e
      rw [Flt.fin.injEq] at e
      exact e ▸ hc
    have hR : (wideLib L order).rnd = ieeeRound := rfl
    rw [hR, significanceR_ieee H.rnd _ hlen, significanceR_ieee ieeeRound_follows _ hlen,
      errorBarR_ieee H.rnd hv hlen hg hm, errorBarR_ieee ieeeRound_follows hv hlen hg hm,
      (percentileR_ieee H.rnd hv hlen).1, (percentileR_ieee ieeeRound_follows hv hlen).1]

theorem isDouble_conf {c : ℝ} (hc : ieeeRound c = c) (h0 : 0 < c) (h1 : c < 1) : IsDouble c := by
  refine ieee64_fin_iff.2 ⟨hc, ?_⟩
  rw [abs_of_pos h0]
  exact h1.trans (one_lt_pow₀ (by norm_num) (by norm_num))

theorem bootEBR_eq {x : List (Flt ℝ)} (h : ∀ v ∈ x, FltBound 201 v) (hl : x.length ≤ 2 ^ 53) {nBoot : Nat} (hB : nBoot ≤ 2 ^ 53)
    {counts : List (List Nat)} (hd : ValidDraws x.length nBoot counts) {c : ℝ} (hc : IsDouble c) :
    bootEBR L x (.fin c) nBoot counts = bootEBR (wideLib L order) x (.fin c) nBoot counts := by
  unfold bootEBR
  rw [bootEBTestR_eq H h hl hB hd hc]

theorem bootTestR_eq {x : List (Flt ℝ)} (h : ∀ v ∈ x, FltBound 201 v) (hl : x.length ≤ 2 ^ 53) {nBoot : Nat} (hB : nBoot ≤ 2 ^ 53)
    {counts : List (List Nat)} (hd : ValidDraws x.length nBoot counts) :
    bootTestR L x nBoot counts = bootTestR (wideLib L order) x nBoot counts := by
  unfold bootTestR
  have e : |(95 : ℝ) / 100| ≤ 2 ^ 0 := by rw [abs_of_pos (by norm_num)]; norm_num
  have hR : (wideLib L order).rnd = ieeeRound := rfl
  rw [hR, rnd_eq H.rnd e (by norm_num), bootEBTestR_eq H h hl hB hd]
  refine ieee64_fin_iff.2 ⟨ieeeRound_idem _, lt_of_le_of_lt (ieee_bound e) ?_⟩
  rw [pow_zero]
  exact one_lt_pow₀ (by norm_num) (by norm_num)

end
end Mlp.Props
