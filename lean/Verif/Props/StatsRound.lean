import Verif.Props.MeanRound

/-!
# Tests and error bars of `mlpaper.py` in floating point arithmetic

They succeed for finite data, error bars are not negative and p-values lie between 0 and 1.
-/

set_option linter.unusedSectionVars false

namespace Mlp.Props
open Mlp.Paper Mlp.PaperR Mlp.PerfR Mlp.BootR Mlp.Boot Mlp.Spec Mlp.Lemmas Mlp.Round

theorem fabs_div_zero {rnd : ℝ → ℝ} {x : ℝ} (h : x ≠ 0) : fabs (rF rnd ((Flt.fin x).div (Flt.fin 0))) = .pinf := by
  simp only [Flt.div, if_true, Flt.signInf]
  rcases lt_or_gt_of_ne h with h | h
  · simp [h, h.not_gt, rF, fabs]
  · simp [h, rF, fabs]

variable {L : Lib ℝ} {u tiny : ℝ} {G : ℝ → Prop} (hL : SignLib L) (hg : GradualRounding u tiny G L.rnd)
include hL hg

omit hg in
theorem sqrt_eq_zero_of {x : ℝ} (hx : L.rnd x = x) (h : 0 ≤ x) (e : L.sqrt x = 0) : x = 0 := by
  rcases h.lt_or_eq with h | h
  · exact absurd e (hL.sqrt_pos x hx h).ne'
  · exact h.symm

omit hL hg in
theorem varR_nonneg_of (hr : MonoRounding L.rnd) (hs : AddsAlongTrees L.rnd L.sum) {d : ℝ} {xs : List ℝ} (h : d < xs.length) :
    0 ≤ varR L d xs := by
  refine hr.nonneg (div_nonneg (sum_nonneg_of_trees hr hs fun v hv => ?_) (by linarith))
  obtain ⟨x, -, rfl⟩ := List.mem_map.1 hv
  exact hr.nonneg (mul_self_nonneg _)

theorem varR_nonneg {d : ℝ} {xs : List ℝ} (h : d < xs.length) : 0 ≤ varR L d xs :=
  varR_nonneg_of hg.toMonoRounding hL.sum h

/-- `t_EB` for at least two numbers. -/
theorem tEBR_ok {xs : List ℝ} (h : 2 ≤ xs.length) {c : ℝ} (h0 : 0 < c) (h1 : c < 1) :
    ∃ e : ℝ, tEBR L (finVec xs) (.fin c) = .ok (.fin e) ∧ 0 ≤ e := by
  have h2 : (2 : ℝ) ≤ xs.length := by exact_mod_cast h
  have hI := hL.tInterval (xs.length - 1) c h0 h1
  have hsem : 0 ≤ L.rnd (L.sqrt (varR L 1 xs) / L.sqrt xs.length) :=
    hg.nonneg (div_nonneg (hL.sqrt_nonneg _ (varR_nonneg hL hg (by linarith))) (hL.sqrt_nonneg _ (by linarith)))
  have hEB : 0 ≤ L.rnd (L.rnd ((1 / 2) * L.rnd (L.sqrt (varR L 1 xs) / L.sqrt xs.length)) *
      L.rnd ((L.tInterval (xs.length - 1) c).2 - (L.tInterval (xs.length - 1) c).1)) :=
    hg.nonneg (mul_nonneg (hg.nonneg (mul_nonneg (by norm_num) hsem)) (hg.nonneg (by linarith)))
  refine ⟨_, ?_, hEB⟩
  unfold tEBR
  have hc : confOkR (Flt.fin c) = true := by simp [confOkR, h0, h1]
  rw [pyAssert_bind, if_pos ((noNaN_any _).2 (noNaN_finVec xs)), pyAssert_bind, if_pos hc,
    if_neg (informative_finVec h)]
  simp only [finVals_finVec, numOf, pyAssert_bind]
  rw [if_pos (by simpa using hI), if_pos (by simpa using hEB)]
  rfl

/-- `t_test` for at least two numbers. -/
theorem tTestR_ok {xs : List ℝ} (h : 2 ≤ xs.length) (hn : xs.length * u ≤ 1 / 1000000) :
    ∃ p : ℝ, tTestR L (finVec xs) = .ok (.fin p) ∧ 0 ≤ p ∧ p ≤ 1 := by
  have h2 : (2 : ℝ) ≤ xs.length := by exact_mod_cast h
  have hv : 0 ≤ varR L 1 xs := varR_nonneg hL hg (by linarith)
  have hd : 0 ≤ L.rnd (varR L 1 xs / xs.length) := hg.nonneg (div_nonneg hv (by linarith))
  unfold tTestR
  rw [pyAssert_bind, if_pos ((noNaN_any _).2 (noNaN_finVec xs)), if_neg (informative_finVec h)]
  simp only [finVals_finVec]
  have key : ∀ p, 0 ≤ p → p ≤ 1 / 2 → 0 ≤ L.rnd (p * 2) ∧ L.rnd (p * 2) ≤ 1 := fun p a b =>
    ⟨hg.nonneg (by linarith), hg.le_one (by linarith)⟩
  have done : ∀ w, (∃ p, L.tSf (xs.length - 1) w = .fin p ∧ 0 ≤ p ∧ p ≤ 1 / 2) →
      ∃ q : ℝ, (do
        let pval ← (if (rF L.rnd ((L.tSf (xs.length - 1) w).mul (.fin 2))).isNaN then do
            pyAssert (decide (varR L 1 xs ≤ L.rnd (1 / 10 ^ 100)))
            return (if meanR L xs = 0 then Flt.fin 1 else .fin 0)
          else pure (rF L.rnd ((L.tSf (xs.length - 1) w).mul (.fin 2))) : Py (Flt ℝ))
        pyAssert ((Flt.fin 0).le pval && pval.le (.fin 1))
        return pval : Py (Flt ℝ)) = .ok (.fin q) ∧ 0 ≤ q ∧ q ≤ 1 := by
    rintro w ⟨p, e, p0, p1⟩
    obtain ⟨k0, k1⟩ := key p p0 p1
    refine ⟨L.rnd (p * 2), ?_, k0, k1⟩
    rw [e]
    simp [rF, pyAssert_bind, k0, k1, pure_eq_ok, ok_bind]
  by_cases hz : L.sqrt (L.rnd (varR L 1 xs / xs.length)) = 0
  · have hv1 : varR L 1 xs ≤ L.rnd (1 / 10 ^ 100) := by
      have e0 := sqrt_eq_zero_of hL (hg.idem _) hd hz
      have hu := hg.unit_nonneg
      have hu1 : u ≤ 1 / 1000000 := by nlinarith
      have ht := hg.tiny_le
      have ht0 := hg.tiny_nonneg
      have b1 := (gradual_bounds hg (div_nonneg hv (show (0 : ℝ) ≤ xs.length by linarith))).1
      have b2 := (gradual_bounds hg (show (0 : ℝ) ≤ 1 / 10 ^ 100 by positivity)).1
      rw [e0] at b1
      have hN : (0 : ℝ) < xs.length := by linarith
      have hNt : xs.length * tiny ≤ 1 / 1000000 / 10 ^ 101 := by
        have : (xs.length : ℝ) * tiny ≤ xs.length * (u / 10 ^ 101) := mul_le_mul_of_nonneg_left ht hN.le
        refine this.trans ?_
        rw [← mul_div_assoc]
        exact div_le_div_of_nonneg_right hn (by positivity)
      have hvN : varR L 1 xs = (varR L 1 xs / xs.length) * xs.length := by field_simp
      have hq : varR L 1 xs / xs.length ≤ 2 * tiny := by
        have : 0 ≤ varR L 1 xs / xs.length := div_nonneg hv hN.le
        nlinarith
      have hvle : varR L 1 xs ≤ 2 * (xs.length * tiny) := by
        rw [hvN]
        calc varR L 1 xs / xs.length * xs.length ≤ 2 * tiny * xs.length := mul_le_mul_of_nonneg_right hq hN.le
          _ = _ := by ring
      have ht2 := tiny_small hg hu1
      refine hvle.trans (le_trans ?_ b2)
      have hT : (1 - 1 / 1000000) * (1 / 10 ^ 100 : ℝ) ≤ (1 - u) * (1 / 10 ^ 100) :=
        mul_le_mul_of_nonneg_right (by linarith) (by positivity)
      have e1 : (1 / 1000000 / 10 ^ 101 : ℝ) = 1 / 10 ^ 107 := by norm_num
      have e2 : (1 / 10 ^ 100 : ℝ) = 10 ^ 7 * (1 / 10 ^ 107) := by norm_num
      rw [e1] at hNt
      rw [e2] at hT ⊢
      have h7 : (0 : ℝ) < 1 / 10 ^ 107 := by positivity
      generalize (1 / 10 ^ 107 : ℝ) = w at *
      linarith
    rw [hz]
    by_cases hm : L.rnd (meanR L xs - 0) = 0
    · have e : fabs (rF L.rnd ((Flt.fin (L.rnd (meanR L xs - 0))).div (Flt.fin 0))) = .nan := by
        rw [hm]; simp [Flt.div, Flt.signInf, rF, fabs]
      rw [e, hL.tSf_nan]
      have hmul : (rF L.rnd (Flt.nan.mul (Flt.fin 2))).isNaN = true := rfl
      rw [if_pos hmul, pyAssert_bind, if_pos (by simpa using hv1)]
      by_cases hmz : meanR L xs = 0
      · exact ⟨1, by simp [hmz, pyAssert_bind, pure_eq_ok, ok_bind], by norm_num, le_rfl⟩
      · exact ⟨0, by simp [hmz, pyAssert_bind, pure_eq_ok, ok_bind], le_rfl, by norm_num⟩
    · have e : fabs (rF L.rnd ((Flt.fin (L.rnd (meanR L xs - 0))).div (Flt.fin 0))) = .pinf :=
        fabs_div_zero hm
      rw [e]
      exact done _ (hL.tSf_inf _)
  · rw [Flt.div_fin hz]
    exact done _ (hL.tSf _ _ (abs_nonneg _))

/-- The rounded range of valid limits. -/
theorem rangeR_cases {lower upper : Flt ℝ} (hv : ValidLimits lower upper) :
    (∃ l h : ℝ, lower = .fin l ∧ upper = .fin h ∧ l ≤ h ∧ rF L.rnd (upper.sub lower) = .fin (L.rnd (h - l)) ∧
      0 ≤ L.rnd (h - l)) ∨
    ((lower = .ninf ∨ upper = .pinf) ∧ rF L.rnd (upper.sub lower) = .pinf) := by
  obtain ⟨v1, v2, v3, v4, v5⟩ := hv
  cases lower <;> cases upper <;> simp_all [Flt.sub, Flt.add, Flt.neg, rF]
  rename_i l h
  rw [← sub_eq_add_neg]
  exact ⟨rfl, hg.nonneg (by linarith)⟩

theorem rangeR_nonneg {lower upper : Flt ℝ} (hv : ValidLimits lower upper) :
    (Flt.fin 0).le (rF L.rnd (upper.sub lower)) = true := by
  rcases rangeR_cases hL hg hv with ⟨l, h, -, -, -, e, h0⟩ | ⟨-, e⟩
  · rw [e]; simpa using h0
  · rw [e]; rfl

/-- `bernstein_EB` for finite data. -/
theorem bernsteinEBR_ok (hu1 : u ≤ 1 / 1000000) {xs : List ℝ}
    {lower upper : Flt ℝ} (hv : ValidLimits lower upper) (hw : Within lower upper xs)
    {c : ℝ} (h0 : 0 < c) (hc1 : 2 * tiny < 1 - c) :
    ∃ e : Flt ℝ, bernsteinEBR L (finVec xs) lower upper (.fin c) = .ok e ∧ e ≠ .nan ∧ .fin 0 ≤ e := by
  have hR := rangeR_nonneg hL hg hv
  have hR' := Flt.le_iff.1 hR
  have ht0 := hg.tiny_nonneg
  have ht := tiny_small hg hu1
  have h1 : c < 1 := by linarith
  have hc : confOkR (Flt.fin c) = true := by simp [confOkR, h0, h1]
  unfold bernsteinEBR
  rw [pyAssert_bind, if_pos ((noNaN_any _).2 (noNaN_finVec xs)), pyAssert_bind, if_pos hR, pyAssert_bind,
    if_pos ((within_finVec hv.2.1 xs).2 hw), pyAssert_bind, if_pos hc]
  by_cases h2 : 2 ≤ xs.length
  · have h2' : (2 : ℝ) ≤ xs.length := by exact_mod_cast h2
    rw [if_neg (informative_finVec h2)]
    simp only [finVals_finVec, numOf, pyAssert_bind]
    have hd0 : 0 < L.rnd (1 - c) := gradual_pos hg hu1 hc1
    have hd1 : L.rnd (1 - c) ≤ 1 := hg.le_one (by linarith)
    have hq : 3 ≤ 3 / L.rnd (1 - c) := by rw [le_div_iff₀ hd0]; linarith
    have hq2 : 2 ≤ L.rnd (3 / L.rnd (1 - c)) := by
      have := (gradual_bounds hg (show (0 : ℝ) ≤ 3 / L.rnd (1 - c) by linarith)).1
      have ht' : tiny ≤ 1 / 10 := ht.trans (by norm_num)
      nlinarith
    have hA := hL.log_pos _ hq2
    generalize L.log (L.rnd (3 / L.rnd (1 - c))) = A at *
    have hs : 0 ≤ L.rnd (L.sqrt (varR L 0 xs) * L.sqrt (L.rnd (L.rnd (2 * A) / xs.length))) :=
      hg.nonneg (mul_nonneg (hL.sqrt_nonneg _ (varR_nonneg hL hg (by linarith)))
        (hL.sqrt_nonneg _ (hg.nonneg (div_nonneg (hg.nonneg (by linarith)) (by linarith)))))
    have h3 : 0 < L.rnd (3 * A) := lt_of_lt_of_le one_pos (hg.ge_of hg.one (by linarith))
    have hlen : (xs.length : ℝ) ≠ 0 := by linarith
    generalize L.rnd (L.sqrt (varR L 0 xs) * L.sqrt (L.rnd (L.rnd (2 * A) / xs.length))) = S at *
    generalize L.rnd (3 * A) = B at *
    rcases rangeR_cases hL hg hv with ⟨l, h, -, -, -, e, hr0⟩ | ⟨-, e⟩
    · have hEB : 0 ≤ L.rnd (S + L.rnd (L.rnd (B * L.rnd (h - l)) / xs.length)) :=
        hg.nonneg (add_nonneg hs (hg.nonneg (div_nonneg (hg.nonneg (mul_nonneg h3.le hr0)) (by linarith))))
      refine ⟨.fin (L.rnd (S + L.rnd (L.rnd (B * L.rnd (h - l)) / xs.length))), ?_, by simp, by simpa using hEB⟩
      rw [e]
      simp [rF, Flt.div_fin hlen, hEB, pure_eq_ok]
    · refine ⟨.pinf, ?_, by simp, by simp⟩
      rw [e]
      have hneg : ¬ ((xs.length : ℝ) < 0) := by linarith
      simp [Flt.mul, Flt.signInf, h3, rF, Flt.div, Flt.add, pure_eq_ok, Flt.le_iff, hneg]
  · have : uninformative (finVec xs) = true := (uninformative_iff _).2 (Or.inl (by simp [finVec]; omega))
    rw [if_pos this]
    exact ⟨_, rfl, hR'.1, hR'.2⟩

/-- `bernstein_test` for finite data. -/
theorem bernsteinTestR_ok {xs : List ℝ} (hu1' : 2 ≤ xs.length → u ≤ 1 / 1000000)
    {lower upper : Flt ℝ} (hv : ValidLimits lower upper) (hw : Within lower upper xs)
    (hR1 : ∀ l h, lower = .fin l → upper = .fin h → l = h ∨ 4 * xs.length * tiny < h - l) :
    ∃ p : ℝ, bernsteinTestR L (finVec xs) lower upper = .ok (.fin p) ∧ 0 ≤ p ∧ p ≤ 1 := by
  have hR := rangeR_nonneg hL hg hv
  have one : ∃ p : ℝ, (pure (.fin 1) : Py (Flt ℝ)) = .ok (.fin p) ∧ 0 ≤ p ∧ p ≤ 1 := ⟨1, rfl, by norm_num, le_rfl⟩
  unfold bernsteinTestR
  rw [pyAssert_bind, if_pos ((noNaN_any _).2 (noNaN_finVec xs)), pyAssert_bind, if_pos hR, pyAssert_bind,
    if_pos ((within_finVec hv.2.1 xs).2 hw)]
  by_cases h2 : 2 ≤ xs.length
  · have h2' : (2 : ℝ) ≤ xs.length := by exact_mod_cast h2
    have hu1 := hu1' h2
    rw [if_neg (informative_finVec h2)]
    rcases rangeR_cases hL hg hv with ⟨l, h, el, eh, hlh, e, hr0⟩ | ⟨-, e⟩
    · rw [e]
      simp only [finVals_finVec]
      by_cases hz : L.rnd (h - l) = 0
      · rw [if_pos hz]; exact one
      · rw [if_neg hz]
        have hgap : 4 * xs.length * tiny < h - l := by
          rcases hR1 l h el eh with h' | h'
          · exact absurd (by rw [h', sub_self, hg.zero]) hz
          · exact h'
        have ht0 := hg.tiny_nonneg
        have hNt : 0 ≤ (xs.length - 2 : ℝ) * tiny := mul_nonneg (by linarith) ht0
        have hpos : 2 * xs.length * tiny < L.rnd (h - l) := by
          have := (gradual_bounds hg (sub_nonneg.2 hlh)).1
          nlinarith
        have hpos3 : 2 * tiny < L.rnd (3 * L.rnd (h - l)) / xs.length := by
          have := (gradual_bounds hg (show 0 ≤ 3 * L.rnd (h - l) by linarith)).1
          rw [lt_div_iff₀ (by linarith)]
          nlinarith
        obtain ⟨r₁, r₂, er, s1, s2⟩ := hL.roots (L.rnd (L.rnd (3 * L.rnd (h - l)) / xs.length))
          (L.rnd (L.sqrt (varR L 0 xs) * L.sqrt (L.rnd (2 / xs.length)))) (-|meanR L xs|)
          (gradual_pos hg hu1 hpos3)
          (hg.nonneg (mul_nonneg (hL.sqrt_nonneg _ (varR_nonneg hL hg (by linarith)))
            (hL.sqrt_nonneg _ (hg.nonneg (div_nonneg (by norm_num) (by linarith))))))
          (by simp)
        rw [er]
        simp only [pyAssert_bind]
        rw [if_pos (by simpa using s1), if_pos (by simpa using s2)]
        have hp : 0 ≤ min 1 (L.rnd (3 * L.exp (-L.rnd (max r₁ r₂ * max r₁ r₂)))) :=
          le_min (by norm_num) (hg.nonneg (mul_nonneg (by norm_num) (hL.exp_nonneg _)))
        have hp1 : min 1 (L.rnd (3 * L.exp (-L.rnd (max r₁ r₂ * max r₁ r₂)))) ≤ 1 := min_le_left _ _
        exact ⟨_, by rw [if_pos (by rw [decide_eq_true hp, decide_eq_true hp1]; rfl)]; rfl, hp, hp1⟩
    · rw [e]; exact one
  · have : uninformative (finVec xs) = true := (uninformative_iff _).2 (Or.inl (by simp [finVec]; omega))
    rw [if_pos this]
    exact one

/-- The means of the resampled data sets as computed. -/
noncomputable def resampledMeansR (L : Lib ℝ) (xs : List ℝ) (counts : List (List Nat)) : List ℝ :=
  counts.map fun row => L.rnd (L.sum (List.zipWith (fun (a : ℝ) (b : Nat) => L.rnd (a * (b : ℝ))) xs row) / (xs.length : ℝ))

omit hL hg in
theorem muBootR_eq {xs : List ℝ} {nBoot : Nat} {counts : List (List Nat)}
    (hd : ValidDraws xs.length nBoot counts) :
    (counts.map fun row => row.map fun (c : Nat) => (c : ℝ)).map (fun (w : List ℝ) =>
      Flt.fin (meanR L (List.zipWith (fun (a b : ℝ) => L.rnd (a * b)) xs w))) =
      finVec (resampledMeansR L xs counts) := by
  unfold finVec resampledMeansR
  rw [List.map_map, List.map_map]
  apply List.map_congr_left
  intro row hr
  simp only [Function.comp]
  rw [List.zipWith_map_right]
  unfold meanR
  rw [List.length_zipWith, (hd.2.2 row hr).1, Nat.min_self]

omit hL hg in
theorem bootEBTestR_run {xs : List ℝ} (h : 2 ≤ xs.length) {nBoot : Nat} {counts : List (List Nat)}
    (hd : ValidDraws xs.length nBoot counts) (conf : Flt ℝ) (a b d : Bool) :
    bootEBTestR L (finVec xs) conf nBoot counts a b d = (do
      let pval ← (if b then significanceR L.rnd (finVec (resampledMeansR L xs counts)) (.scalar (.fin 0))
        else pure (.fin 1) : Py (Flt ℝ))
      let EB ← (if a then errorBarR L.rnd (finVec (resampledMeansR L xs counts)) (.fin (meanR L xs)) conf
        else pure .pinf : Py (Flt ℝ))
      let CI ← (if d then percentileR L.rnd (finVec (resampledMeansR L xs counts)) conf
        else pure (.ninf, .pinf) : Py (Flt ℝ × Flt ℝ))
      return (EB, pval, CI)) := by
  have hw := (C36_weights (K := ℝ) (N := xs.length) (by omega) hd.1 hd.2.1 hd.2.2).1
  unfold bootEBTestR
  rw [pyAssert_bind, if_pos ((noNaN_any _).2 (noNaN_finVec xs)), if_neg (informative_finVec h)]
  simp only [finVals_finVec]
  rw [hw, ok_bind]
  simp only [muBootR_eq hd]

/-- The bootstrap for at least two numbers. -/
theorem bootR_ok {m : Nat} (hm : HalvesExact L.rnd m) (h100 : 100 ≤ m) {xs : List ℝ} (h : 2 ≤ xs.length)
    {nBoot : Nat} (hB : nBoot ≤ m) {counts : List (List Nat)} (hd : ValidDraws xs.length nBoot counts)
    {c : ℝ} (h0 : 0 < c) (h1 : c < 1) :
    ∃ e p l h : ℝ, bootEBTestR L (finVec xs) (.fin c) nBoot counts true true true =
        .ok (.fin e, .fin p, .fin l, .fin h) ∧
      0 ≤ e ∧ 0 ≤ p ∧ p ≤ 1 ∧ e = max (L.rnd (h - meanR L xs)) (L.rnd (meanR L xs - l)) ∧
      significanceR L.rnd (finVec (resampledMeansR L xs counts)) (.scalar (.fin 0)) = .ok (.fin p) ∧
      percentileR L.rnd (finVec (resampledMeansR L xs counts)) (.fin c) = .ok (.fin l, .fin h) ∧
      bootEBTestR L (finVec xs) (.fin c) nBoot counts true true false =
        .ok (.fin e, .fin p, .ninf, .pinf) ∧
      bootEBR L (finVec xs) (.fin c) nBoot counts = .ok (.fin e) ∧
      bootTestR L (finVec xs) nBoot counts = .ok (.fin p) := by
  have hlen : (finVec (resampledMeansR L xs counts)).length = nBoot := by
    simp [finVec, resampledMeansR, hd.2.1]
  have hne : finVec (resampledMeansR L xs counts) ≠ [] := by
    intro hc
    rw [hc] at hlen
    have := hd.1
    simp at hlen; omega
  have hnan : NoNaN (finVec (resampledMeansR L xs counts)) := noNaN_finVec _
  obtain ⟨LB, UB, i, j, e1, s1, s2, -, -, -, -⟩ :=
    C107_interval hg.toMonoRounding hm h100 hne (by omega) hnan h0 h1
  obtain ⟨LB', UB', e1', e2, hpos⟩ :=
    C107_error_bar hg.toMonoRounding hm h100 hne (by omega) hnan h0 h1 (.fin (meanR L xs))
  rw [e1] at e1'
  cases e1'
  obtain ⟨l, -, rfl⟩ := List.mem_map.1 s1.1
  obtain ⟨hi, -, rfl⟩ := List.mem_map.1 s2.1
  obtain ⟨p, e3, p0, p1, -⟩ := C107_pvalue hg.toMonoRounding hne hnan (r := .fin 0) (by simp)
  obtain ⟨hp, -⟩ := hpos _ rfl
  simp only [Flt.sub_fin, rF, Flt.fmax_fin] at e2 hp
  rw [Flt.fin_le_fin] at hp
  refine ⟨_, p, l, hi, ?_, hp, p0, p1, rfl, e3, e1, ?_, ?_, ?_⟩
  · rw [bootEBTestR_run h hd]
    simp only [if_true, e1, e2, e3, ok_bind, pure_eq_ok]
  · rw [bootEBTestR_run h hd]
    simp only [if_true, e2, e3, ok_bind, pure_eq_ok, Bool.false_eq_true, if_false]
  · unfold bootEBR
    rw [bootEBTestR_run h hd]
    simp only [if_true, e2, ok_bind, pure_eq_ok, Bool.false_eq_true, if_false, pyAssert_bind, Flt.le_fin,
      decide_eq_true hp]
  · unfold bootTestR
    rw [bootEBTestR_run h hd]
    simp only [if_true, e3, ok_bind, pure_eq_ok, Bool.false_eq_true, if_false, pyAssert_bind, Flt.le_fin,
      decide_eq_true p0, decide_eq_true p1, Bool.and_self]

/-- The bar that `clip_EB` cuts at, as computed. -/
noncomputable def trivialR (L : Lib ℝ) (mu lower upper : Flt ℝ) : Flt ℝ :=
  Flt.fmax (rF L.rnd (upper.sub mu)) (rF L.rnd (mu.sub lower))

/-- `clip_EB` succeeds for an estimate within the limits and a minimum of at most half of the range. -/
theorem clipEBR_ok {mu lower upper : Flt ℝ} (EB : Flt ℝ) (hl : ∀ l, lower = .fin l → G l) (hu : ∀ h, upper = .fin h → G h) (hv : ValidLimits lower upper) (h1 : lower ≤ mu) (h2 : mu ≤ upper)
    {b : ℝ} (hb : 0 ≤ b) (hbr : L.rnd b = b) (h3 : .fin (2 * b) ≤ rF L.rnd (upper.sub lower)) :
    clipEBR L mu EB lower upper (.fin b) = .ok (EB.clip (.fin b) (trivialR L mu lower upper)) ∧
      trivialR L mu lower upper ≠ .nan ∧ .fin b ≤ trivialR L mu lower upper := by
  have hmu : mu ≠ .nan := by
    rintro rfl
    exact hv.2.1 ((Flt.nan_le_iff _).1 h2)
  have e1 : ((Flt.fin 0).le (.fin b) && (Flt.fin b).lt .pinf) = true := by
    rw [Bool.and_eq_true, Flt.le_iff, Flt.lt_iff]
    refine ⟨⟨by simp, by simpa using hb⟩, by simp, ?_⟩
    rw [← not_le]; simp
  have e2 : ¬ ((mu.lt lower || upper.lt mu) = true) := by
    rw [Bool.or_eq_true, Flt.lt_iff' hv.1, Flt.lt_iff' hmu, not_or, not_lt, not_lt]
    exact ⟨h1, h2⟩
  have e3 : ¬ ((rF L.rnd (upper.sub lower)).lt (rF L.rnd ((Flt.fin 2).mul (.fin b))) = true) := by
    have : rF L.rnd ((Flt.fin 2).mul (.fin b)) = .fin (2 * b) := by
      simp only [Flt.mul_fin, rF, hg.double_float _ hbr]
    rw [this, Flt.lt_iff' (by simp), not_lt]
    exact h3
  have e4 : trivialR L mu lower upper ≠ .nan ∧ .fin b ≤ trivialR L mu lower upper := by
    unfold trivialR
    by_cases hf : ∃ m l u : ℝ, mu = .fin m ∧ lower = .fin l ∧ upper = .fin u
    · obtain ⟨m, l, u, rfl, rfl, rfl⟩ := hf
      simp only [Flt.sub_fin, rF, Flt.fmax_fin]
      refine ⟨by simp, ?_⟩
      simp only [Flt.sub_fin, rF, Flt.fin_le_fin] at h3 ⊢
      rw [← hg.mono.map_max]
      have : (u - l) / 2 ≤ max (u - m) (m - l) := by
        by_contra hc
        push Not at hc
        linarith [(max_lt_iff.1 hc).1, (max_lt_iff.1 hc).2]
      refine le_trans ?_ (hg.mono this)
      have hlu : l ≤ u := by simpa using hv.2.2.1
      rcases lt_or_ge tiny ((u - l) / 2) with hbig | hsmall
      · have := hg.double ((u - l) / 2) (lt_of_lt_of_le hbig (le_abs_self _))
        rw [show 2 * ((u - l) / 2) = u - l by ring] at this
        linarith
      · rw [hg.sub_small u l (hu u rfl) (hl l rfl) (by rw [abs_of_nonneg (by linarith)]; linarith)] at h3
        exact hg.ge_of hbr (by linarith)
    · obtain ⟨v1, v2, v3, v4, v5⟩ := hv
      cases mu <;> cases lower <;> cases upper <;>
        simp_all [Flt.sub, Flt.add, Flt.neg, Flt.fmax, rF]
  refine ⟨?_, e4⟩
  unfold clipEBR
  rw [pyAssert_bind, if_pos (rangeR_nonneg hL hg hv), pyAssert_bind, if_pos e1, if_neg e2, if_neg e3, pyAssert_bind, if_pos]
  · rfl
  · rw [Bool.not_eq_true', ← Bool.not_eq_true]
    change ¬ ((trivialR L mu lower upper).lt (.fin b) = true)
    rw [Flt.lt_iff' (by simp), not_lt]; exact e4.2

end Mlp.Props
