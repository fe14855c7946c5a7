import Mathlib.Probability.Moments.Variance
import Mathlib.Probability.Independence.Integration
import Mathlib.MeasureTheory.Integral.Prod
import Verif.Spec.Ranking

/-! # The share of correctly ordered pairs of random cases -/

namespace Mlp.Props
open Mlp Mlp.Spec MeasureTheory ProbabilityTheory

variable {S Ω : Type} [MeasurableSpace S] [MeasurableSpace Ω] {P : Measure Ω} [IsProbabilityMeasure P] {pos neg : Measure S}
  [IsProbabilityMeasure pos] [IsProbabilityMeasure neg]

theorem ordered_range (a b : ℝ) : 0 ≤ ordered a b ∧ ordered a b ≤ 1 := by
  unfold ordered
  split_ifs <;> norm_num

theorem ordered_measurable {g : S → ℝ} (hg : Measurable g) : Measurable fun p : S × S => ordered (g p.1) (g p.2) := by
  unfold ordered
  exact Measurable.ite (measurableSet_lt (hg.comp measurable_snd) (hg.comp measurable_fst)) measurable_const
    (Measurable.ite (measurableSet_eq_fun (hg.comp measurable_fst) (hg.comp measurable_snd)) measurable_const measurable_const)

theorem integral_ordered {g : S → ℝ} (hg : Measurable g) : ∫ p, ordered (g p.1) (g p.2) ∂(pos.prod neg) = rankProb pos neg g := by
  have e : (fun p : S × S => ordered (g p.1) (g p.2)) = fun p => ({p : S × S | g p.2 < g p.1}.indicator 1 p) +
      ({p : S × S | g p.1 = g p.2}.indicator 1 p) * (1 / 2 : ℝ) := by
    funext p
    unfold ordered
    by_cases h1 : g p.2 < g p.1
    · have h2 : g p.1 ≠ g p.2 := h1.ne'
      simp [h1, h2]
    · by_cases h2 : g p.1 = g p.2
      · simp [h2]
      · simp [h1, h2]
  have m1 : MeasurableSet {p : S × S | g p.2 < g p.1} := measurableSet_lt (hg.comp measurable_snd) (hg.comp measurable_fst)
  have m2 : MeasurableSet {p : S × S | g p.1 = g p.2} := measurableSet_eq_fun (hg.comp measurable_fst) (hg.comp measurable_snd)
  have i1 : ∀ A : Set (S × S), MeasurableSet A → Integrable (fun p => A.indicator (1 : S × S → ℝ) p) (pos.prod neg) := fun A hA =>
    (integrable_const (1 : ℝ)).indicator hA
  rw [e, integral_add (i1 _ m1) ((i1 _ m2).mul_const _), integral_mul_const,
    integral_indicator_one m1, integral_indicator_one m2]
  unfold rankProb
  ring

section
variable {n : ℕ} {lab : Fin n → Bool} {draw : Fin n → Ω → S} {g : S → ℝ}

/-- The pairs of a positive and a negative case. -/
def rankPairs (lab : Fin n → Bool) : Finset (Fin n × Fin n) :=
  (Finset.univ.filter fun i => lab i = true) ×ˢ (Finset.univ.filter fun i => lab i = false)

theorem mem_rankPairs {p : Fin n × Fin n} : p ∈ rankPairs lab ↔ lab p.1 = true ∧ lab p.2 = false := by
  simp [rankPairs]

theorem card_rankPairs : (rankPairs lab).card = numLab lab true * numLab lab false := Finset.card_product _ _

omit [IsProbabilityMeasure pos] [IsProbabilityMeasure neg] in
theorem pair_law (hd : DrawnCases P pos neg lab draw) {p : Fin n × Fin n} (hp : p ∈ rankPairs lab) :
    P.map (fun ω => (draw p.1 ω, draw p.2 ω)) = pos.prod neg := by
  obtain ⟨h1, h2⟩ := mem_rankPairs.1 hp
  have hne : p.1 ≠ p.2 := fun e => by rw [e, h2] at h1; cases h1
  rw [(indepFun_iff_map_prod_eq_prod_map_map (hd.meas _).aemeasurable (hd.meas _).aemeasurable).1 (hd.indep.indepFun hne), hd.law, hd.law, h1, h2]
  rfl

theorem pair_integral (hd : DrawnCases P pos neg lab draw) (hg : Measurable g) {p : Fin n × Fin n} (hp : p ∈ rankPairs lab) :
    ∫ ω, ordered (g (draw p.1 ω)) (g (draw p.2 ω)) ∂P = rankProb pos neg g := by
  rw [← integral_ordered hg, ← pair_law hd hp, integral_map ((hd.meas _).prodMk (hd.meas _)).aemeasurable (ordered_measurable hg).aestronglyMeasurable]

theorem pair_measurable (hd : DrawnCases P pos neg lab draw) (hg : Measurable g) (p : Fin n × Fin n) :
    Measurable fun ω => ordered (g (draw p.1 ω)) (g (draw p.2 ω)) :=
  (ordered_measurable hg).comp ((hd.meas p.1).prodMk (hd.meas p.2))

theorem pair_memLp (hd : DrawnCases P pos neg lab draw) (hg : Measurable g) (p : Fin n × Fin n) :
    MemLp (fun ω => ordered (g (draw p.1 ω)) (g (draw p.2 ω))) 2 P :=
  MemLp.of_bound (pair_measurable hd hg p).aestronglyMeasurable 1 (.of_forall fun ω => by
    rw [Real.norm_eq_abs, abs_of_nonneg (ordered_range _ _).1]; exact (ordered_range _ _).2)

theorem pair_integrable (hd : DrawnCases P pos neg lab draw) (hg : Measurable g) (p : Fin n × Fin n) :
    Integrable (fun ω => ordered (g (draw p.1 ω)) (g (draw p.2 ω))) P := (pair_memLp hd hg p).integrable one_le_two

/-- Two pairs with no case in common are uncorrelated; otherwise the covariance is at most one quarter. -/
theorem pair_cov (hd : DrawnCases P pos neg lab draw) (hg : Measurable g) {p q : Fin n × Fin n} (hp : p ∈ rankPairs lab) (hq : q ∈ rankPairs lab) :
    ∫ ω, (ordered (g (draw p.1 ω)) (g (draw p.2 ω)) - rankProb pos neg g) * (ordered (g (draw q.1 ω)) (g (draw q.2 ω)) - rankProb pos neg g) ∂P ≤
      if p.1 = q.1 ∨ p.2 = q.2 then 1 / 4 else 0 := by
  have hvar : ∀ r ∈ rankPairs lab, ∫ ω, (ordered (g (draw r.1 ω)) (g (draw r.2 ω)) - rankProb pos neg g) ^ 2 ∂P ≤ 1 / 4 := by
    intro r hr
    have h := variance_le_sq_of_bounded (μ := P) (X := fun ω => ordered (g (draw r.1 ω)) (g (draw r.2 ω))) (a := 0) (b := 1)
      (.of_forall fun ω => ordered_range _ _) (pair_measurable hd hg r).aemeasurable
    rw [variance_eq_integral (pair_measurable hd hg r).aemeasurable, pair_integral hd hg hr] at h
    exact h.trans (by norm_num)
  have hZ : ∀ r : Fin n × Fin n, MemLp (fun ω => ordered (g (draw r.1 ω)) (g (draw r.2 ω)) - rankProb pos neg g) 2 P := fun r =>
    (pair_memLp hd hg r).sub (memLp_const _)
  split_ifs with h
  · have hle : ∫ ω, (ordered (g (draw p.1 ω)) (g (draw p.2 ω)) - rankProb pos neg g) * (ordered (g (draw q.1 ω)) (g (draw q.2 ω)) - rankProb pos neg g) ∂P ≤
        ∫ ω, (1 / 2 * (ordered (g (draw p.1 ω)) (g (draw p.2 ω)) - rankProb pos neg g) ^ 2 +
          1 / 2 * (ordered (g (draw q.1 ω)) (g (draw q.2 ω)) - rankProb pos neg g) ^ 2) ∂P := by
      refine integral_mono ((hZ p).integrable_mul (hZ q)) (((hZ p).integrable_sq.const_mul _).add ((hZ q).integrable_sq.const_mul _)) fun ω => ?_
      have := two_mul_le_add_sq (ordered (g (draw p.1 ω)) (g (draw p.2 ω)) - rankProb pos neg g)
        (ordered (g (draw q.1 ω)) (g (draw q.2 ω)) - rankProb pos neg g)
      dsimp only
      linarith
    rw [integral_add ((hZ p).integrable_sq.const_mul _) ((hZ q).integrable_sq.const_mul _), integral_const_mul, integral_const_mul] at hle
    have a := hvar p hp
    have b := hvar q hq
    linarith
  · push Not at h
    obtain ⟨p1, p2⟩ := mem_rankPairs.1 hp
    obtain ⟨q1, q2⟩ := mem_rankPairs.1 hq
    have n1 : p.1 ≠ q.2 := fun e => by rw [e, q2] at p1; cases p1
    have n2 : p.2 ≠ q.1 := fun e => by rw [e, q1] at p2; cases p2
    have hind := hd.indep.indepFun_prodMk_prodMk hd.meas p.1 p.2 q.1 q.2 h.1 n1 n2 h.2
    have hind2 := hind.comp (φ := fun s : S × S => ordered (g s.1) (g s.2) - rankProb pos neg g)
      (ψ := fun s : S × S => ordered (g s.1) (g s.2) - rankProb pos neg g) ((ordered_measurable hg).sub_const _) ((ordered_measurable hg).sub_const _)
    have e := hind2.integral_mul_eq_mul_integral ((pair_measurable hd hg p).sub_const _).aestronglyMeasurable
      ((pair_measurable hd hg q).sub_const _).aestronglyMeasurable
    have e0 : ∫ ω, ((fun s : S × S => ordered (g s.1) (g s.2) - rankProb pos neg g) ∘ fun ω => (draw p.1 ω, draw p.2 ω)) ω ∂P = 0 := by
      simp only [Function.comp_apply]
      rw [integral_sub (pair_integrable hd hg p) (integrable_const _), pair_integral hd hg hp]
      simp
    rw [e0, zero_mul] at e
    exact le_of_eq e

/-- The share of correctly ordered pairs, ties counting one half. -/
noncomputable def rankShare (lab : Fin n → Bool) (s : Fin n → ℝ) : ℝ :=
  (∑ p ∈ rankPairs lab, ordered (s p.1) (s p.2)) / (numLab lab true * numLab lab false)

theorem rankShare_measurable (hd : DrawnCases P pos neg lab draw) (hg : Measurable g) : Measurable fun ω => rankShare lab fun i => g (draw i ω) := by
  unfold rankShare
  exact (Finset.measurable_sum _ fun p _ => pair_measurable hd hg p).div_const _

theorem rankShare_integral (hd : DrawnCases P pos neg lab draw) (hg : Measurable g) (h1 : 0 < numLab lab true) (h0 : 0 < numLab lab false) :
    Integrable (fun ω => rankShare lab fun i => g (draw i ω)) P ∧ ∫ ω, rankShare lab (fun i => g (draw i ω)) ∂P = rankProb pos neg g := by
  have h1' : (0 : ℝ) < numLab lab true := by exact_mod_cast h1
  have h0' : (0 : ℝ) < numLab lab false := by exact_mod_cast h0
  unfold rankShare
  refine ⟨(integrable_finsetSum _ fun p _ => pair_integrable hd hg p).div_const _, ?_⟩
  rw [integral_div, integral_finsetSum _ fun p _ => pair_integrable hd hg p, Finset.sum_congr rfl fun p hp => pair_integral hd hg hp, Finset.sum_const,
    card_rankPairs]
  simp only [nsmul_eq_mul, Nat.cast_mul]
  field_simp

theorem rankShare_variance (hd : DrawnCases P pos neg lab draw) (hg : Measurable g) (h1 : 0 < numLab lab true) (h0 : 0 < numLab lab false) :
    ∫ ω, (rankShare lab (fun i => g (draw i ω)) - rankProb pos neg g) ^ 2 ∂P ≤ (1 / numLab lab true + 1 / numLab lab false) / 4 := by
  have h1' : (0 : ℝ) < numLab lab true := by exact_mod_cast h1
  have h0' : (0 : ℝ) < numLab lab false := by exact_mod_cast h0
  have hZ : ∀ r : Fin n × Fin n, MemLp (fun ω => ordered (g (draw r.1 ω)) (g (draw r.2 ω)) - rankProb pos neg g) 2 P := fun r =>
    (pair_memLp hd hg r).sub (memLp_const _)
  have e : ∀ ω, (rankShare lab (fun i => g (draw i ω)) - rankProb pos neg g) ^ 2 = (∑ p ∈ rankPairs lab, ∑ q ∈ rankPairs lab,
      (ordered (g (draw p.1 ω)) (g (draw p.2 ω)) - rankProb pos neg g) * (ordered (g (draw q.1 ω)) (g (draw q.2 ω)) - rankProb pos neg g)) /
      (numLab lab true * numLab lab false) ^ 2 := by
    intro ω
    rw [← Finset.sum_mul_sum, ← sq, Finset.sum_sub_distrib, Finset.sum_const, card_rankPairs, ← div_pow]
    unfold rankShare
    simp only [nsmul_eq_mul, Nat.cast_mul]
    congr 1
    field_simp
  have hcount : ∀ p ∈ rankPairs lab, ∑ q ∈ rankPairs lab, (if p.1 = q.1 ∨ p.2 = q.2 then (1 / 4 : ℝ) else 0) ≤
      (numLab lab true + numLab lab false) / 4 := by
    intro p _
    have a : ∑ q ∈ rankPairs lab, (if p.1 = q.1 ∨ p.2 = q.2 then (1 / 4 : ℝ) else 0) ≤
        ∑ q ∈ rankPairs lab, ((if p.1 = q.1 then (1 / 4 : ℝ) else 0) + if p.2 = q.2 then (1 / 4 : ℝ) else 0) := by
      refine Finset.sum_le_sum fun q _ => ?_
      by_cases x : p.1 = q.1 <;> by_cases y : p.2 = q.2 <;> simp [x, y]
    have b1 : ∑ q ∈ rankPairs lab, (if p.1 = q.1 then (1 / 4 : ℝ) else 0) ≤ numLab lab false / 4 := by
      unfold rankPairs numLab
      rw [Finset.sum_product_right]
      refine (Finset.sum_le_card_nsmul _ _ (1 / 4 : ℝ) fun y _ => ?_).trans (by simp [nsmul_eq_mul, div_eq_mul_inv])
      rw [Finset.sum_ite_eq]
      split_ifs <;> norm_num
    have b2 : ∑ q ∈ rankPairs lab, (if p.2 = q.2 then (1 / 4 : ℝ) else 0) ≤ numLab lab true / 4 := by
      unfold rankPairs numLab
      rw [Finset.sum_product]
      refine (Finset.sum_le_card_nsmul _ _ (1 / 4 : ℝ) fun y _ => ?_).trans (by simp [nsmul_eq_mul, div_eq_mul_inv])
      rw [Finset.sum_ite_eq]
      split_ifs <;> norm_num
    rw [Finset.sum_add_distrib] at a
    linarith
  have hpq : ∀ p q : Fin n × Fin n, Integrable (fun ω => (ordered (g (draw p.1 ω)) (g (draw p.2 ω)) - rankProb pos neg g) *
      (ordered (g (draw q.1 ω)) (g (draw q.2 ω)) - rankProb pos neg g)) P := fun p q => (hZ p).integrable_mul (hZ q)
  simp only [e]
  rw [integral_div, integral_finsetSum _ fun p _ => integrable_finsetSum _ fun q _ => hpq p q]
  have hsum : ∑ p ∈ rankPairs lab, ∫ ω, ∑ q ∈ rankPairs lab, (ordered (g (draw p.1 ω)) (g (draw p.2 ω)) - rankProb pos neg g) *
      (ordered (g (draw q.1 ω)) (g (draw q.2 ω)) - rankProb pos neg g) ∂P ≤
      (numLab lab true * numLab lab false) * ((numLab lab true + numLab lab false) / 4) := by
    refine (Finset.sum_le_card_nsmul _ _ ((numLab lab true + numLab lab false) / 4 : ℝ) fun p hp => ?_).trans (by
      rw [card_rankPairs, nsmul_eq_mul, Nat.cast_mul])
    rw [integral_finsetSum _ fun q _ => hpq p q]
    exact (Finset.sum_le_sum fun q hq => pair_cov hd hg hp hq).trans (hcount p hp)
  rw [div_le_iff₀ (by positivity)]
  refine hsum.trans (le_of_eq ?_)
  field_simp
  ring

/-- Chebyshev's inequality for the share. -/
theorem rankShare_close (hd : DrawnCases P pos neg lab draw) (hg : Measurable g) (h1 : 0 < numLab lab true) (h0 : 0 < numLab lab false) {ε : ℝ}
    (hε : 0 < ε) : P.real {ω | ε ≤ |rankShare lab (fun i => g (draw i ω)) - rankProb pos neg g|} ≤
      (1 / numLab lab true + 1 / numLab lab false) / (4 * ε ^ 2) := by
  have hint : Integrable (fun ω => (rankShare lab (fun i => g (draw i ω)) - rankProb pos neg g) ^ 2) P := by
    have : MemLp (fun ω => rankShare lab fun i => g (draw i ω)) 2 P := by
      unfold rankShare
      have := (memLp_finset_sum (rankPairs lab) fun p _ => pair_memLp hd hg p).const_mul (numLab lab true * numLab lab false : ℝ)⁻¹
      refine this.congr_norm ?_ ?_
      · exact (rankShare_measurable hd hg).aestronglyMeasurable
      · exact .of_forall fun ω => by rw [div_eq_inv_mul]
    exact (this.sub (memLp_const _)).integrable_sq
  have h := mul_meas_ge_le_integral_of_nonneg (μ := P) (.of_forall fun ω => sq_nonneg (rankShare lab (fun i => g (draw i ω)) - rankProb pos neg g)) hint (ε ^ 2)
  have e : {ω | ε ≤ |rankShare lab (fun i => g (draw i ω)) - rankProb pos neg g|} =
      {ω | ε ^ 2 ≤ (rankShare lab (fun i => g (draw i ω)) - rankProb pos neg g) ^ 2} := by
    ext ω
    rw [Set.mem_ofPred_eq, Set.mem_ofPred_eq, ← sq_abs (rankShare lab _ - _), sq_le_sq₀ hε.le (abs_nonneg _)]
  rw [e, le_div_iff₀ (by positivity)]
  have hv := rankShare_variance hd hg h1 h0
  linarith

end
end Mlp.Props
