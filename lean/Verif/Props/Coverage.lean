import Verif.Spec.Likely
import Verif.Lemmas.Bernstein
import Verif.Props.Summary
import Mathlib.MeasureTheory.Integral.Pi
import Mathlib.Probability.ProbabilityMassFunction.Integrals

/-! # C93: Bernstein intervals and tests keep their promise

The empirical Bernstein bound (Audibert, Munos, Szepesvári 2007) for the numbers that the code computes. -/

namespace Mlp.Props
open Mlp.Paper Mlp.Spec MeasureTheory ProbabilityTheory

section
variable {Ω : Type} [MeasurableSpace Ω] {P : Measure Ω} [IsProbabilityMeasure P]

/-- The observed sample: the list of the values of the random variables. -/
def observed {n : ℕ} (X : Fin n → Ω → ℝ) (ω : Ω) : List ℝ := List.ofFn fun i => X i ω

theorem observed_length {n : ℕ} (X : Fin n → Ω → ℝ) (ω : Ω) : (observed X ω).length = n := by
  simp [observed]

theorem observed_avg {n : ℕ} (X : Fin n → Ω → ℝ) (ω : Ω) : avg (observed X ω) = (∑ i, X i ω) / n := by
  simp [avg, observed, List.sum_ofFn]

theorem observed_sqDev {n : ℕ} (X : Fin n → Ω → ℝ) (ω : Ω) :
    sqDev (observed X ω) = ∑ i, (X i ω - avg (observed X ω)) ^ 2 := by
  unfold sqDev
  generalize avg (observed X ω) = a
  simp [observed, List.map_ofFn, List.sum_ofFn, Function.comp_def]

/-- Sum of squares about any point. -/
theorem observed_steiner {n : ℕ} (hn : 0 < n) (X : Fin n → Ω → ℝ) (ω : Ω) (m : ℝ) :
    ∑ i, (X i ω - m) ^ 2 = sqDev (observed X ω) + n * (avg (observed X ω) - m) ^ 2 := by
  have hn' : (n : ℝ) ≠ 0 := by positivity
  have hs : ∑ i, X i ω = n * avg (observed X ω) := by rw [observed_avg]; field_simp
  rw [observed_sqDev]
  generalize avg (observed X ω) = a at *
  have e : ∀ i, (X i ω - m) ^ 2 = (X i ω - a) ^ 2 + (2 * (a - m) * X i ω + (m ^ 2 - a ^ 2)) := fun i => by ring
  simp only [e]
  rw [Finset.sum_add_distrib, Finset.sum_add_distrib, ← Finset.mul_sum, hs]
  simp
  ring

/-- The empirical Bernstein bound. -/
theorem empirical_bernstein {n : ℕ} (hn : 0 < n) {X : Fin n → Ω → ℝ} (hX : ∀ i, Measurable (X i))
    (hi : iIndepFun X P) {l u m : ℝ} (hlu : l < u) (hb : ∀ i ω, l ≤ X i ω ∧ X i ω ≤ u)
    (hm : ∀ i, ∫ ω, X i ω ∂P = m) {x : ℝ} (hx : 0 < x) :
    P.real {ω | bernWidth (observed X ω) (u - l) x ≤ |avg (observed X ω) - m|} ≤ 3 * Real.exp (-x) := by
  have hn' : (0 : ℝ) < n := by exact_mod_cast hn
  set R := u - l with hR
  have hR0 : 0 < R := by linarith
  have hXint : ∀ i, Integrable (X i) P := fun i =>
    Integrable.of_mem_Icc l u (hX i).aemeasurable (Filter.Eventually.of_forall fun ω => hb i ω)
  have hml : l ≤ m ∧ m ≤ u := by
    rw [← hm ⟨0, hn⟩]
    have h1 := integral_mono (μ := P) (integrable_const l) (hXint ⟨0, hn⟩) fun ω => (hb _ ω).1
    have h2 := integral_mono (μ := P) (hXint ⟨0, hn⟩) (integrable_const u) fun ω => (hb _ ω).2
    simp at h1 h2
    exact ⟨h1, h2⟩
  let Z : Fin n → Ω → ℝ := fun i ω => X i ω - m
  have hZ : ∀ i, Measurable (Z i) := fun i => (hX i).sub_const m
  have hZi : iIndepFun Z P := hi.comp (fun _ y => y - m) fun _ => measurable_id.sub_const m
  have hZb : ∀ i ω, |Z i ω| ≤ R := fun i ω => by
    simp only [Z]; rw [abs_le]
    constructor <;> linarith [(hb i ω).1, (hb i ω).2]
  have hZ0 : ∀ i, ∫ ω, Z i ω ∂P = 0 := fun i => by
    simp only [Z]
    rw [integral_sub (hXint i) (integrable_const m), hm]; simp
  have hZ2n : ∀ i, 0 ≤ ∫ ω, Z i ω ^ 2 ∂P := fun i => integral_nonneg fun ω => sq_nonneg _
  have hvar : ∀ i, ∫ ω, Z i ω ^ 2 ∂P ≤ (R / 2) ^ 2 := fun i => by
    have h1 := variance_le_sq_of_bounded (μ := P) (X := X i) (a := l) (b := u)
      (Filter.Eventually.of_forall fun ω => hb i ω) (hX i).aemeasurable
    rw [variance_eq_integral (hX i).aemeasurable, hm i] at h1
    exact h1
  set v := ∑ i, ∫ ω, Z i ω ^ 2 ∂P with hv
  have hvle : v ≤ n * (R / 2) ^ 2 := by
    calc v ≤ ∑ _i : Fin n, (R / 2) ^ 2 := Finset.sum_le_sum fun i _ => hvar i
      _ = n * (R / 2) ^ 2 := by simp
  have hv0 : 0 ≤ v := Finset.sum_nonneg fun i _ => hZ2n i
  have hsum : ∀ ω, ∑ i, Z i ω = n * (avg (observed X ω) - m) := fun ω => by
    simp only [Z]
    rw [Finset.sum_sub_distrib, observed_avg]
    simp
    field_simp
  rcases hv0.eq_or_lt with hvz | hvpos
  · -- no variance: the sample is constant almost surely
    have hz : ∀ i, ∀ᵐ ω ∂P, Z i ω = 0 := by
      intro i
      have h0 : ∫ ω, Z i ω ^ 2 ∂P = 0 :=
        (Finset.sum_eq_zero_iff_of_nonneg fun i _ => hZ2n i).1 hvz.symm i (Finset.mem_univ i)
      rw [integral_eq_zero_iff_of_nonneg (fun ω => sq_nonneg _)
        (Bern.integrable_of_abs_le ((hZ i).pow_const 2) (B := R ^ 2) fun ω => by
          rw [abs_pow]; exact pow_le_pow_left₀ (abs_nonneg _) (hZb i ω) 2)] at h0
      filter_upwards [h0] with ω h
      simpa using h
    have hall : ∀ᵐ ω ∂P, ∀ i, Z i ω = 0 := ae_all_iff.2 hz
    have hnull : P.real {ω | bernWidth (observed X ω) R x ≤ |avg (observed X ω) - m|} = 0 := by
      rw [measureReal_eq_zero_iff]
      refine measure_mono_null (fun ω hω => ?_) (ae_iff.1 hall)
      intro h
      have h1 := hsum ω
      rw [Finset.sum_eq_zero fun i _ => h i] at h1
      have h2 : avg (observed X ω) - m = 0 := by
        rcases mul_eq_zero.1 h1.symm with h | h
        · exact absurd h hn'.ne'
        · exact h
      rw [Set.mem_setOf_eq, h2, abs_zero] at hω
      unfold bernWidth at hω
      rw [observed_length] at hω
      have : 0 < 3 * x * R / n := by positivity
      have h3 : 0 ≤ Real.sqrt (sqDev (observed X ω) / n) * Real.sqrt (2 * x / n) := by positivity
      linarith
    rw [hnull]
    positivity
  · let Y : Fin n → Ω → ℝ := fun i ω => Z i ω ^ 2
    have hY : ∀ i, Measurable (Y i) := fun i => (hZ i).pow_const 2
    have hYi : iIndepFun Y P := hZi.comp (fun _ y => y ^ 2) fun _ => measurable_id.pow_const 2
    have hYb : ∀ i ω, Y i ω ≤ R ^ 2 := fun i ω => by
      simp only [Y]; rw [← sq_abs]; exact pow_le_pow_left₀ (abs_nonneg _) (hZb i ω) 2
    have hY2 : ∑ i, ∫ ω, Y i ω ^ 2 ∂P ≤ R ^ 2 * v := by
      rw [hv, Finset.mul_sum]
      apply Finset.sum_le_sum
      intro i _
      rw [← integral_const_mul]
      have hYint : Integrable (Y i) P := Bern.integrable_of_abs_le (hY i) (B := R ^ 2) fun ω => by
        rw [abs_of_nonneg (sq_nonneg _)]; exact hYb i ω
      apply integral_mono
      · exact Bern.integrable_of_abs_le ((hY i).pow_const 2) (B := (R ^ 2) ^ 2) fun ω => by
          rw [abs_of_nonneg (sq_nonneg _)]
          exact pow_le_pow_left₀ (sq_nonneg _) (hYb i ω) 2
      · exact hYint.const_mul _
      · intro ω
        change Y i ω ^ 2 ≤ R ^ 2 * Y i ω
        rw [sq (Y i ω)]
        exact mul_le_mul_of_nonneg_right (hYb i ω) (sq_nonneg _)
    have hA1 := Bern.bernstein hZ hZi hR0 hZb hZ0 hvpos le_rfl hx
    have hA2 := Bern.bernstein (P := P) (Z := fun i ω => -Z i ω) (fun i => (hZ i).neg)
      (hZi.comp (fun _ y => -y) fun _ => measurable_neg) hR0 (fun i ω => by rw [abs_neg]; exact hZb i ω)
      (fun i => by rw [integral_neg, hZ0, neg_zero]) hvpos (by simp [hv]) hx
    have hA3 := Bern.lower_tail hY hYi (fun i ω => sq_nonneg _) hYb (w := R ^ 2 * v) (by positivity) hY2 hx
    have hsub : {ω | bernWidth (observed X ω) R x ≤ |avg (observed X ω) - m|} ⊆
        ({ω | Real.sqrt (2 * v * x) + R * x / 3 ≤ ∑ i, Z i ω} ∪
          {ω | Real.sqrt (2 * v * x) + R * x / 3 ≤ ∑ i, -Z i ω}) ∪
        {ω | Real.sqrt (2 * (R ^ 2 * v) * x) ≤ ∑ i, ((∫ ω, Y i ω ∂P) - Y i ω)} := by
      intro ω hω
      by_contra hc
      simp only [Set.mem_union, Set.mem_setOf_eq, not_or, not_le] at hc
      obtain ⟨⟨c1, c2⟩, c3⟩ := hc
      rw [Set.mem_setOf_eq] at hω
      refine absurd hω (not_le.2 ?_)
      rw [Finset.sum_neg_distrib] at c2
      rw [Finset.sum_sub_distrib] at c3
      have hYs : ∑ i, Y i ω = sqDev (observed X ω) + n * (avg (observed X ω) - m) ^ 2 :=
        observed_steiner hn X ω m
      rw [hYs] at c3
      rw [hsum] at c1 c2
      set D := |avg (observed X ω) - m| with hD
      set S := sqDev (observed X ω) with hS
      have hS0 : 0 ≤ S := sqDev_nonneg _
      have hD2 : (avg (observed X ω) - m) ^ 2 = D ^ 2 := (sq_abs _).symm
      rw [hD2] at c3
      have hc : n * D < Real.sqrt (2 * v * x) + R * x / 3 := by
        rw [hD]
        rcases abs_cases (avg (observed X ω) - m) with ⟨e, -⟩ | ⟨e, -⟩
        · rw [e]; exact c1
        · rw [e, mul_neg]; exact c2
      have hq : Real.sqrt (2 * v * x) = n * (Real.sqrt 2 * (Real.sqrt (x / n) * Real.sqrt (v / n))) := by
        rw [← Real.sqrt_mul (by positivity), ← Real.sqrt_mul (by norm_num)]
        rw [show 2 * v * x = (n : ℝ) ^ 2 * (2 * (x / n * (v / n))) by field_simp,
          Real.sqrt_mul (by positivity), Real.sqrt_sq hn'.le]
      have hq2 : Real.sqrt (2 * (R ^ 2 * v) * x) = R * Real.sqrt (2 * v * x) := by
        rw [show 2 * (R ^ 2 * v) * x = R ^ 2 * (2 * v * x) by ring, Real.sqrt_mul (by positivity),
          Real.sqrt_sq hR0.le]
      have hl2 : Real.sqrt (x / n) ^ 2 = x / n := Real.sq_sqrt (by positivity)
      have hσ2 : Real.sqrt (v / n) ^ 2 = v / n := Real.sq_sqrt (by positivity)
      have hs2 : Real.sqrt (S / n) ^ 2 = S / n := Real.sq_sqrt (by positivity)
      have hl0 : 0 < Real.sqrt (x / n) := Real.sqrt_pos.2 (by positivity)
      have hσle : Real.sqrt (v / n) ≤ R / 2 := by
        apply Real.sqrt_le_iff.2
        refine ⟨by positivity, ?_⟩
        rw [div_le_iff₀ hn']; linarith
      have key := Bern.dev_step (σ := Real.sqrt (v / n) / R) (s := Real.sqrt (S / n) / R)
        (l := Real.sqrt (x / n)) (D := D / R) (by positivity)
        (by rw [div_le_iff₀ hR0]; linarith) (by positivity) hl0 (by positivity)
        (by
          rw [div_lt_iff₀ hR0, hl2]
          have e : (Real.sqrt 2 * (Real.sqrt (x / n) * (Real.sqrt (v / n) / R)) + x / n / 3) * R =
              Real.sqrt 2 * (Real.sqrt (x / n) * Real.sqrt (v / n)) + R * x / 3 / n := by
            field_simp
          rw [e]
          rw [hq] at hc
          have : n * D < n * (Real.sqrt 2 * (Real.sqrt (x / n) * Real.sqrt (v / n)) + R * x / 3 / n) := by
            rw [mul_add]
            refine lt_of_lt_of_eq hc ?_
            congr 1
            field_simp
          exact lt_of_mul_lt_mul_left this hn'.le)
        (by
          rw [div_pow, div_pow, div_pow, hσ2, hs2]
          have e : v / n / R ^ 2 - (S / n / R ^ 2 + D ^ 2 / R ^ 2) = (v - (S + n * D ^ 2)) / (n * R ^ 2) := by
            field_simp
          rw [e, div_lt_iff₀ (by positivity)]
          rw [hq2, hq] at c3
          refine lt_of_lt_of_eq c3 ?_
          field_simp)
      rw [div_lt_iff₀ hR0, hl2] at key
      refine lt_of_lt_of_eq key ?_
      unfold bernWidth
      rw [observed_length, show 2 * x / (n : ℝ) = 2 * (x / n) by ring, Real.sqrt_mul (by norm_num), ← hS]
      field_simp
    calc P.real {ω | bernWidth (observed X ω) R x ≤ |avg (observed X ω) - m|}
        ≤ P.real (({ω | Real.sqrt (2 * v * x) + R * x / 3 ≤ ∑ i, Z i ω} ∪
          {ω | Real.sqrt (2 * v * x) + R * x / 3 ≤ ∑ i, -Z i ω}) ∪
        {ω | Real.sqrt (2 * (R ^ 2 * v) * x) ≤ ∑ i, ((∫ ω, Y i ω ∂P) - Y i ω)}) := measureReal_mono hsub
      _ ≤ Real.exp (-x) + Real.exp (-x) + Real.exp (-x) :=
          (measureReal_union_le _ _).trans (add_le_add ((measureReal_union_le _ _).trans (add_le_add hA1 hA2)) hA3)
      _ = 3 * Real.exp (-x) := by ring

/-- Bernstein bars exist for all observed samples. -/
theorem observed_within {n : ℕ} {X : Fin n → Ω → ℝ} {l u : ℝ} (hb : ∀ i ω, l ≤ X i ω ∧ X i ω ≤ u) (ω : Ω) :
    ∀ x ∈ observed X ω, l ≤ x ∧ x ≤ u := by
  intro x hx
  obtain ⟨i, rfl⟩ := (List.mem_ofFn' _ _).1 hx
  exact hb i ω

/-- **C93, strict coverage.** The numbers are drawn independently, possibly from different distributions on `[l, u]`
with the same mean `m`. The probability that `m` is not strictly inside the Bernstein interval is at most
`1 - confidence`. -/
theorem C93_strict {n : ℕ} (hn : 2 ≤ n) {X : Fin n → Ω → ℝ} (hX : ∀ i, Measurable (X i))
    (hi : iIndepFun X P) {l u m : ℝ} (hlu : l < u) (hb : ∀ i ω, l ≤ X i ω ∧ X i ω ≤ u)
    (hm : ∀ i, ∫ ω, X i ω ∂P = m) {c : ℝ} (h0 : 0 < c) (h1 : c < 1) :
    P.real {ω | ∃ e : ℝ, bernsteinEB (finVec (observed X ω)) (.fin l) (.fin u) (.fin c) = .ok (.fin e) ∧
      e ≤ |avg (observed X ω) - m|} ≤ 1 - c := by
  have hd : 0 < 1 - c := by linarith
  have h := empirical_bernstein (by omega) hX hi hlu hb hm (log_pos_conf h0 h1).2
  rw [Real.exp_neg, Real.exp_log (by positivity), inv_div, mul_div_cancel₀ _ (by norm_num)] at h
  refine le_trans (le_of_eq ?_) h
  congr 1
  ext ω
  simp only [Set.mem_setOf_eq]
  rw [(C47_bernstein_EB (by rw [observed_length]; exact hn) hlu.le (observed_within hb ω) h0 h1).1]
  constructor
  · rintro ⟨e, he, h⟩
    cases he
    exact h
  · exact fun h => ⟨_, rfl, h⟩

/-- The mean lies within the limits. -/
theorem mean_within {n : ℕ} (hn : 0 < n) {X : Fin n → Ω → ℝ} (hX : ∀ i, Measurable (X i)) {l u m : ℝ}
    (hb : ∀ i ω, l ≤ X i ω ∧ X i ω ≤ u) (hm : ∀ i, ∫ ω, X i ω ∂P = m) : l ≤ m ∧ m ≤ u := by
  have hXint : ∀ i, Integrable (X i) P := fun i =>
    Integrable.of_mem_Icc l u (hX i).aemeasurable (Filter.Eventually.of_forall fun ω => hb i ω)
  rw [← hm ⟨0, hn⟩]
  have h1 := integral_mono (μ := P) (integrable_const l) (hXint ⟨0, hn⟩) fun ω => (hb _ ω).1
  have h2 := integral_mono (μ := P) (hXint ⟨0, hn⟩) (integrable_const u) fun ω => (hb _ ω).2
  simp at h1 h2
  exact ⟨h1, h2⟩

theorem observed_avg_mem {n : ℕ} (hn : 0 < n) {X : Fin n → Ω → ℝ} {l u : ℝ}
    (hb : ∀ i ω, l ≤ X i ω ∧ X i ω ≤ u) (ω : Ω) : l ≤ avg (observed X ω) ∧ avg (observed X ω) ≤ u := by
  have hne : observed X ω ≠ [] := by
    intro h
    have := observed_length X ω
    rw [h] at this
    simp at this
    omega
  have h := avg_mem (lower := .fin l) (upper := .fin u) hne fun x hx =>
    ⟨by simpa using (observed_within hb ω x hx).1, by simpa using (observed_within hb ω x hx).2⟩
  simpa using h

/-- **C93, coverage.** For independent numbers in `[l, u]` with the same mean `m`, `bernstein_EB` succeeds on every outcome,
and the interval around the sample mean contains `m` with probability at least the confidence. -/
theorem C93_coverage {n : ℕ} (hn : 1 ≤ n) {X : Fin n → Ω → ℝ} (hX : ∀ i, Measurable (X i))
    (hi : iIndepFun X P) {l u m : ℝ} (hlu : l ≤ u) (hb : ∀ i ω, l ≤ X i ω ∧ X i ω ≤ u)
    (hm : ∀ i, ∫ ω, X i ω ∂P = m) {c : ℝ} (h0 : 0 < c) (h1 : c < 1) :
    (∀ ω, ∃ e : ℝ, bernsteinEB (finVec (observed X ω)) (.fin l) (.fin u) (.fin c) = .ok (.fin e) ∧ 0 ≤ e) ∧
    Likely P c {ω | ∃ e : ℝ, bernsteinEB (finVec (observed X ω)) (.fin l) (.fin u) (.fin c) = .ok (.fin e) ∧
      avg (observed X ω) - e ≤ m ∧ m ≤ avg (observed X ω) + e} := by
  have hmw := mean_within (by omega) hX hb hm
  rcases Nat.lt_or_ge 1 n with h2 | h2
  · have hE := fun ω => C47_bernstein_EB (xs := observed X ω) (by rw [observed_length]; exact h2) hlu
      (observed_within hb ω) h0 h1
    refine ⟨fun ω => ⟨_, (hE ω).1, (hE ω).2.1⟩, ?_⟩
    rcases hlu.lt_or_eq with hlt | heq
    · refine Likely.of_compl (C93_strict h2 hX hi hlt hb hm h0 h1) fun ω hω => ?_
      simp only [Set.mem_setOf_eq, not_exists, not_and, not_le] at hω
      have := hω _ (hE ω).1
      rw [abs_lt] at this
      exact ⟨_, (hE ω).1, by linarith, by linarith⟩
    · refine Likely.of_all h1.le fun ω => ⟨_, (hE ω).1, ?_⟩
      have h3 := observed_avg_mem (by omega) hb ω
      have h4 := (hE ω).2.1
      constructor <;> linarith [h3.1, h3.2, hmw.1, hmw.2]
  · have hE : ∀ ω, bernsteinEB (finVec (observed X ω)) (.fin l) (.fin u) (.fin c) = .ok (.fin (u - l)) := by
      intro ω
      have hv : ValidLimits (.fin l) (.fin u : Flt ℝ) := by simp [ValidLimits, hlu]
      rw [((C47_degenerate hv (noNaN_finVec _) (fun v hv' => by
        unfold finVec at hv'
        obtain ⟨x, hx, rfl⟩ := List.mem_map.1 hv'
        exact ⟨by simpa using (observed_within hb ω x hx).1, by simpa using (observed_within hb ω x hx).2⟩)
        h0 h1).1 (Or.inl (by simp [finVec, observed_length]; omega))).2]
      simp
    refine ⟨fun ω => ⟨_, hE ω, by linarith⟩, Likely.of_all h1.le fun ω => ⟨_, hE ω, ?_⟩⟩
    have h3 := observed_avg_mem (by omega) hb ω
    constructor <;> linarith [h3.1, h3.2, hmw.1, hmw.2]

/-- **C93, validity of the test.** If the true mean is 0, the p-value of `bernstein_test` is at most `α` with probability at
most `α`, for every `α ≥ 0` and every number of points. -/
theorem C93_test {n : ℕ} {X : Fin n → Ω → ℝ} (hX : ∀ i, Measurable (X i))
    (hi : iIndepFun X P) {l u : ℝ} (hlu : l ≤ u) (hb : ∀ i ω, l ≤ X i ω ∧ X i ω ≤ u)
    (hm : ∀ i, ∫ ω, X i ω ∂P = 0) {α : ℝ} (hα : 0 ≤ α) :
    (∀ ω, ∃ p : ℝ, bernsteinTest (finVec (observed X ω)) (.fin l) (.fin u) = .ok (.fin p) ∧ 0 < p ∧ p ≤ 1) ∧
    P.real {ω | ∃ p : ℝ, bernsteinTest (finVec (observed X ω)) (.fin l) (.fin u) = .ok (.fin p) ∧ p ≤ α} ≤ α := by
  have hv : ValidLimits (.fin l) (.fin u : Flt ℝ) := by simp [ValidLimits, hlu]
  have hwf : ∀ ω, ∀ v ∈ finVec (observed X ω), (Flt.fin l : Flt ℝ) ≤ v ∧ v ≤ .fin u := by
    intro ω v hv'
    unfold finVec at hv'
    obtain ⟨x, hx, rfl⟩ := List.mem_map.1 hv'
    exact ⟨by simpa using (observed_within hb ω x hx).1, by simpa using (observed_within hb ω x hx).2⟩
  have hone : (∀ ω, bernsteinTest (finVec (observed X ω)) (.fin l) (.fin u) = .ok (.fin 1)) →
      (∀ ω, ∃ p : ℝ, bernsteinTest (finVec (observed X ω)) (.fin l) (.fin u) = .ok (.fin p) ∧ 0 < p ∧ p ≤ 1) ∧
      P.real {ω | ∃ p : ℝ, bernsteinTest (finVec (observed X ω)) (.fin l) (.fin u) = .ok (.fin p) ∧ p ≤ α} ≤ α := by
    intro h
    refine ⟨fun ω => ⟨1, h ω, one_pos, le_rfl⟩, ?_⟩
    by_cases h1 : 1 ≤ α
    · exact measureReal_le_one.trans h1
    · have : {ω | ∃ p : ℝ, bernsteinTest (finVec (observed X ω)) (.fin l) (.fin u) = .ok (.fin p) ∧ p ≤ α} = ∅ := by
        ext ω
        simp only [Set.mem_setOf_eq, Set.mem_empty_iff_false, iff_false]
        rintro ⟨p, hp, hle⟩
        rw [h ω] at hp
        cases hp
        exact h1 hle
      rw [this]
      simpa using hα
  rcases Nat.lt_or_ge 1 n with h2 | h2
  · rcases hlu.lt_or_eq with hlt | heq
    · have hA := fun ω (c : ℝ) h0 h1 => C46_agree (c := c) (xs := observed X ω)
        (by rw [observed_length]; exact h2) hlt (observed_within hb ω) h0 h1
      have hp : ∀ ω, ∃ p : ℝ, bernsteinTest (finVec (observed X ω)) (.fin l) (.fin u) = .ok (.fin p) ∧ 0 < p ∧ p ≤ 1 := by
        intro ω
        obtain ⟨p, e, a, -, b, c, -⟩ := hA ω (1 / 2) (by norm_num) (by norm_num)
        exact ⟨p, a, b, c⟩
      refine ⟨hp, ?_⟩
      by_cases h1 : 1 ≤ α
      · exact measureReal_le_one.trans h1
      rcases hα.eq_or_lt with hz | hpos
      · have : {ω | ∃ p : ℝ, bernsteinTest (finVec (observed X ω)) (.fin l) (.fin u) = .ok (.fin p) ∧ p ≤ α} = ∅ := by
          ext ω
          simp only [Set.mem_setOf_eq, Set.mem_empty_iff_false, iff_false]
          rintro ⟨p, hp', hle⟩
          obtain ⟨q, hq, hq0, -⟩ := hp ω
          rw [hq] at hp'
          cases hp'
          linarith
        rw [this]
        simpa using hα
      · have h := C93_strict h2 hX hi hlt hb hm (c := 1 - α) (by linarith) (by linarith)
        rw [sub_sub_cancel] at h
        refine le_trans (measureReal_mono ?_) h
        rintro ω ⟨p, hp', hle⟩
        obtain ⟨q, e, a, b, -, -, -, hiff⟩ := hA ω (1 - α) (by linarith) (by linarith)
        rw [a] at hp'
        cases hp'
        rw [sub_sub_cancel] at hiff
        exact ⟨e, b, by rw [sub_zero]; exact hiff.1 hle⟩
    · exact hone fun ω => (C47_degenerate hv (noNaN_finVec _) (hwf ω) (c := 1 / 2) (by norm_num)
        (by norm_num)).2.1 (Or.inl (by rw [heq]))
  · exact hone fun ω => ((C47_degenerate hv (noNaN_finVec _) (hwf ω) (c := 1 / 2) (by norm_num)
      (by norm_num)).1 (Or.inl (by simp [finVec, observed_length]; omega))).1

/-- What `get_mean_and_EB` makes of a Bernstein bar. -/
theorem getMeanEB_bernstein (T : Nat → RefDist) {xs : List ℝ} (hne : xs ≠ []) {l u : ℝ} (hlu : l ≤ u)
    (hw : ∀ x ∈ xs, l ≤ x ∧ x ≤ u) {c e0 : ℝ} (he : bernsteinEB (finVec xs) (.fin l) (.fin u) (.fin c) = .ok (.fin e0))
    {counts : List (List Nat)} {b : ℝ} (hb : 0 ≤ b) (hb2 : 2 * b ≤ u - l) :
    getMeanEB T (finVec xs) (.fin c) (.fin b) (.fin l) (.fin u) .bernstein counts = .ok (.fin (avg xs),
        .fin (max b (min e0 (max (u - avg xs) (avg xs - l))))) := by
  have hv : ValidLimits (.fin l) (.fin u : Flt ℝ) := by simp [ValidLimits, hlu]
  have hwi : Within (.fin l) (.fin u) xs := fun x hx =>
    ⟨by simpa using (hw x hx).1, by simpa using (hw x hx).2⟩
  obtain ⟨ha1, ha2⟩ := avg_mem hne hwi
  have hb3 : Flt.fin (2 * b) ≤ (Flt.fin u).sub (.fin l) := by simpa using hb2
  have ht := (trivial_facts hv ha1 ha2 (not_lt.2 hb3)).2
  simp only [Flt.sub_fin, Flt.fmax_fin, Flt.fin_le_fin] at ht
  have hin := (within_finVec hv.2.1 xs).2 hwi
  unfold getMeanEB
  rw [pyAssert_bind, if_pos hin]
  dsimp only
  rw [he, ok_bind, mean_finVec hne, clipChk_id (by simp) hv.1 hv.2.1 ha1 ha2, ok_bind,
    clipEB_value _ hv hb ha1 ha2 hb3]
  simp only [Flt.sub_fin, Flt.fmax_fin, Flt.clip_fin]
  rw [clip_le_eq ht, ok_bind]
  rfl

/-- **C93, in `get_mean_and_EB`.** Cutting the bar at the trivial bar and raising it to a minimum keeps the coverage: with
method `'bernstein'`, the returned mean and error bar contain the true mean with probability at least the confidence. -/
theorem C93_mean_and_EB (T : Nat → RefDist) {n : ℕ} (hn : 1 ≤ n) {X : Fin n → Ω → ℝ} (hX : ∀ i, Measurable (X i))
    (hi : iIndepFun X P) {l u m : ℝ} (hlu : l ≤ u) (hb : ∀ i ω, l ≤ X i ω ∧ X i ω ≤ u)
    (hm : ∀ i, ∫ ω, X i ω ∂P = m) {c : ℝ} (h0 : 0 < c) (h1 : c < 1) {b : ℝ} (hb0 : 0 ≤ b) (hb2 : 2 * b ≤ u - l)
    (counts : Ω → List (List Nat)) :
    (∀ ω, ∃ e : ℝ, getMeanEB T (finVec (observed X ω)) (.fin c) (.fin b) (.fin l) (.fin u) .bernstein (counts ω) =
      .ok (.fin (avg (observed X ω)), .fin e)) ∧
    Likely P c {ω | ∃ mu e : ℝ, getMeanEB T (finVec (observed X ω)) (.fin c) (.fin b) (.fin l) (.fin u) .bernstein
        (counts ω) = .ok (.fin mu, .fin e) ∧ mu - e ≤ m ∧ m ≤ mu + e} := by
  have hmw := mean_within (by omega) hX hb hm
  obtain ⟨hE, hcov⟩ := C93_coverage hn hX hi hlu hb hm h0 h1
  have hne : ∀ ω, observed X ω ≠ [] := fun ω h => by
    have := observed_length X ω
    rw [h] at this
    simp at this
    omega
  have hval := fun ω e0 he => getMeanEB_bernstein T (hne ω) hlu (observed_within hb ω) (c := c) (e0 := e0) he
    (counts := counts ω) hb0 hb2
  refine ⟨fun ω => ?_, hcov.mono ?_⟩
  · obtain ⟨e0, he, -⟩ := hE ω
    exact ⟨_, hval ω e0 he⟩
  · rintro ω ⟨e0, he, hl, hu⟩
    refine ⟨_, _, hval ω e0 he, ?_⟩
    generalize avg (observed X ω) = a at *
    have k : |a - m| ≤ max b (min e0 (max (u - a) (a - l))) := by
      refine le_trans (le_min ?_ ?_) (le_max_right _ _)
      · rw [abs_le]; constructor <;> linarith
      · rcases abs_cases (a - m) with ⟨h, -⟩ | ⟨h, -⟩
        · rw [h]; exact le_trans (by linarith [hmw.1]) (le_max_right _ _)
        · rw [h]; exact le_trans (by linarith [hmw.2]) (le_max_left _ _)
    rw [abs_le] at k
    constructor <;> linarith [k.1, k.2]

end
/-! ### A concrete case: tosses of a fair coin -/

/-- A fair coin. -/
noncomputable def fairCoin : Measure Bool := (PMF.bernoulli (1 / 2) (by norm_num)).toMeasure

instance : IsProbabilityMeasure fairCoin := by unfold fairCoin; infer_instance

/-- `n` independent tosses, valued -1 and 1. -/
noncomputable def toss (n : ℕ) : Fin n → (Fin n → Bool) → ℝ := fun i ω => if ω i then 1 else -1

theorem toss_measurable (n : ℕ) (i : Fin n) : Measurable (toss n i) := by
  unfold toss
  exact (Measurable.of_discrete (f := fun b : Bool => if b then (1 : ℝ) else -1)).comp (measurable_pi_apply i)

theorem toss_indep (n : ℕ) : iIndepFun (toss n) (Measure.pi fun _ : Fin n => fairCoin) :=
  iIndepFun_pi (X := fun (_ : Fin n) (b : Bool) => if b then (1 : ℝ) else -1) fun _ => Measurable.of_discrete.aemeasurable

theorem toss_mean (n : ℕ) (i : Fin n) : ∫ ω, toss n i ω ∂(Measure.pi fun _ : Fin n => fairCoin) = 0 := by
  unfold toss
  rw [integral_comp_eval (μ := fun _ : Fin n => fairCoin) (f := fun b : Bool => if b then (1 : ℝ) else -1)
    Measurable.of_discrete.aestronglyMeasurable]
  unfold fairCoin
  rw [PMF.integral_eq_sum]
  have h1 : ((PMF.bernoulli (1 / 2) (by norm_num)) true).toReal = 1 / 2 := by
    rw [PMF.bernoulli_apply]; norm_num
  have h2 : ((PMF.bernoulli (1 / 2) (by norm_num)) false).toReal = 1 / 2 := by
    rw [PMF.bernoulli_apply]; norm_num
  simp only [Fintype.sum_bool, h1, h2, smul_eq_mul]
  norm_num

theorem toss_bounds (n : ℕ) (i : Fin n) (ω : Fin n → Bool) : (-1 : ℝ) ≤ toss n i ω ∧ toss n i ω ≤ 1 := by
  unfold toss
  split_ifs <;> norm_num

/-- With ten tosses the hypotheses of C93 are met. -/
example : Likely (Measure.pi fun _ : Fin 10 => fairCoin) (95 / 100) {ω | ∃ e : ℝ,
      bernsteinEB (finVec (observed (toss 10) ω)) (.fin (-1)) (.fin 1) (.fin (95 / 100)) = .ok (.fin e) ∧
        avg (observed (toss 10) ω) - e ≤ 0 ∧ 0 ≤ avg (observed (toss 10) ω) + e} ∧
    (Measure.pi fun _ : Fin 10 => fairCoin).real {ω | ∃ p : ℝ,
      bernsteinTest (finVec (observed (toss 10) ω)) (.fin (-1)) (.fin 1) = .ok (.fin p) ∧ p ≤ 5 / 100} ≤ 5 / 100 :=
  ⟨(C93_coverage (by norm_num) (toss_measurable 10) (toss_indep 10) (by norm_num) (toss_bounds 10) (toss_mean 10)
    (by norm_num) (by norm_num)).2,
   (C93_test (toss_measurable 10) (toss_indep 10) (by norm_num) (toss_bounds 10) (toss_mean 10) (by norm_num)).2⟩

end Mlp.Props
