import Verif.Props.TExact
import Mathlib.Probability.CentralLimitTheorem
import Mathlib.Probability.StrongLaw
import Mathlib.Probability.Independence.InfinitePi
import Mathlib.MeasureTheory.Measure.Portmanteau
import Mathlib.Probability.ProbabilityMassFunction.Integrals
import Mathlib.Probability.Distributions.Uniform

/-! # C130: t intervals and t tests for many data of any distribution -/

namespace Mlp.Props
open Mlp.Paper Mlp.Spec Mlp.Lemmas MeasureTheory ProbabilityTheory Set Filter
open scoped NNReal ENNReal Topology

variable {Ω : Type} [MeasurableSpace Ω] {P : Measure Ω} [IsProbabilityMeasure P]

/-- An endless stream of data: independent, of the same distribution, with mean `m` and a finite variance that is
not 0. -/
structure DataStream (P : Measure Ω) (X : ℕ → Ω → ℝ) (m : ℝ) : Prop where
  meas : ∀ i, Measurable (X i)
  indep : iIndepFun X P
  same : ∀ i, P.map (X i) = P.map (X 0)
  square : Integrable (fun ω => X 0 ω ^ 2) P
  mean : ∫ ω, X 0 ω ∂P = m
  spread : ∫ ω, (X 0 ω - m) ^ 2 ∂P ≠ 0

/-- The first `n` data. -/
def observedN (X : ℕ → Ω → ℝ) (n : ℕ) (ω : Ω) : List ℝ := observed (fun i : Fin n => X i) ω

theorem observedN_length (X : ℕ → Ω → ℝ) (n : ℕ) (ω : Ω) : (observedN X n ω).length = n := observed_length _ ω

theorem observedN_avg (X : ℕ → Ω → ℝ) (n : ℕ) (ω : Ω) : avg (observedN X n ω) = (∑ i ∈ Finset.range n, X i ω) / n := by
  unfold observedN
  rw [observed_avg, Finset.sum_range]

theorem observedN_steiner {n : ℕ} (hn : 0 < n) (X : ℕ → Ω → ℝ) (ω : Ω) (m : ℝ) :
    sqDev (observedN X n ω) = ∑ i ∈ Finset.range n, (X i ω - m) ^ 2 - n * (avg (observedN X n ω) - m) ^ 2 := by
  have := observed_steiner hn (fun i : Fin n => X i) ω m
  rw [Finset.sum_range, this]
  unfold observedN
  ring

section
variable {X : ℕ → Ω → ℝ} {m : ℝ}

theorem DataStream.ident (h : DataStream P X m) (i : ℕ) : IdentDistrib (X i) (X 0) P P :=
  ⟨(h.meas i).aemeasurable, (h.meas 0).aemeasurable, h.same i⟩

theorem DataStream.memLp (h : DataStream P X m) : MemLp (X 0) 2 P :=
  (memLp_two_iff_integrable_sq (h.meas 0).aestronglyMeasurable).2 h.square

theorem DataStream.integrable (h : DataStream P X m) : Integrable (X 0) P := h.memLp.integrable (by norm_num)

theorem DataStream.var_eq (h : DataStream P X m) : Var[X 0; P] = ∫ ω, (X 0 ω - m) ^ 2 ∂P := by
  rw [variance_eq_integral (h.meas 0).aemeasurable, h.mean]

theorem DataStream.var_pos (h : DataStream P X m) : 0 < Var[X 0; P] :=
  lt_of_le_of_ne (variance_nonneg _ _) (by rw [h.var_eq]; exact h.spread.symm)

/-- The average converges to the mean. -/
theorem DataStream.avg_tendsto (h : DataStream P X m) :
    ∀ᵐ ω ∂P, Tendsto (fun n => avg (observedN X n ω)) atTop (𝓝 m) := by
  have := strong_law_ae_real X h.integrable (fun i j hij => h.indep.indepFun hij) h.ident
  rw [h.mean] at this
  simpa only [observedN_avg] using this

/-- The sample variance converges to the variance. -/
theorem DataStream.sampleVar_tendsto (h : DataStream P X m) :
    ∀ᵐ ω ∂P, Tendsto (fun n : ℕ => sqDev (observedN X n ω) / ((n : ℝ) - 1)) atTop (𝓝 Var[X 0; P]) := by
  have hd : ∀ i, Measurable fun ω => (X i ω - m) ^ 2 := fun i => ((h.meas i).sub_const m).pow_const 2
  have h2 : Integrable (fun ω => (X 0 ω - m) ^ 2) P := by
    have := ((h.memLp.sub (memLp_const m)).integrable_sq)
    simpa using this
  have hs := strong_law_ae_real (fun i ω => (X i ω - m) ^ 2) h2
    (fun i j hij => (h.indep.comp (fun _ x => (x - m) ^ 2) fun _ => by fun_prop).indepFun hij)
    (fun i => (h.ident i).comp (u := fun x => (x - m) ^ 2) (by fun_prop))
  filter_upwards [h.avg_tendsto, hs] with ω ha hb
  rw [h.var_eq]
  have hr : Tendsto (fun n : ℕ => (n : ℝ) / ((n : ℝ) - 1)) atTop (𝓝 1) := by
    have := tendsto_natCast_div_add_atTop (𝕜 := ℝ) (-1)
    simpa [sub_eq_add_neg] using this
  have hc : Tendsto (fun n : ℕ => (n : ℝ) / ((n : ℝ) - 1) *
      ((∑ i ∈ Finset.range n, (X i ω - m) ^ 2) / n - (avg (observedN X n ω) - m) ^ 2)) atTop
      (𝓝 (1 * ((∫ ω, (X 0 ω - m) ^ 2 ∂P) - (m - m) ^ 2))) :=
    hr.mul (hb.sub ((ha.sub_const m).pow 2))
  have e : 1 * ((∫ ω, (X 0 ω - m) ^ 2 ∂P) - (m - m) ^ 2) = ∫ ω, (X 0 ω - m) ^ 2 ∂P := by ring
  rw [e] at hc
  refine hc.congr' ?_
  filter_upwards [eventually_gt_atTop 1] with n hn
  have hn0 : (0 : ℝ) < n := by exact_mod_cast (by omega : 0 < n)
  have hn1 : (0 : ℝ) < (n : ℝ) - 1 := by
    have : (1 : ℝ) < n := by exact_mod_cast hn
    linarith
  rw [observedN_steiner (by omega) X ω m]
  field_simp

/-- The sample standard deviation. -/
noncomputable def sampleSd (X : ℕ → Ω → ℝ) (n : ℕ) (ω : Ω) : ℝ := Real.sqrt (sqDev (observedN X n ω) / ((n : ℝ) - 1))

theorem observedN_stdErr (X : ℕ → Ω → ℝ) (n : ℕ) (ω : Ω) : stdErr (observedN X n ω) = sampleSd X n ω / Real.sqrt n := by
  unfold stdErr sampleSd
  rw [observedN_length]

theorem DataStream.sd_tendsto (h : DataStream P X m) :
    ∀ᵐ ω ∂P, Tendsto (fun n => sampleSd X n ω) atTop (𝓝 (Real.sqrt Var[X 0; P])) := by
  filter_upwards [h.sampleVar_tendsto] with ω hω
  exact (Real.continuous_sqrt.tendsto _).comp hω

theorem observedN_tStat (X : ℕ → Ω → ℝ) (n : ℕ) (ω : Ω) (m : ℝ) :
    tStat m (observedN X n ω) = (Real.sqrt n)⁻¹ * (∑ i ∈ Finset.range n, X i ω - n * m) * (sampleSd X n ω)⁻¹ := by
  unfold tStat
  rw [observedN_stdErr, observedN_avg]
  rcases Nat.eq_zero_or_pos n with rfl | hn
  · simp
  · have hn0 : (0 : ℝ) < n := by exact_mod_cast hn
    have hs : 0 < Real.sqrt n := Real.sqrt_pos.2 hn0
    have e : (n : ℝ) = Real.sqrt n * Real.sqrt n := (Real.mul_self_sqrt hn0.le).symm
    rcases eq_or_ne (sampleSd X n ω) 0 with h0 | h0
    · simp [h0]
    · have : (∑ i ∈ Finset.range n, X i ω) / n - m = (∑ i ∈ Finset.range n, X i ω - n * m) / n := by field_simp
      rw [this]
      field_simp
      rw [Real.sq_sqrt hn0.le]
      ring

theorem observedN_measurable_sd (h : ∀ i, Measurable (X i)) (n : ℕ) : Measurable (sampleSd X n) := by
  have e : sampleSd X n = fun ω => Real.sqrt ((∑ i ∈ Finset.range n, (X i ω - (∑ i ∈ Finset.range n, X i ω) / n) ^ 2) /
      ((n : ℝ) - 1)) := by
    funext ω
    unfold sampleSd observedN
    rw [observed_sqDev, observed_avg, Finset.sum_range, Finset.sum_range]
  rw [e]
  fun_prop

/-- **The t statistic is asymptotically standard normal.** -/
theorem DataStream.tStat_tendsto (h : DataStream P X m) :
    TendstoInDistribution (fun n ω => tStat m (observedN X n ω)) atTop (fun x : ℝ => x) (fun _ => P) (gaussianReal 0 1) := by
  have hσ : 0 < Real.sqrt Var[X 0; P] := Real.sqrt_pos.2 h.var_pos
  have hv : Var[X 0; P].toNNReal ≠ 0 := by simpa using h.var_pos
  have hclt := tendstoInDistribution_inv_sqrt_mul_sum_sub (P' := gaussianReal 0 Var[X 0; P].toNNReal) (Y := id)
    HasLaw.id h.memLp h.indep h.ident
  rw [h.mean] at hclt
  have hm := observedN_measurable_sd h.meas
  have hsd : TendstoInMeasure P (fun n ω => (sampleSd X n ω)⁻¹) atTop fun _ => (Real.sqrt Var[X 0; P])⁻¹ := by
    refine tendstoInMeasure_of_tendsto_ae (fun n => ((hm n).inv).aestronglyMeasurable) ?_
    filter_upwards [h.sd_tendsto] with ω hω
    exact hω.inv₀ hσ.ne'
  have := hclt.continuous_comp_prodMk_of_tendstoInMeasure_const (g := fun z : ℝ × ℝ => z.1 * z.2) (by fun_prop) hsd
    (fun n => (hm n).inv.aemeasurable)
  have hl : (gaussianReal 0 Var[X 0; P].toNNReal).map (fun x : ℝ => x * (Real.sqrt Var[X 0; P])⁻¹) = gaussianReal 0 1 := by
    rw [gaussianReal_map_mul_const]
    congr 1
    · simp
    · ext
      simp [Real.sq_sqrt h.var_pos.le, h.var_pos.le, h.var_pos.ne']
  refine ⟨fun n => ?_, measurable_id.aemeasurable, ?_⟩
  · have := this.forall_aemeasurable n
    refine this.congr (.of_forall fun ω => ?_)
    exact (observedN_tStat X n ω m).symm
  · have ht := this.tendsto
    refine Tendsto.congr (fun n => Subtype.ext ?_) (ht.trans (le_of_eq (congrArg 𝓝 (Subtype.ext ?_))))
    · refine congrArg (fun f => Measure.map f P) (funext fun ω => ?_)
      exact (observedN_tStat X n ω m).symm
    · exact hl.trans Measure.map_id'.symm

/-- The probability that a standard normal number is at most `x` away from 0. -/
noncomputable def normalWithin (x : ℝ) : ℝ := (gaussianReal 0 1).real (Icc (-x) x)

theorem gauss_point (x : ℝ) : gaussianReal 0 1 {x} = 0 :=
  gaussianReal_absolutelyContinuous 0 one_ne_zero (by simp)

theorem DataStream.prob_tendsto (h : DataStream P X m) {E : Set ℝ} (hE : MeasurableSet E)
    (h0 : gaussianReal 0 1 (frontier E) = 0) :
    Tendsto (fun n => P.real {ω | tStat m (observedN X n ω) ∈ E}) atTop (𝓝 ((gaussianReal 0 1).real E)) := by
  have hT := h.tStat_tendsto
  have := ProbabilityMeasure.tendsto_measure_of_null_frontier_of_tendsto' hT.tendsto (E := E)
    (by simpa [Measure.map_id'] using h0)
  simp only [ProbabilityMeasure.coe_mk, Measure.map_id'] at this
  have h2 := (ENNReal.tendsto_toReal (measure_ne_top (gaussianReal 0 1) E)).comp this
  refine h2.congr fun n => ?_
  rw [Function.comp_apply, Measure.map_apply_of_aemeasurable (hT.forall_aemeasurable n) hE]
  rfl

theorem DataStream.within_tendsto (h : DataStream P X m) {q : ℝ} (hq : 0 ≤ q) :
    Tendsto (fun n => P.real {ω | |tStat m (observedN X n ω)| ≤ q}) atTop (𝓝 (normalWithin q)) := by
  have := h.prob_tendsto (E := Icc (-q) q) measurableSet_Icc (by
    rw [frontier_Icc (by linarith)]
    exact measure_mono_null (t := {-q} ∪ {q}) (by intro x; simp [or_comm]) (measure_union_null (gauss_point _) (gauss_point _)))
  simp only [mem_Icc, ← abs_le] at this
  exact this

theorem DataStream.inside_tendsto (h : DataStream P X m) {q : ℝ} (hq : 0 < q) :
    Tendsto (fun n => P.real {ω | |tStat m (observedN X n ω)| < q}) atTop (𝓝 (normalWithin q)) := by
  have := h.prob_tendsto (E := Ioo (-q) q) measurableSet_Ioo (by
    rw [frontier_Ioo (by linarith)]
    exact measure_mono_null (t := {-q} ∪ {q}) (by intro x; simp [or_comm]) (measure_union_null (gauss_point _) (gauss_point _)))
  have e : (gaussianReal 0 1).real (Ioo (-q) q) = normalWithin q := by
    unfold normalWithin
    refine measureReal_congr ?_
    have h1 : ∀ᵐ x ∂gaussianReal 0 1, x ≠ -q := by simpa [ae_iff] using gauss_point (-q)
    have h2 : ∀ᵐ x ∂gaussianReal 0 1, x ≠ q := by simpa [ae_iff] using gauss_point q
    filter_upwards [h1, h2] with x hx hy
    refine propext ⟨fun hh => ⟨hh.1.le, hh.2.le⟩, fun hh => ⟨lt_of_le_of_ne hh.1 hx.symm, lt_of_le_of_ne hh.2 hy⟩⟩
  rw [e] at this
  simpa only [mem_Ioo, ← abs_lt] using this

theorem normalWithin_zero : normalWithin 0 = 0 := by
  unfold normalWithin
  simp [measureReal_def, gauss_point]

theorem normalWithin_mono {x y : ℝ} (h : x ≤ y) : normalWithin x ≤ normalWithin y :=
  measureReal_mono (Icc_subset_Icc (by linarith) h)

theorem normalWithin_continuousOn : ContinuousOn normalWithin (Ici 0) := by
  have hi : ∀ a b : ℝ, IntervalIntegrable (gaussianPDFReal 0 1) volume a b := fun a b =>
    (integrable_gaussianPDFReal 0 1).intervalIntegrable
  have hc : Continuous fun x : ℝ => (∫ t in (0)..x, gaussianPDFReal 0 1 t) - ∫ t in (0)..(-x), gaussianPDFReal 0 1 t :=
    (intervalIntegral.continuous_primitive hi 0).sub ((intervalIntegral.continuous_primitive hi 0).comp continuous_neg)
  refine hc.continuousOn.congr fun x hx => ?_
  have hx : (0 : ℝ) ≤ x := hx
  unfold normalWithin
  rw [measureReal_def, gaussianReal_apply_eq_integral _ one_ne_zero, ENNReal.toReal_ofReal
    (setIntegral_nonneg measurableSet_Icc fun t _ => gaussianPDFReal_nonneg _ _ _), integral_Icc_eq_integral_Ioc,
    ← intervalIntegral.integral_of_le (by linarith)]
  exact (intervalIntegral.integral_interval_sub_left (hi _ _) (hi _ _)).symm

theorem normalWithin_exists_gt {y : ℝ} (hy : y < 1) : ∃ x, 0 ≤ x ∧ y < normalWithin x := by
  have h := tendsto_measure_iUnion_atTop (μ := gaussianReal 0 1) (s := fun n : ℕ => Icc (-(n : ℝ)) n)
    (fun a b hab => Icc_subset_Icc (by simpa using hab) (by simpa using hab))
  have hu : (⋃ n : ℕ, Icc (-(n : ℝ)) n) = univ := by
    refine eq_univ_of_forall fun x => ?_
    obtain ⟨n, hn⟩ := exists_nat_ge |x|
    exact mem_iUnion.2 ⟨n, abs_le.1 hn⟩
  rw [hu, measure_univ] at h
  have h2 := (ENNReal.tendsto_toReal ENNReal.one_ne_top).comp h
  simp only [ENNReal.toReal_one] at h2
  obtain ⟨n, hn⟩ := (h2.eventually (lt_mem_nhds hy)).exists
  exact ⟨n, by positivity, hn⟩

/-- Every probability below 1 is attained. -/
theorem normalWithin_surj {y : ℝ} (h0 : 0 ≤ y) (h1 : y < 1) : ∃ x, 0 ≤ x ∧ normalWithin x = y := by
  obtain ⟨b, hb, hlt⟩ := normalWithin_exists_gt h1
  obtain ⟨x, hx, rfl⟩ := intermediate_value_Icc hb (normalWithin_continuousOn.mono fun x hx => hx.1)
    ⟨by rw [normalWithin_zero]; exact h0, hlt.le⟩
  exact ⟨x, hx.1, rfl⟩

/-! ### Student's t distribution tends to the normal distribution -/

/-- Independent repetitions of the same experiment. -/
theorem iid_stream {S : Type} [MeasurableSpace S] {μ : Measure S} [IsProbabilityMeasure μ] {f : S → ℝ} (hf : Measurable f) {m : ℝ}
    (h2 : Integrable (fun s => f s ^ 2) μ) (hm : ∫ s, f s ∂μ = m) (hs : ∫ s, (f s - m) ^ 2 ∂μ ≠ 0) :
    DataStream (Measure.infinitePi fun _ : ℕ => μ) (fun i ω => f (ω i)) m where
  meas i := hf.comp (measurable_pi_apply i)
  indep := iIndepFun_infinitePi (P := fun _ : ℕ => μ) (X := fun (_ : ℕ) (s : S) => f s) fun _ => hf
  same i := by
    have e : ∀ i : ℕ, (fun ω : ℕ → S => f (ω i)) = f ∘ fun ω => ω i := fun _ => rfl
    rw [e, e, ← Measure.map_map hf (measurable_pi_apply i), ← Measure.map_map hf (measurable_pi_apply 0),
      Measure.infinitePi_map_eval, Measure.infinitePi_map_eval]
  square := (measurePreserving_eval_infinitePi (fun _ : ℕ => μ) 0).integrable_comp_of_integrable h2
  mean := by
    have hp := measurePreserving_eval_infinitePi (fun _ : ℕ => μ) 0
    have h3 := integral_map (μ := Measure.infinitePi fun _ : ℕ => μ) hp.measurable.aemeasurable
      (f := f) (by rw [hp.map_eq]; exact hf.aestronglyMeasurable)
    rw [hp.map_eq] at h3
    exact h3.symm.trans hm
  spread := by
    have hp := measurePreserving_eval_infinitePi (fun _ : ℕ => μ) 0
    have h3 := integral_map (μ := Measure.infinitePi fun _ : ℕ => μ) hp.measurable.aemeasurable
      (f := fun s => (f s - m) ^ 2) (by rw [hp.map_eq]; exact ((hf.sub_const m).pow_const 2).aestronglyMeasurable)
    rw [hp.map_eq] at h3
    exact fun h => hs (h3.trans h)

/-- A stream of standard normal numbers. -/
theorem gauss_stream : DataStream (Measure.infinitePi fun _ : ℕ => gaussianReal 0 1) (fun i ω => ω i) 0 :=
  iid_stream measurable_id (memLp_id_gaussianReal 2).integrable_sq integral_id_gaussianReal (by
    have h3 := variance_id_gaussianReal (μ := 0) (v := 1)
    rw [variance_eq_integral measurable_id.aemeasurable] at h3
    have h4 := integral_id_gaussianReal (μ := 0) (v := 1)
    simp only [id] at h3 ⊢
    rw [h4] at h3
    rw [h3]
    simp)

theorem gauss_firstN (n : ℕ) : NormalSample (Measure.infinitePi fun _ : ℕ => gaussianReal 0 1)
    (fun (i : Fin n) (ω : ℕ → ℝ) => ω i) 0 1 where
  meas i := measurable_pi_apply (i : ℕ)
  indep := gauss_stream.indep.precomp (g := fun i : Fin n => (i : ℕ)) Fin.val_injective
  law _ := Measure.infinitePi_map_eval _ _
  pos := one_ne_zero

/-- The t distribution with many degrees of freedom is nearly the normal distribution. -/
theorem studentT_tendsto {q : ℝ} (hq : 0 ≤ q) :
    Tendsto (fun n => 2 * (studentT (n - 1)).cdf q - 1) atTop (𝓝 (normalWithin q)) := by
  refine (gauss_stream.within_tendsto hq).congr' ?_
  filter_upwards [eventually_ge_atTop 2] with n hn
  obtain ⟨ν, rfl⟩ : ∃ ν, n = ν + 1 := ⟨n - 1, by omega⟩
  exact tStat_within (by omega) (gauss_firstN (ν + 1)) hq

/-- If two sequences of increasing functions have the same limit, which takes all values in [0, 1), then the points where the
second sequence has the value `c` are points where the first one has almost that value. -/
theorem sandwich {G H : ℕ → ℝ → ℝ} (hG : ∀ n, Monotone (G n)) (hH : ∀ n, 2 ≤ n → Monotone (H n))
    (hGl : ∀ x, 0 < x → Tendsto (fun n => G n x) atTop (𝓝 (normalWithin x)))
    (hHl : ∀ x, 0 < x → Tendsto (fun n => H n x) atTop (𝓝 (normalWithin x))) {c : ℝ} (h0 : 0 < c) (h1 : c < 1) {q : ℕ → ℝ}
    (hq : ∀ n, 2 ≤ n → H n (q n) = c) : Tendsto (fun n => G n (q n)) atTop (𝓝 c) := by
  rw [Metric.tendsto_atTop]
  intro ε hε
  obtain ⟨x1, hx1, e1⟩ := normalWithin_surj (y := max (c / 2) (c - ε / 2)) (le_max_of_le_left (by linarith))
    (max_lt (by linarith) (by linarith))
  obtain ⟨x2, hx2, e2⟩ := normalWithin_surj (y := min ((1 + c) / 2) (c + ε / 2)) (le_min (by linarith) (by linarith))
    (min_lt_of_left_lt (by linarith))
  have l1 : normalWithin x1 < c := by rw [e1]; exact max_lt (by linarith) (by linarith)
  have l2 : c < normalWithin x2 := by rw [e2]; exact lt_min (by linarith) (by linarith)
  have k1 : c - ε / 2 ≤ normalWithin x1 := by rw [e1]; exact le_max_right _ _
  have k2 : normalWithin x2 ≤ c + ε / 2 := by rw [e2]; exact min_le_right _ _
  have p1 : 0 < x1 := lt_of_le_of_ne hx1 fun he => by
    rw [← he, normalWithin_zero] at e1
    have := le_max_left (c / 2) (c - ε / 2)
    rw [← e1] at this; linarith
  have p2 : 0 < x2 := lt_of_le_of_ne hx2 fun he => by
    rw [← he, normalWithin_zero] at l2
    linarith
  have ev1 := (hHl x1 p1).eventually (gt_mem_nhds l1)
  have ev2 := (hHl x2 p2).eventually (lt_mem_nhds l2)
  have ev3 := (hGl x1 p1).eventually (lt_mem_nhds (show c - ε < normalWithin x1 by linarith))
  have ev4 := (hGl x2 p2).eventually (gt_mem_nhds (show normalWithin x2 < c + ε by linarith))
  obtain ⟨N, hN⟩ := eventually_atTop.1 ((ev1.and ev2).and ((ev3.and ev4).and (eventually_ge_atTop 2)))
  refine ⟨N, fun n hn => ?_⟩
  obtain ⟨⟨a1, a2⟩, ⟨a3, a4⟩, a5⟩ := hN n hn
  have b1 : x1 ≤ q n := le_of_lt (lt_of_not_ge fun hge => by
    have := hH n a5 hge
    rw [hq n a5] at this; linarith)
  have b2 : q n ≤ x2 := le_of_lt (lt_of_not_ge fun hge => by
    have := hH n a5 hge
    rw [hq n a5] at this; linarith)
  have := hG n b1
  have := hG n b2
  rw [Real.dist_eq, abs_lt]
  constructor <;> linarith

/-- It becomes improbable that the statistic is 0 (in particular that all data are equal). -/
theorem DataStream.zero_tendsto (h : DataStream P X m) :
    Tendsto (fun n => P.real {ω | tStat m (observedN X n ω) = 0}) atTop (𝓝 0) := by
  have := h.within_tendsto (q := 0) le_rfl
  rw [normalWithin_zero] at this
  simpa only [abs_nonpos_iff] using this

/-- Two events that differ only where a third one, which becomes improbable, happens. -/
theorem prob_tendsto_of_close {A B Z : ℕ → Set Ω} {c : ℝ} (hB : Tendsto (fun n => P.real (B n)) atTop (𝓝 c))
    (hZ : Tendsto (fun n => P.real (Z n)) atTop (𝓝 0)) (h : ∀ᶠ n in atTop, ∀ ω, ω ∉ Z n → (ω ∈ A n ↔ ω ∈ B n)) :
    Tendsto (fun n => P.real (A n)) atTop (𝓝 c) := by
  refine tendsto_of_tendsto_of_tendsto_of_le_of_le' (by simpa using hB.sub hZ) (by simpa using hB.add hZ) ?_ ?_
  · filter_upwards [h] with n hn
    have h1 : P.real (B n) ≤ P.real (A n ∪ Z n) := measureReal_mono fun ω hω => by
      by_cases hz : ω ∈ Z n
      · exact Or.inr hz
      · exact Or.inl ((hn ω hz).2 hω)
    have := measureReal_union_le (μ := P) (A n) (Z n)
    linarith
  · filter_upwards [h] with n hn
    have h1 : P.real (A n) ≤ P.real (B n ∪ Z n) := measureReal_mono fun ω hω => by
      by_cases hz : ω ∈ Z n
      · exact Or.inr hz
      · exact Or.inl ((hn ω hz).1 hω)
    exact h1.trans (measureReal_union_le (μ := P) (B n) (Z n))

theorem observedN_measurable_tStat (h : ∀ i, Measurable (X i)) (n : ℕ) (m : ℝ) : Measurable fun ω => tStat m (observedN X n ω) := by
  have := observedN_measurable_sd h n
  simp only [observedN_tStat]
  fun_prop

theorem student_mono {n : ℕ} (hn : 2 ≤ n) : Monotone fun x => 2 * (studentT (n - 1)).cdf x - 1 := fun x y hxy => by
  have := (studentT_isSymmetric (ν := n - 1) (by omega)).strictMono.monotone hxy
  simp only
  linarith

/-- **C130, error bars.**  For a stream of data of any distribution with finite variance, the probability that the interval of
`t_EB` around the average of the first `n` data contains the true mean tends to the confidence as `n` grows. -/
theorem C130_t_EB (h : DataStream P X m) {c : ℝ} (h0 : 0 < c) (h1 : c < 1) :
    ProbTendsto P (fun n => {ω | ∃ e : ℝ, tEB studentT (finVec (observedN X n ω)) (.fin c) = .ok (.fin e) ∧
      avg (observedN X n ω) - e ≤ m ∧ m ≤ avg (observedN X n ω) + e}) c := by
  refine ⟨(eventually_ge_atTop 2).mono fun n hn => tEB_event hn (fun i => h.meas i) m h0 h1, ?_⟩
  have hB := sandwich (G := fun n x => P.real {ω | |tStat m (observedN X n ω)| ≤ x})
    (H := fun n x => 2 * (studentT (n - 1)).cdf x - 1)
    (fun n x y hxy => measureReal_mono fun ω hω => le_trans hω hxy) (fun n hn => student_mono hn)
    (fun x hx => h.within_tendsto hx.le) (fun x hx => studentT_tendsto hx.le) h0 h1
    (q := fun n => (studentT (n - 1)).ppf ((1 + c) / 2)) (fun n hn => by
      rw [(studentT_isSymmetric (by omega)).cdf_ppf _ (by linarith) (by linarith)]
      ring)
  refine prob_tendsto_of_close hB h.zero_tendsto ?_
  filter_upwards [eventually_ge_atTop 2] with n hn ω hω
  have hω : tStat m (observedN X n ω) ≠ 0 := hω
  have hs : 0 < stdErr (observedN X n ω) :=
    lt_of_le_of_ne (stdErr_nonneg _) fun hs => hω (by unfold tStat; rw [← hs, div_zero])
  obtain ⟨e, he, -, hev, -⟩ := C45_t_EB studentT (xs := observedN X n ω) (by rw [observedN_length]; omega)
    (by rw [observedN_length]; exact studentT_isSymmetric (by omega)) h0 h1
  rw [observedN_length] at hev
  show (∃ e : ℝ, _ ∧ _) ↔ |tStat m (observedN X n ω)| ≤ _
  unfold tStat
  rw [abs_div, abs_of_pos hs, div_le_iff₀ hs, ← hev, abs_le]
  constructor
  · rintro ⟨e', he', h2, h3⟩
    rw [he] at he'
    cases he'
    constructor <;> linarith
  · rintro ⟨h2, h3⟩
    exact ⟨e, he, by linarith, by linarith⟩

/-- **C130, tests.**  If the true mean is 0, the probability that the p-value of `t_test` on the first `n` data is at most
`α` tends to `α`. -/
theorem C130_t_test (h : DataStream P X 0) {α : ℝ} (h0 : 0 ≤ α) (h1 : α ≤ 1) :
    ProbTendsto P (fun n => {ω | ∃ p : ℝ, tTest studentT (finVec (observedN X n ω)) = .ok (.fin p) ∧ p ≤ α}) α := by
  refine ⟨(eventually_ge_atTop 2).mono fun n hn => tTest_event hn (fun i => h.meas i) α, ?_⟩
  have key : ∀ n, 2 ≤ n → ∀ ω, tStat 0 (observedN X n ω) ≠ 0 → ∃ p : ℝ, tTest studentT (finVec (observedN X n ω)) = .ok (.fin p) ∧
      p = 2 * (1 - (studentT (n - 1)).cdf |tStat 0 (observedN X n ω)|) ∧ 0 < p ∧ p ≤ 1 := by
    intro n hn ω hω
    have hs : 0 < stdErr (observedN X n ω) :=
      lt_of_le_of_ne (stdErr_nonneg _) fun hs => hω (by unfold tStat; rw [← hs, div_zero])
    obtain ⟨p, hp, -, hp1, hpv, -⟩ := C45_t_test studentT (xs := observedN X n ω) (by rw [observedN_length]; omega)
      (by rw [observedN_length]; exact studentT_isSymmetric (by omega))
    have hne : ∃ x ∈ observedN X n ω, x ≠ avg (observedN X n ω) := by
      by_contra hc
      push Not at hc
      exact hs.ne' ((stdErr_eq_zero (by rw [observedN_length]; omega)).2 hc)
    obtain ⟨hpv, hp0⟩ := hpv hne
    refine ⟨p, hp, ?_, hp0, hp1⟩
    rw [hpv, observedN_length]
    unfold tStat
    rw [sub_zero, abs_div, abs_of_pos hs]
  rcases h0.lt_or_eq with h0 | rfl
  · rcases h1.lt_or_eq with h1 | rfl
    · have hB := sandwich (G := fun n x => P.real {ω | |tStat 0 (observedN X n ω)| < x})
        (H := fun n x => 2 * (studentT (n - 1)).cdf x - 1) (c := 1 - α)
        (fun n x y hxy => measureReal_mono fun ω hω => lt_of_lt_of_le hω hxy) (fun n hn => student_mono hn)
        (fun x hx => h.inside_tendsto hx) (fun x hx => studentT_tendsto hx.le) (by linarith) (by linarith)
        (q := fun n => (studentT (n - 1)).ppf (1 - α / 2)) (fun n hn => by
          rw [(studentT_isSymmetric (by omega)).cdf_ppf _ (by linarith) (by linarith)]
          ring)
      have hC : Tendsto (fun n => P.real {ω | |tStat 0 (observedN X n ω)| < (studentT (n - 1)).ppf (1 - α / 2)}ᶜ)
          atTop (𝓝 α) := by
        have := hB.const_sub 1
        rw [sub_sub_cancel] at this
        refine this.congr fun n => (probReal_compl_eq_one_sub ?_).symm
        have hm := observedN_measurable_tStat h.meas n 0
        exact measurableSet_lt hm.abs measurable_const
      refine prob_tendsto_of_close hC h.zero_tendsto ?_
      filter_upwards [eventually_ge_atTop 2] with n hn ω hω
      obtain ⟨p, hp, hpv, -, -⟩ := key n hn ω hω
      have hsym := studentT_isSymmetric (ν := n - 1) (by omega)
      have hcq := hsym.cdf_ppf (1 - α / 2) (by linarith) (by linarith)
      show (∃ p : ℝ, _ ∧ _) ↔ ¬ |tStat 0 (observedN X n ω)| < _
      rw [not_lt, ← hsym.strictMono.le_iff_le, hcq]
      constructor
      · rintro ⟨p', hp', hle⟩
        rw [hp] at hp'
        cases hp'
        linarith
      · intro hle
        exact ⟨p, hp, by linarith⟩
    · refine prob_tendsto_of_close (B := fun _ => univ) (by simp) h.zero_tendsto ?_
      filter_upwards [eventually_ge_atTop 2] with n hn ω hω
      obtain ⟨p, hp, -, -, hp1⟩ := key n hn ω hω
      exact ⟨fun _ => mem_univ _, fun _ => ⟨p, hp, hp1⟩⟩
  · refine prob_tendsto_of_close (B := fun _ => ∅) (by simp) h.zero_tendsto ?_
    filter_upwards [eventually_ge_atTop 2] with n hn ω hω
    obtain ⟨p, hp, -, hp0, -⟩ := key n hn ω hω
    refine ⟨?_, fun hh => absurd hh (notMem_empty _)⟩
    rintro ⟨p', hp', hle⟩
    rw [hp] at hp'
    cases hp'
    exact absurd hp0 (not_lt.2 hle)

/-! ### With limits -/

/-- `get_mean_and_EB` with method `'t'`: clipping at limits that the true mean respects does not change whether the interval
contains it. -/
theorem getMeanEB_t_limits {xs : List ℝ} (h2 : 2 ≤ xs.length) {lower upper : Flt ℝ} (hv : ValidLimits lower upper)
    (hw : Within lower upper xs) {c : ℝ} (h0 : 0 < c) (h1 : c < 1) (counts : List (List Nat)) :
    ∃ e0 e : ℝ, tEB studentT (finVec xs) (.fin c) = .ok (.fin e0) ∧
      getMeanEB studentT (finVec xs) (.fin c) (.fin 0) lower upper .t counts = .ok (.fin (avg xs), .fin e) ∧
      0 ≤ e ∧ e ≤ e0 ∧ ∀ m : ℝ, lower ≤ .fin m → .fin m ≤ upper →
        (avg xs - e ≤ m ∧ m ≤ avg xs + e ↔ avg xs - e0 ≤ m ∧ m ≤ avg xs + e0) := by
  have hne : xs ≠ [] := by rintro rfl; simp at h2
  obtain ⟨e0, he0, hpos, -, -⟩ := C45_t_EB studentT h2 (studentT_isSymmetric (ν := xs.length - 1) (by omega)) h0 h1
  obtain ⟨ha1, ha2⟩ := avg_mem hne hw
  have hb2 : Flt.fin (2 * 0) ≤ upper.sub lower := by
    rw [mul_zero]
    exact (Flt.le_iff.1 ((range_ok_iff lower upper).2 hv)).2
  obtain ⟨e, he, -, hcl, -⟩ := C44_clip (EB := .fin e0) hv le_rfl ha1 ha2 hb2
  obtain ⟨c1, c2, -, c4, -, -, c7⟩ := hcl (by simp)
  have c4 := c4 (by simpa using hpos)
  have : ∃ r : ℝ, e = .fin r := by
    cases e with
    | fin r => exact ⟨r, rfl⟩
    | nan => exact absurd rfl c1
    | pinf => simp at c4
    | ninf => simp at c2
  obtain ⟨r, rfl⟩ := this
  have c2 : 0 ≤ r := by simpa using c2
  have c4 : r ≤ e0 := by simpa using c4
  refine ⟨e0, r, he0, ?_, c2, c4, fun m hm1 hm2 => ⟨fun hh => ⟨by linarith, by linarith⟩, fun hh => ?_⟩⟩
  · unfold getMeanEB
    rw [pyAssert_bind, if_pos ((within_finVec hv.2.1 xs).2 hw)]
    dsimp only
    rw [he0, ok_bind, mean_finVec hne, clipChk_id (by simp) hv.1 hv.2.1 ha1 ha2, ok_bind, he]
    rfl
  · have := c7 m hm1 hm2 (by rw [Flt.fin_le_fin, abs_le]; constructor <;> linarith)
    rw [Flt.fin_le_fin, abs_le] at this
    constructor <;> linarith

/-- The mean is within the limits of the data. -/
theorem DataStream.mean_within (h : DataStream P X m) {lower upper : Flt ℝ} (hv : ValidLimits lower upper)
    (hw : ∀ ω, lower ≤ .fin (X 0 ω) ∧ .fin (X 0 ω) ≤ upper) : lower ≤ .fin m ∧ .fin m ≤ upper := by
  rw [← h.mean]
  constructor
  · cases lower with
    | fin l =>
      have := integral_mono (μ := P) (integrable_const l) h.integrable fun ω => by simpa using (hw ω).1
      simpa using this
    | ninf => simp
    | pinf => exact absurd rfl hv.2.2.2.1
    | nan => exact absurd rfl hv.1
  · cases upper with
    | fin u =>
      have := integral_mono (μ := P) h.integrable (integrable_const u) fun ω => by simpa using (hw ω).2
      simpa using this
    | pinf => simp
    | ninf => exact absurd rfl hv.2.2.2.2
    | nan => exact absurd rfl hv.2.1

theorem observedN_within {lower upper : Flt ℝ} (hw : ∀ i ω, lower ≤ .fin (X i ω) ∧ .fin (X i ω) ≤ upper) (n : ℕ) (ω : Ω) :
    Within lower upper (observedN X n ω) := fun x hx => by
  unfold observedN observed at hx
  obtain ⟨i, rfl⟩ := List.mem_ofFn.1 hx
  exact hw i ω

/-- **C130, `get_mean_and_EB`.**  With limits that all data respect, finite or not, the probability that the mean and error
bar with method `'t'` contain the true mean tends to the confidence. -/
theorem C130_mean_and_EB (h : DataStream P X m) {lower upper : Flt ℝ} (hv : ValidLimits lower upper)
    (hw : ∀ i ω, lower ≤ .fin (X i ω) ∧ .fin (X i ω) ≤ upper) {c : ℝ} (h0 : 0 < c) (h1 : c < 1)
    (counts : ℕ → Ω → List (List Nat)) :
    ProbTendsto P (fun n => {ω | ∃ mu e : ℝ, getMeanEB studentT (finVec (observedN X n ω)) (.fin c) (.fin 0) lower upper .t
      (counts n ω) = .ok (.fin mu, .fin e) ∧ mu - e ≤ m ∧ m ≤ mu + e}) c := by
  refine (C130_t_EB h h0 h1).congr ?_
  obtain ⟨hm1, hm2⟩ := h.mean_within hv (hw 0)
  filter_upwards [eventually_ge_atTop 2] with n hn
  ext ω
  obtain ⟨e0, e, he0, he, -, -, hiff⟩ := getMeanEB_t_limits (xs := observedN X n ω) (by rw [observedN_length]; omega) hv
    (observedN_within hw n ω) h0 h1 (counts n ω)
  simp only [mem_ofPred_eq, he0, he]
  constructor
  · rintro ⟨e', heq, hcov⟩
    cases heq
    exact ⟨_, _, rfl, (hiff m hm1 hm2).2 hcov⟩
  · rintro ⟨mu, e', heq, hcov⟩
    cases heq
    exact ⟨_, rfl, (hiff m hm1 hm2).1 hcov⟩

/-! ### A concrete case: coins -/

end

/-- A fair coin. -/
noncomputable def penny : Measure Bool := (PMF.uniformOfFintype Bool).toMeasure

noncomputable instance : IsProbabilityMeasure penny := by unfold penny; infer_instance

/-- The loss of a guess that is wrong if the coin shows `true`. -/
noncomputable def coinLoss (b : Bool) : ℝ := if b then 1 else 0

theorem penny_integral (f : Bool → ℝ) : ∫ b, f b ∂penny = (f true + f false) / 2 := by
  unfold penny
  rw [PMF.integral_eq_sum]
  simp
  ring

/-- The zero-one losses of endless guesses. -/
theorem coin_stream : DataStream (Measure.infinitePi fun _ : ℕ => penny) (fun i ω => coinLoss (ω i)) (1 / 2) :=
  iid_stream (Measurable.of_discrete) (.of_finite) (by rw [penny_integral]; simp [coinLoss])
    (by rw [penny_integral]; norm_num [coinLoss])

/-- C130 for zero-one losses with their limits. -/
example : ProbTendsto (Measure.infinitePi fun _ : ℕ => penny) (fun n => {ω | ∃ mu e : ℝ,
    getMeanEB studentT (finVec (observedN (fun i ω => coinLoss (ω i)) n ω)) (.fin (95 / 100)) (.fin 0) (.fin 0) (.fin 1) .t [] =
      .ok (.fin mu, .fin e) ∧ mu - e ≤ 1 / 2 ∧ 1 / 2 ≤ mu + e}) (95 / 100) :=
  C130_mean_and_EB coin_stream (by simp [ValidLimits]) (fun i ω => by
    unfold coinLoss
    split <;> simp) (by norm_num) (by norm_num) fun _ _ => []

/-- C130 for `t_EB` and `t_test`, the losses of two guesses that are opposite to each other. -/
example : ProbTendsto (Measure.infinitePi fun _ : ℕ => penny) (fun n => {ω | ∃ e : ℝ,
      tEB studentT (finVec (observedN (fun i ω => coinLoss (ω i)) n ω)) (.fin (95 / 100)) = .ok (.fin e) ∧
      avg (observedN (fun i ω => coinLoss (ω i)) n ω) - e ≤ 1 / 2 ∧ 1 / 2 ≤ avg (observedN (fun i ω => coinLoss (ω i)) n ω) + e})
      (95 / 100) ∧
    ProbTendsto (Measure.infinitePi fun _ : ℕ => penny) (fun n => {ω | ∃ p : ℝ,
      tTest studentT (finVec (observedN (fun i ω => coinLoss (ω i) - coinLoss (!ω i)) n ω)) = .ok (.fin p) ∧ p ≤ 5 / 100})
      (5 / 100) :=
  ⟨C130_t_EB coin_stream (by norm_num) (by norm_num),
    C130_t_test (iid_stream (f := fun b => coinLoss b - coinLoss (!b)) .of_discrete .of_finite
      (by rw [penny_integral]; simp [coinLoss]) (by rw [penny_integral]; norm_num [coinLoss])) (by norm_num) (by norm_num)⟩

end Mlp.Props
