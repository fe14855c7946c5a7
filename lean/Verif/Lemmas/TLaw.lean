import Verif.Lemmas.StudentT
import Mathlib.Probability.Distributions.Gaussian.Multivariate
import Mathlib.Probability.Independence.Basic

/-!
# The law of the t statistic

For independent normal data the ratio of mean and standard error has Student's t distribution.  No chi-squared
distribution is needed: the numerator is independent of the denominator, and the density of the ratio follows from
a change of scale.
-/

namespace Mlp.TLaw
open MeasureTheory ProbabilityTheory Set Mlp.Lemmas
open scoped ENNReal

/-- Integral of a product over a product measure. -/
theorem lintegral_pi_prod {f : ℝ → ℝ≥0∞} (hf : Measurable f) : ∀ {n : ℕ} (μ : Fin n → Measure ℝ)
    [∀ i, SigmaFinite (μ i)], ∫⁻ w, ∏ i, f (w i) ∂(Measure.pi μ) = ∏ i, ∫⁻ x, f x ∂(μ i)
  | 0, μ, _ => by simp
  | n + 1, μ, _ => by
    have hF : Measurable fun w : Fin (n + 1) → ℝ => ∏ i, f (w i) :=
      Finset.measurable_prod _ fun i _ => hf.comp (measurable_pi_apply i)
    rw [← ((measurePreserving_piFinSuccAbove μ 0).symm).lintegral_comp hF]
    simp_rw [MeasurableEquiv.piFinSuccAbove_symm_apply, Fin.insertNthEquiv, Fin.prod_univ_succ, Fin.insertNth_zero,
      Equiv.coe_fn_mk, Fin.cons_succ, Fin.zero_succAbove, cast_eq, Fin.cons_zero]
    rw [lintegral_prod_mul (f := f) (g := fun w : Fin n → ℝ => ∏ i, f (w i)) hf.aemeasurable
      (Finset.measurable_prod _ fun i _ => hf.comp (measurable_pi_apply i)).aemeasurable,
      lintegral_pi_prod hf fun i => μ i.succ]

/-- The density of independent standard normal numbers. -/
theorem pi_gaussian (n : ℕ) : (Measure.pi fun _ : Fin n => gaussianReal 0 1) =
    volume.withDensity fun w : Fin n → ℝ => ∏ i, gaussianPDF 0 1 (w i) := by
  refine Measure.pi_eq fun s hs => ?_
  rw [withDensity_apply _ (MeasurableSet.univ_pi hs), volume_pi, Measure.restrict_pi_pi,
    lintegral_pi_prod (measurable_gaussianPDF 0 1)]
  refine Finset.prod_congr rfl fun i _ => ?_
  rw [gaussianReal_of_var_ne_zero 0 one_ne_zero, withDensity_apply _ (hs i)]

/-- Root of the sum of squares. -/
noncomputable def rad {n : ℕ} (w : Fin n → ℝ) : ℝ := Real.sqrt (∑ i, w i ^ 2)

theorem rad_nonneg {n : ℕ} (w : Fin n → ℝ) : 0 ≤ rad w := Real.sqrt_nonneg _

theorem rad_sq {n : ℕ} (w : Fin n → ℝ) : rad w ^ 2 = ∑ i, w i ^ 2 :=
  Real.sq_sqrt (Finset.sum_nonneg fun _ _ => sq_nonneg _)

theorem measurable_rad {n : ℕ} : Measurable (rad (n := n)) := by
  unfold rad
  fun_prop

theorem rad_smul {n : ℕ} {a : ℝ} (ha : 0 ≤ a) (w : Fin n → ℝ) : rad (a • w) = a * rad w := by
  unfold rad
  simp only [Pi.smul_apply, smul_eq_mul, mul_pow, ← Finset.mul_sum]
  rw [Real.sqrt_mul (sq_nonneg a), Real.sqrt_sq ha]

theorem rad_ne_zero {ν : ℕ} (hν : 1 ≤ ν) : ∀ᵐ w ∂(Measure.pi fun _ : Fin ν => gaussianReal 0 1), rad w ≠ 0 := by
  have hm := measurePreserving_eval (fun _ : Fin ν => gaussianReal 0 1) ⟨0, hν⟩
  rw [ae_iff]
  have h0 : (Measure.pi fun _ : Fin ν => gaussianReal 0 1) (Function.eval (⟨0, hν⟩ : Fin ν) ⁻¹' {0}) = 0 := by
    rw [hm.measure_preimage (measurableSet_singleton _).nullMeasurableSet]
    have := nullSingletonClass_gaussianReal (μ := 0) (v := 1) one_ne_zero
    exact measure_singleton _
  refine measure_mono_null (fun w hw => ?_) h0
  simp only [not_not, mem_ofPred_eq] at hw
  unfold rad at hw
  rw [Real.sqrt_eq_zero (Finset.sum_nonneg fun _ _ => sq_nonneg _),
    Finset.sum_eq_zero_iff_of_nonneg fun _ _ => sq_nonneg _] at hw
  have := hw ⟨0, hν⟩ (Finset.mem_univ _)
  exact pow_eq_zero_iff (two_ne_zero) |>.1 this

/-- The product of standard normal densities. -/
theorem prod_pdf {n : ℕ} (w : Fin n → ℝ) : ∏ i, gaussianPDF 0 1 (w i) =
    ENNReal.ofReal ((Real.sqrt (2 * Real.pi))⁻¹ ^ n * Real.exp (-(rad w ^ 2) / 2)) := by
  simp only [gaussianPDF, gaussianPDFReal]
  rw [← ENNReal.ofReal_prod_of_nonneg fun i _ => by positivity, Finset.prod_mul_distrib, ← Real.exp_sum, rad_sq]
  simp [Finset.sum_div, Finset.sum_neg_distrib, neg_div]

/-- The density of the ratio at `x`. -/
noncomputable def dens (ν : ℕ) (x : ℝ) : ℝ≥0∞ :=
  ∫⁻ w : Fin ν → ℝ, gaussianPDF 0 1 (x * (rad w / Real.sqrt ν)) * ENNReal.ofReal (rad w / Real.sqrt ν)
    ∂(Measure.pi fun _ : Fin ν => gaussianReal 0 1)

theorem dens_eq {ν : ℕ} (hν : 1 ≤ ν) (x : ℝ) : dens ν x = dens ν 0 * ENNReal.ofReal (studentDensity ν x) := by
  have hν' : (0 : ℝ) < ν := by exact_mod_cast hν
  have key : ∀ x, dens ν x = ∫⁻ w : Fin ν → ℝ, ENNReal.ofReal ((Real.sqrt (2 * Real.pi))⁻¹ ^ (ν + 1) *
      Real.exp (-((1 + x ^ 2 / ν) * rad w ^ 2) / 2) * (rad w / Real.sqrt ν)) := by
    intro x
    unfold dens
    have hmr := measurable_rad (n := ν)
    have hm1 : Measurable fun w : Fin ν → ℝ => ∏ i, gaussianPDF 0 1 (w i) :=
      Finset.measurable_prod _ fun i _ => (measurable_gaussianPDF 0 1).comp (measurable_pi_apply i)
    have hm2 : Measurable fun w : Fin ν → ℝ =>
        gaussianPDF 0 1 (x * (rad w / Real.sqrt ν)) * ENNReal.ofReal (rad w / Real.sqrt ν) :=
      ((measurable_gaussianPDF 0 1).comp (by fun_prop)).mul (by fun_prop)
    rw [pi_gaussian, lintegral_withDensity_eq_lintegral_mul _ hm1 hm2]
    refine lintegral_congr fun w => ?_
    have hr := rad_nonneg w
    simp only [Pi.mul_apply]
    rw [prod_pdf]
    simp only [gaussianPDF, gaussianPDFReal]
    rw [← ENNReal.ofReal_mul (by positivity), ← ENNReal.ofReal_mul (by positivity)]
    congr 1
    have hs : Real.sqrt ν ^ 2 = ν := Real.sq_sqrt hν'.le
    have e : -((1 + x ^ 2 / ν) * rad w ^ 2) / 2 = -(rad w ^ 2) / 2 + -(x * (rad w / Real.sqrt ν) - 0) ^ 2 / (2 * 1) := by
      rw [sub_zero, mul_pow, div_pow, hs]; ring
    rw [e, Real.exp_add]
    simp only [NNReal.coe_one, mul_one]
    ring
  set a := Real.sqrt (1 + x ^ 2 / ν) with ha
  have h1 : (0 : ℝ) < 1 + x ^ 2 / ν := by positivity
  have ha0 : 0 < a := Real.sqrt_pos.2 h1
  have ha2 : a ^ 2 = 1 + x ^ 2 / ν := Real.sq_sqrt h1.le
  have hsd : studentDensity ν x = (a ^ (ν + 1))⁻¹ := by
    unfold studentDensity
    rw [neg_div, Real.rpow_neg h1.le, ha, Real.sqrt_eq_rpow, ← Real.rpow_mul_natCast h1.le]
    congr 2
    push_cast; ring
  set g : (Fin ν → ℝ) → ℝ≥0∞ := fun w => ENNReal.ofReal ((Real.sqrt (2 * Real.pi))⁻¹ ^ (ν + 1) *
      Real.exp (-((1 + (0 : ℝ) ^ 2 / ν) * rad w ^ 2) / 2) * (rad w / Real.sqrt ν)) with hg
  have hgm : Measurable g := by
    have := measurable_rad (n := ν)
    fun_prop
  have hscale : ∫⁻ w, g (a • w) = ENNReal.ofReal (a ^ ν)⁻¹ * ∫⁻ w, g w := by
    have h := Measure.map_addHaar_smul (volume : Measure (Fin ν → ℝ)) ha0.ne'
    rw [← lintegral_map hgm (measurable_const_smul a), h, lintegral_smul_measure]
    simp [abs_of_pos ha0]
  rw [key x, key 0, hsd]
  have e2 : ∀ w : Fin ν → ℝ, ENNReal.ofReal ((Real.sqrt (2 * Real.pi))⁻¹ ^ (ν + 1) *
      Real.exp (-((1 + x ^ 2 / ν) * rad w ^ 2) / 2) * (rad w / Real.sqrt ν)) =
      ENNReal.ofReal a⁻¹ * g (a • w) := by
    intro w
    have hr := rad_nonneg w
    rw [hg]
    dsimp only
    rw [rad_smul ha0.le, ← ENNReal.ofReal_mul (by positivity), mul_pow, ha2]
    congr 1
    rw [zero_pow two_ne_zero, zero_div, add_zero, one_mul]
    field_simp
  simp_rw [e2]
  have hgm2 : Measurable fun w => g (a • w) := hgm.comp (measurable_const_smul a)
  rw [lintegral_const_mul _ hgm2, hscale, ← mul_assoc,
    ← ENNReal.ofReal_mul (by positivity), mul_comm, pow_succ a ν, mul_inv, mul_comm (a ^ ν)⁻¹]

/-- The law of the ratio of a standard normal number and an independent root mean square. -/
theorem ratio_law {ν : ℕ} (hν : 1 ≤ ν) {B : Set ℝ} (hB : MeasurableSet B) :
    ((gaussianReal 0 1).prod (Measure.pi fun _ : Fin ν => gaussianReal 0 1))
      {p | Real.sqrt ν * p.1 / rad p.2 ∈ B} = dens ν 0 * ∫⁻ x in B, ENNReal.ofReal (studentDensity ν x) := by
  have hν' : (0 : ℝ) < ν := by exact_mod_cast hν
  have hs : 0 < Real.sqrt ν := Real.sqrt_pos.2 hν'
  have hmr := measurable_rad (n := ν)
  have hms : MeasurableSet {p : ℝ × (Fin ν → ℝ) | Real.sqrt ν * p.1 / rad p.2 ∈ B} := by
    have : Measurable fun p : ℝ × (Fin ν → ℝ) => Real.sqrt ν * p.1 / rad p.2 := by fun_prop
    exact this hB
  rw [Measure.prod_apply_symm hms]
  have h1 : ∀ᵐ w ∂(Measure.pi fun _ : Fin ν => gaussianReal 0 1),
      (gaussianReal 0 1) ((fun z => (z, w)) ⁻¹' {p : ℝ × (Fin ν → ℝ) | Real.sqrt ν * p.1 / rad p.2 ∈ B}) =
      ∫⁻ x in B, gaussianPDF 0 1 (x * (rad w / Real.sqrt ν)) * ENNReal.ofReal (rad w / Real.sqrt ν) := by
    filter_upwards [rad_ne_zero hν] with w hw
    have hr : 0 < rad w := lt_of_le_of_ne (rad_nonneg w) (Ne.symm hw)
    set c := rad w / Real.sqrt ν with hc
    have hc0 : 0 < c := by positivity
    have hset : (fun z => (z, w)) ⁻¹' {p : ℝ × (Fin ν → ℝ) | Real.sqrt ν * p.1 / rad p.2 ∈ B} =
        (fun z : ℝ => z / c) ⁻¹' B := by
      ext z
      simp only [mem_preimage, mem_ofPred_eq]
      rw [hc, div_div_eq_mul_div, mul_comm]
    have hBm : MeasurableSet ((fun z : ℝ => z / c) ⁻¹' B) := (measurable_id.div_const c) hB
    rw [hset, gaussianReal_of_var_ne_zero 0 one_ne_zero, withDensity_apply _ hBm, ← lintegral_indicator hBm,
      ← lintegral_indicator hB]
    conv_lhs => rw [← Real.smul_map_volume_mul_left hc0.ne', lintegral_smul_measure,
      lintegral_map ((measurable_gaussianPDF 0 1).indicator hBm) (measurable_const_mul c)]
    have hmi : Measurable fun x => ((fun z : ℝ => z / c) ⁻¹' B).indicator (gaussianPDF 0 1) (c * x) :=
      ((measurable_gaussianPDF 0 1).indicator hBm).comp (measurable_const_mul c)
    rw [smul_eq_mul, ← lintegral_const_mul _ hmi]
    refine lintegral_congr fun x => ?_
    by_cases hx : x ∈ B
    · rw [indicator_of_mem hx, indicator_of_mem (by simpa [hc0.ne'] using hx), abs_of_pos hc0, mul_comm, mul_comm c]
    · rw [indicator_of_notMem hx, indicator_of_notMem (by simpa [hc0.ne'] using hx), mul_zero]
  rw [lintegral_congr_ae h1, lintegral_lintegral_swap]
  · rw [← lintegral_const_mul _ (by unfold studentDensity; fun_prop)]
    refine lintegral_congr fun x => ?_
    rw [← dens_eq hν]
    rfl
  · refine Measurable.aemeasurable ?_
    unfold Function.uncurry
    exact ((measurable_gaussianPDF 0 1).comp (by fun_prop)).mul (by fun_prop)

/-- Rotation: the scaled sum and the sum of squares are distributed like the first number and the sum of squares. -/
theorem rotate {n : ℕ} (hn : 1 ≤ n) {S : Set (ℝ × ℝ)} (hS : MeasurableSet S) :
    (Measure.pi fun _ : Fin n => gaussianReal 0 1) {x | ((∑ i, x i) / Real.sqrt n, ∑ i, x i ^ 2) ∈ S} =
    (Measure.pi fun _ : Fin n => gaussianReal 0 1) {z | (z ⟨0, hn⟩, ∑ i, z i ^ 2) ∈ S} := by
  have hn' : (0 : ℝ) < n := by exact_mod_cast hn
  set i0 : Fin n := ⟨0, hn⟩
  set u : EuclideanSpace ℝ (Fin n) := WithLp.toLp 2 fun _ => (Real.sqrt n)⁻¹ with hu
  have hun : ‖u‖ = 1 := by
    rw [EuclideanSpace.norm_eq, hu]
    simp [hn'.le, hn'.ne']
  have hor : Orthonormal ℝ (({i0} : Set (Fin n)).domRestrict fun _ => u) := by
    rw [orthonormal_iff_ite]
    rintro ⟨a, ha⟩ ⟨b, hb⟩
    have : a = b := by rw [mem_singleton_iff.1 ha, mem_singleton_iff.1 hb]
    subst this
    simp [hun]
  obtain ⟨b, hb⟩ := hor.exists_orthonormalBasis_extension_of_card_eq (by simp)
  have hb0 : b i0 = u := hb i0 rfl
  have hA : Measurable fun y : EuclideanSpace ℝ (Fin n) => (inner ℝ u y, ‖y‖ ^ 2) := by fun_prop
  have h1 := map_pi_eq_stdGaussian (ι := Fin n)
  rw [stdGaussian_eq_map_pi_orthonormalBasis b] at h1
  have h2 := congrArg (fun μ : Measure (EuclideanSpace ℝ (Fin n)) =>
    μ ((fun y : EuclideanSpace ℝ (Fin n) => (inner ℝ u y, ‖y‖ ^ 2)) ⁻¹' S)) h1
  rw [Measure.map_apply (by fun_prop) (hA hS), Measure.map_apply (by fun_prop) (hA hS)] at h2
  have e1 : {x : Fin n → ℝ | ((∑ i, x i) / Real.sqrt n, ∑ i, x i ^ 2) ∈ S} =
      WithLp.toLp 2 ⁻¹' ((fun y : EuclideanSpace ℝ (Fin n) => (inner ℝ u y, ‖y‖ ^ 2)) ⁻¹' S) := by
    ext x
    simp only [mem_ofPred_eq, mem_preimage]
    rw [EuclideanSpace.norm_sq_eq]
    simp [hu, PiLp.inner_apply, Finset.sum_mul, div_eq_mul_inv]
  have e2 : {z : Fin n → ℝ | (z i0, ∑ i, z i ^ 2) ∈ S} =
      (fun z : Fin n → ℝ => ∑ i, z i • b i) ⁻¹'
        ((fun y : EuclideanSpace ℝ (Fin n) => (inner ℝ u y, ‖y‖ ^ 2)) ⁻¹' S) := by
    ext z
    simp only [mem_ofPred_eq, mem_preimage]
    rw [← hb0, b.orthonormal.inner_right_fintype, ← real_inner_self_eq_norm_sq, b.orthonormal.inner_sum]
    simp [sq]
  rw [e1, e2]
  exact h2

/-- The law of the t statistic of standard normal numbers. -/
theorem t_law {ν : ℕ} (hν : 1 ≤ ν) {B : Set ℝ} (hB : MeasurableSet B) :
    (Measure.pi fun _ : Fin (ν + 1) => gaussianReal 0 1) {x | Real.sqrt ν * ((∑ i, x i) / Real.sqrt ((ν + 1 : ℕ) : ℝ)) /
      Real.sqrt (∑ i, x i ^ 2 - ((∑ i, x i) / Real.sqrt ((ν + 1 : ℕ) : ℝ)) ^ 2) ∈ B} =
    dens ν 0 * ∫⁻ x in B, ENNReal.ofReal (studentDensity ν x) := by
  have hm : Measurable fun p : ℝ × ℝ => Real.sqrt ν * p.1 / Real.sqrt (p.2 - p.1 ^ 2) := by fun_prop
  have h := rotate (n := ν + 1) (by omega) (hm hB)
  simp only [mem_preimage] at h
  rw [h, ← ratio_law hν hB]
  have hp := measurePreserving_piFinSuccAbove (fun _ : Fin (ν + 1) => gaussianReal 0 1) 0
  have hmr := measurable_rad (n := ν)
  have hms : MeasurableSet {p : ℝ × (Fin ν → ℝ) | Real.sqrt ν * p.1 / rad p.2 ∈ B} := by
    have : Measurable fun p : ℝ × (Fin ν → ℝ) => Real.sqrt ν * p.1 / rad p.2 := by fun_prop
    exact this hB
  rw [← hp.measure_preimage hms.nullMeasurableSet]
  congr 1
  ext z
  simp only [mem_ofPred_eq, mem_preimage]
  unfold rad
  rw [Fin.sum_univ_succ]
  simp [MeasurableEquiv.piFinSuccAbove, Fin.insertNthEquiv, Fin.tail]

/-- ... as a share of the total mass of Student's density. -/
theorem t_law' {ν : ℕ} (hν : 1 ≤ ν) {B : Set ℝ} (hB : MeasurableSet B) :
    (Measure.pi fun _ : Fin (ν + 1) => gaussianReal 0 1) {x | Real.sqrt ν * ((∑ i, x i) / Real.sqrt ((ν + 1 : ℕ) : ℝ)) /
      Real.sqrt (∑ i, x i ^ 2 - ((∑ i, x i) / Real.sqrt ((ν + 1 : ℕ) : ℝ)) ^ 2) ∈ B} =
    ENNReal.ofReal ((∫ x in B, studentDensity ν x) / ∫ x, studentDensity ν x) := by
  have hi := studentDensity_integrable hν
  have hp : ∀ x, 0 ≤ studentDensity ν x := fun x => (studentDensity_pos hν x).le
  have h1 := t_law hν MeasurableSet.univ
  rw [t_law hν hB]
  simp only [mem_univ, ofPred_true, measure_univ, Measure.restrict_univ] at h1
  rw [← ofReal_integral_eq_lintegral_ofReal hi (Filter.Eventually.of_forall hp)] at h1
  rw [← ofReal_integral_eq_lintegral_ofReal hi.integrableOn (Filter.Eventually.of_forall hp)]
  have hZ : 0 < ∫ x, studentDensity ν x := by
    rcases (integral_nonneg hp : 0 ≤ ∫ x, studentDensity ν x).lt_or_eq with h | h
    · exact h
    · rw [← h] at h1
      simp at h1
  have hd : dens ν 0 = (ENNReal.ofReal (∫ x, studentDensity ν x))⁻¹ := ENNReal.eq_inv_of_mul_eq_one_left h1.symm
  rw [hd, ENNReal.ofReal_div_of_pos hZ, mul_comm, div_eq_mul_inv]

end Mlp.TLaw
