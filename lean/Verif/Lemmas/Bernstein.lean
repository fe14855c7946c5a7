import Mathlib.Probability.Moments.Basic
import Mathlib.Probability.Moments.Variance
import Mathlib.Analysis.SpecialFunctions.ExpDeriv
import Mathlib.Analysis.Calculus.Deriv.MeanValue
import Mathlib.Analysis.SpecialFunctions.Pow.Real

/-! # Bernstein's inequality and its empirical version, for independent bounded random variables -/

namespace Mlp.Bern
open MeasureTheory ProbabilityTheory

/-- `e^z ≤ 1 + z + z²/(2(1-w/3))` for all `z ≤ w < 3`. -/
theorem exp_neg_quad {y : ℝ} (hy : 0 ≤ y) : Real.exp (-y) ≤ 1 - y + y ^ 2 / 2 := by
  have h := Real.quadratic_le_exp_of_nonneg hy
  rw [Real.exp_neg]
  have hp : 0 < 1 + y + y ^ 2 / 2 := by positivity
  calc (Real.exp y)⁻¹ ≤ (1 + y + y ^ 2 / 2)⁻¹ := inv_anti₀ hp h
    _ ≤ 1 - y + y ^ 2 / 2 := by
      rw [inv_le_iff_one_le_mul₀ hp]
      nlinarith [sq_nonneg (y ^ 2)]

theorem exp_pade {z : ℝ} (hz : 0 ≤ z) : Real.exp z * (1 - z / 3) ≤ 1 + 2 * z / 3 + z ^ 2 / 6 := by
  let h : ℝ → ℝ := fun z => (1 + 2 * z / 3 + z ^ 2 / 6) * Real.exp (-z) - (1 - z / 3)
  have hd : ∀ z, HasDerivAt h ((1 - (1 + z + z ^ 2 / 2) * Real.exp (-z)) / 3) z := by
    intro z
    have h1 : HasDerivAt (fun z : ℝ => 1 + 2 * z / 3 + z ^ 2 / 6) (2 / 3 + z / 3) z := by
      have a := (((hasDerivAt_id z).const_mul 2).div_const 3).const_add 1
      have b := ((hasDerivAt_pow 2 z)).div_const 6
      refine (a.add b).congr_deriv ?_
      norm_num; ring
    have h2 : HasDerivAt (fun z : ℝ => Real.exp (-z)) (-Real.exp (-z)) z := by
      simpa using (hasDerivAt_neg z).exp
    have h3 : HasDerivAt (fun z : ℝ => 1 - z / 3) (-(1 / 3)) z := by
      simpa using ((hasDerivAt_id z).div_const 3).const_sub 1
    refine ((h1.mul h2).sub h3).congr_deriv ?_
    ring
  have hm : MonotoneOn h (Set.Ici 0) := by
    apply monotoneOn_of_deriv_nonneg (convex_Ici 0)
    · exact fun z _ => (hd z).continuousAt.continuousWithinAt
    · exact fun z _ => (hd z).differentiableAt.differentiableWithinAt
    · intro z hz
      rw [interior_Ici] at hz
      rw [(hd z).deriv]
      have h := Real.quadratic_le_exp_of_nonneg (le_of_lt hz)
      have : (1 + z + z ^ 2 / 2) * Real.exp (-z) ≤ 1 := by
        rw [Real.exp_neg, ← div_eq_mul_inv, div_le_one (Real.exp_pos z)]
        exact h
      linarith
  have h0 : h 0 ≤ h z := hm (by simp) (by simpa using hz) hz
  simp only [h] at h0
  norm_num at h0
  have e : Real.exp z * Real.exp (-z) = 1 := by rw [← Real.exp_add]; simp
  have := mul_le_mul_of_nonneg_left h0 (Real.exp_pos z).le
  nlinarith [Real.exp_pos z]

theorem exp_quad {z w : ℝ} (hzw : z ≤ w) (hw0 : 0 ≤ w) (hw : w < 3) :
    Real.exp z ≤ 1 + z + z ^ 2 / (2 * (1 - w / 3)) := by
  have hp : 0 < 1 - w / 3 := by linarith
  rcases le_total z 0 with hz | hz
  · have h := exp_neg_quad (y := -z) (by linarith)
    rw [neg_neg] at h
    have : z ^ 2 / 2 ≤ z ^ 2 / (2 * (1 - w / 3)) := by
      apply div_le_div_of_nonneg_left (sq_nonneg z) (by positivity)
      linarith
    nlinarith
  · have hpz : 0 < 1 - z / 3 := by linarith
    have h := exp_pade hz
    have h1 : Real.exp z ≤ 1 + z + z ^ 2 / (2 * (1 - z / 3)) := by
      rw [← le_div_iff₀ hpz] at h
      refine h.trans (le_of_eq ?_)
      rw [div_eq_iff hpz.ne', add_mul (1 + z), mul_comm 2 (1 - z / 3), div_mul_eq_mul_div,
        mul_comm (z ^ 2), mul_div_mul_left _ _ hpz.ne']
      ring
    have : z ^ 2 / (2 * (1 - z / 3)) ≤ z ^ 2 / (2 * (1 - w / 3)) := by
      apply div_le_div_of_nonneg_left (sq_nonneg z) (by positivity)
      linarith
    linarith

variable {Ω : Type} [MeasurableSpace Ω] {P : Measure Ω} [IsProbabilityMeasure P]

/-- A bounded measurable function is integrable. -/
theorem integrable_of_abs_le {f : Ω → ℝ} (hf : Measurable f) {B : ℝ} (hB : ∀ ω, |f ω| ≤ B) :
    Integrable f P :=
  Integrable.of_mem_Icc (-B) B hf.aemeasurable (Filter.Eventually.of_forall fun ω => abs_le.1 (hB ω))

theorem mgf_upper {Z : Ω → ℝ} (hZ : Measurable Z) {b B : ℝ} (hb : ∀ ω, Z ω ≤ b) (hB : ∀ ω, |Z ω| ≤ B)
    (h0 : ∫ ω, Z ω ∂P = 0) {v : ℝ} (hv : ∫ ω, Z ω ^ 2 ∂P ≤ v) {s : ℝ} (hs : 0 ≤ s) (hb0 : 0 ≤ b)
    (hsb : s * b < 3) : mgf Z P s ≤ Real.exp (s ^ 2 * v / (2 * (1 - s * b / 3))) := by
  have hp : 0 < 1 - s * b / 3 := by linarith
  have hZ2 : Integrable (fun ω => Z ω ^ 2) P :=
    integrable_of_abs_le (hZ.pow_const 2) (B := B ^ 2) fun ω => by
      rw [abs_pow]; exact pow_le_pow_left₀ (abs_nonneg _) (hB ω) 2
  have hZ1 : Integrable Z P := integrable_of_abs_le hZ hB
  have hle : mgf Z P s ≤ ∫ ω, (1 + s * Z ω + s ^ 2 / (2 * (1 - s * b / 3)) * Z ω ^ 2) ∂P := by
    unfold mgf
    apply integral_mono
    · exact integrable_exp_mul_of_le s b hs hZ.aemeasurable (Filter.Eventually.of_forall hb)
    · exact ((integrable_const _).add (hZ1.const_mul s)).add (hZ2.const_mul _)
    · intro ω
      have := exp_quad (z := s * Z ω) (w := s * b) (mul_le_mul_of_nonneg_left (hb ω) hs)
        (mul_nonneg hs hb0) hsb
      refine this.trans (le_of_eq ?_)
      simp only
      ring
  have he : ∫ ω, (1 + s * Z ω + s ^ 2 / (2 * (1 - s * b / 3)) * Z ω ^ 2) ∂P =
      1 + s ^ 2 / (2 * (1 - s * b / 3)) * ∫ ω, Z ω ^ 2 ∂P := by
    have i1 : Integrable (fun ω => 1 + s * Z ω) P := (integrable_const _).add (hZ1.const_mul s)
    rw [integral_add i1 (hZ2.const_mul _), integral_add (integrable_const _) (hZ1.const_mul s), integral_const_mul, integral_const_mul, h0]
    simp
  rw [he] at hle
  have h2 : s ^ 2 / (2 * (1 - s * b / 3)) * ∫ ω, Z ω ^ 2 ∂P ≤ s ^ 2 * v / (2 * (1 - s * b / 3)) := by
    have h2 : 0 ≤ 2 * (1 - s * b / 3) := by linarith
    rw [← div_mul_eq_mul_div (s ^ 2)]
    exact mul_le_mul_of_nonneg_left hv (div_nonneg (sq_nonneg s) h2)
  have := Real.add_one_le_exp (s ^ 2 * v / (2 * (1 - s * b / 3)))
  linarith

theorem mgf_lower {Y : Ω → ℝ} (hY : Measurable Y) {B : ℝ} (h0 : ∀ ω, 0 ≤ Y ω) (hB : ∀ ω, Y ω ≤ B)
    {w : ℝ} (hw : ∫ ω, Y ω ^ 2 ∂P ≤ w) {s : ℝ} (hs : 0 ≤ s) :
    mgf (fun ω => (∫ ω, Y ω ∂P) - Y ω) P s ≤ Real.exp (s ^ 2 * w / 2) := by
  have habs : ∀ ω, |Y ω| ≤ B := fun ω => by rw [abs_of_nonneg (h0 ω)]; exact hB ω
  have hY2 : Integrable (fun ω => Y ω ^ 2) P :=
    integrable_of_abs_le (hY.pow_const 2) (B := B ^ 2) fun ω => by
      rw [abs_pow]; exact pow_le_pow_left₀ (abs_nonneg _) (habs ω) 2
  have hY1 : Integrable Y P := integrable_of_abs_le hY habs
  have e1 : mgf (fun ω => (∫ ω, Y ω ∂P) - Y ω) P s =
      Real.exp (s * ∫ ω, Y ω ∂P) * ∫ ω, Real.exp (-(s * Y ω)) ∂P := by
    unfold mgf
    rw [← integral_const_mul]
    congr 1
    funext ω
    rw [← Real.exp_add]
    congr 1
    ring_nf
  have hle : ∫ ω, Real.exp (-(s * Y ω)) ∂P ≤ ∫ ω, (1 - s * Y ω + s ^ 2 / 2 * Y ω ^ 2) ∂P := by
    apply integral_mono
    · apply integrable_of_abs_le (B := 1)
      · exact (hY.const_mul s).neg.exp
      · intro ω
        rw [abs_of_pos (Real.exp_pos _), Real.exp_le_one_iff]
        have := mul_nonneg hs (h0 ω)
        linarith
    · exact ((integrable_const _).sub (hY1.const_mul s)).add (hY2.const_mul _)
    · intro ω
      have := exp_neg_quad (mul_nonneg hs (h0 ω))
      refine this.trans (le_of_eq ?_)
      simp only
      ring
  have he : ∫ ω, (1 - s * Y ω + s ^ 2 / 2 * Y ω ^ 2) ∂P =
      1 - s * (∫ ω, Y ω ∂P) + s ^ 2 / 2 * ∫ ω, Y ω ^ 2 ∂P := by
    have i1 : Integrable (fun ω => 1 - s * Y ω) P := (integrable_const _).sub (hY1.const_mul s)
    rw [integral_add i1 (hY2.const_mul _), integral_sub (integrable_const _) (hY1.const_mul s), integral_const_mul, integral_const_mul]
    simp
  rw [he] at hle
  have h2 : s ^ 2 / 2 * ∫ ω, Y ω ^ 2 ∂P ≤ s ^ 2 / 2 * w := mul_le_mul_of_nonneg_left hw (by positivity)
  have h3 := Real.add_one_le_exp (- (s * ∫ ω, Y ω ∂P) + s ^ 2 * w / 2)
  rw [e1]
  calc Real.exp (s * ∫ ω, Y ω ∂P) * ∫ ω, Real.exp (-(s * Y ω)) ∂P
      ≤ Real.exp (s * ∫ ω, Y ω ∂P) * Real.exp (- (s * ∫ ω, Y ω ∂P) + s ^ 2 * w / 2) := by
        apply mul_le_mul_of_nonneg_left _ (Real.exp_pos _).le
        linarith
    _ = Real.exp (s ^ 2 * w / 2) := by
        rw [← Real.exp_add]
        congr 1
        ring

/-- Chernoff's bound for a sum of independent bounded variables. -/
theorem chernoff_sum {n : ℕ} {Z : Fin n → Ω → ℝ} (hZ : ∀ i, Measurable (Z i)) (hi : iIndepFun Z P)
    {B : ℝ} (hB : ∀ i ω, |Z i ω| ≤ B) {s : ℝ} (hs : 0 ≤ s) {k : Fin n → ℝ}
    (hk : ∀ i, mgf (Z i) P s ≤ Real.exp (k i)) (t : ℝ) :
    P.real {ω | t ≤ ∑ i, Z i ω} ≤ Real.exp (-(s * t) + ∑ i, k i) := by
  have hint : Integrable (fun ω => Real.exp (s * (∑ i, Z i) ω)) P := by
    apply integrable_of_abs_le (B := Real.exp (s * (n * B)))
    · simp only [Finset.sum_apply]
      exact ((Finset.measurable_sum _ fun i _ => hZ i).const_mul s).exp
    · intro ω
      rw [abs_of_pos (Real.exp_pos _), Real.exp_le_exp]
      apply mul_le_mul_of_nonneg_left _ hs
      rw [Finset.sum_apply]
      calc ∑ i, Z i ω ≤ ∑ _i : Fin n, B := Finset.sum_le_sum fun i _ => (abs_le.1 (hB i ω)).2
        _ = n * B := by simp
  have h := measure_ge_le_exp_mul_mgf (μ := P) (X := ∑ i, Z i) t hs hint
  rw [hi.mgf_sum hZ] at h
  simp only [Finset.sum_apply] at h
  refine h.trans ?_
  rw [Real.exp_add, Real.exp_sum, neg_mul]
  apply mul_le_mul_of_nonneg_left _ (Real.exp_pos _).le
  exact Finset.prod_le_prod (fun i _ => mgf_nonneg) fun i _ => hk i

/-- **Bernstein's inequality.** -/
theorem bernstein {n : ℕ} {Z : Fin n → Ω → ℝ} (hZ : ∀ i, Measurable (Z i)) (hi : iIndepFun Z P)
    {b : ℝ} (hb : 0 < b) (hB : ∀ i ω, |Z i ω| ≤ b) (h0 : ∀ i, ∫ ω, Z i ω ∂P = 0) {v x : ℝ} (hv0 : 0 < v)
    (hv : ∑ i, ∫ ω, Z i ω ^ 2 ∂P ≤ v) (hx : 0 < x) :
    P.real {ω | Real.sqrt (2 * v * x) + b * x / 3 ≤ ∑ i, Z i ω} ≤ Real.exp (-x) := by
  let a := Real.sqrt (2 * x / v)
  have ha : 0 < a := Real.sqrt_pos.2 (by positivity)
  have hq : 0 < 1 + b * a / 3 := by positivity
  let s := a / (1 + b * a / 3)
  have hs : 0 < s := by positivity
  have hsb : s * b < 3 := by
    simp only [s]
    rw [div_mul_eq_mul_div, div_lt_iff₀ hq]
    nlinarith
  have h1 : 1 - s * b / 3 = 1 / (1 + b * a / 3) := by
    simp only [s]
    field_simp
    ring
  have h := chernoff_sum hZ hi hB hs.le
    (k := fun i => s ^ 2 * (∫ ω, Z i ω ^ 2 ∂P) / (2 * (1 - s * b / 3)))
    (fun i => mgf_upper (hZ i) (fun ω => (abs_le.1 (hB i ω)).2) (hB i) (h0 i) le_rfl hs.le hb.le hsb)
    (Real.sqrt (2 * v * x) + b * x / 3)
  refine h.trans ?_
  rw [Real.exp_le_exp, ← Finset.sum_div, ← Finset.mul_sum]
  have hsq : a ^ 2 = 2 * x / v := Real.sq_sqrt (by positivity)
  have hsv : Real.sqrt (2 * v * x) = a * v := by
    rw [show 2 * v * x = (2 * x / v) * v ^ 2 by field_simp, Real.sqrt_mul (by positivity),
      Real.sqrt_sq hv0.le]
  have h2 : s ^ 2 * (∑ i, ∫ ω, Z i ω ^ 2 ∂P) / (2 * (1 - s * b / 3)) ≤
      s ^ 2 * v / (2 * (1 - s * b / 3)) := by
    apply div_le_div_of_nonneg_right _ (by rw [h1]; positivity)
    exact mul_le_mul_of_nonneg_left hv (by positivity)
  have h3 : s ^ 2 * v / (2 * (1 - s * b / 3)) = x / (1 + b * a / 3) := by
    rw [h1]
    simp only [s]
    rw [div_pow, hsq]
    field_simp
  have h4 : s * (Real.sqrt (2 * v * x) + b * x / 3) = (2 * x + b * a * x / 3) / (1 + b * a / 3) := by
    rw [hsv]
    simp only [s]
    rw [div_mul_eq_mul_div]
    congr 1
    have : a * (a * v) = 2 * x := by
      rw [← mul_assoc, ← sq, hsq]; field_simp
    rw [mul_add, this]
    ring
  have h5 : (2 * x + b * a * x / 3) / (1 + b * a / 3) - x / (1 + b * a / 3) = x := by
    rw [← sub_div, div_eq_iff hq.ne']
    ring
  rw [h4]
  linarith

/-- Lower tail of non-negative variables. -/
theorem lower_tail {n : ℕ} {Y : Fin n → Ω → ℝ} (hY : ∀ i, Measurable (Y i)) (hi : iIndepFun Y P)
    {B : ℝ} (h0 : ∀ i ω, 0 ≤ Y i ω) (hB : ∀ i ω, Y i ω ≤ B) {w x : ℝ} (hw0 : 0 < w)
    (hw : ∑ i, ∫ ω, Y i ω ^ 2 ∂P ≤ w) (hx : 0 < x) :
    P.real {ω | Real.sqrt (2 * w * x) ≤ ∑ i, ((∫ ω, Y i ω ∂P) - Y i ω)} ≤ Real.exp (-x) := by
  let s := Real.sqrt (2 * x / w)
  have hs : 0 < s := Real.sqrt_pos.2 (by positivity)
  have hsq : s ^ 2 = 2 * x / w := Real.sq_sqrt (by positivity)
  have hsv : Real.sqrt (2 * w * x) = s * w := by
    rw [show 2 * w * x = (2 * x / w) * w ^ 2 by field_simp, Real.sqrt_mul (by positivity),
      Real.sqrt_sq hw0.le]
  have hm : ∀ i, 0 ≤ ∫ ω, Y i ω ∂P ∧ ∫ ω, Y i ω ∂P ≤ B := by
    intro i
    refine ⟨integral_nonneg (h0 i), ?_⟩
    have := integral_mono (μ := P) (integrable_of_abs_le (hY i) (B := B) fun ω => by
      rw [abs_of_nonneg (h0 i ω)]; exact hB i ω) (integrable_const B) (hB i)
    simpa using this
  have h := chernoff_sum (Z := fun i ω => (∫ ω, Y i ω ∂P) - Y i ω) (B := B)
    (fun i => (hY i).const_sub _)
    (hi.comp (fun i y => (∫ ω, Y i ω ∂P) - y) fun i => measurable_id.const_sub _)
    (fun i ω => by
      rw [abs_le]
      have := h0 i ω
      have := hB i ω
      constructor <;> linarith [(hm i).1, (hm i).2])
    hs.le (k := fun i => s ^ 2 * (∫ ω, Y i ω ^ 2 ∂P) / 2)
    (fun i => mgf_lower (hY i) (h0 i) (hB i) le_rfl hs.le) (Real.sqrt (2 * w * x))
  refine h.trans ?_
  rw [Real.exp_le_exp, ← Finset.sum_div, ← Finset.mul_sum]
  have h2 : s ^ 2 * (∑ i, ∫ ω, Y i ω ^ 2 ∂P) / 2 ≤ s ^ 2 * w / 2 := by
    apply div_le_div_of_nonneg_right _ (by norm_num)
    exact mul_le_mul_of_nonneg_left hw (by positivity)
  have h3 : s ^ 2 * w / 2 = x := by rw [hsq]; field_simp
  have h4 : s * Real.sqrt (2 * w * x) = 2 * x := by
    rw [hsv, ← mul_assoc, ← sq, hsq]; field_simp
  linarith

/-- The step from the true to the sample standard deviation, with everything divided by the range. -/
theorem dev_step {σ s l D : ℝ} (hσ0 : 0 ≤ σ) (hσ : σ ≤ 1 / 2) (hs : 0 ≤ s) (hl : 0 < l) (hD0 : 0 ≤ D)
    (h1 : D < Real.sqrt 2 * (l * σ) + l ^ 2 / 3)
    (h2 : σ ^ 2 - (s ^ 2 + D ^ 2) < Real.sqrt 2 * (l * σ)) :
    D < Real.sqrt 2 * (l * s) + 3 * l ^ 2 := by
  by_contra hc
  push Not at hc
  have hq : Real.sqrt 2 ^ 2 = 2 := Real.sq_sqrt (by norm_num)
  have hq0 : 0 ≤ Real.sqrt 2 := Real.sqrt_nonneg 2
  generalize Real.sqrt 2 = q at *
  let p := q * σ
  let r := q * s
  have hp2 : p ^ 2 = 2 * σ ^ 2 := by simp only [p]; rw [mul_pow, hq]
  have hr2 : r ^ 2 = 2 * s ^ 2 := by simp only [r]; rw [mul_pow, hq]
  have hp0 : 0 ≤ p := mul_nonneg hq0 hσ0
  have hr0 : 0 ≤ r := mul_nonneg hq0 hs
  have hple : p ^ 2 ≤ 1 / 2 := by rw [hp2]; nlinarith
  have h1' : D < l * p + l ^ 2 / 3 := by
    have : q * (l * σ) = l * p := by simp only [p]; ring
    linarith
  have h2' : p ^ 2 - r ^ 2 < 2 * (l * p) + 2 * D ^ 2 := by
    have : q * (l * σ) = l * p := by simp only [p]; ring
    rw [hp2, hr2]; linarith
  have hc' : l * r + 3 * l ^ 2 ≤ D := by
    have : q * (l * s) = l * r := by simp only [r]; ring
    linarith
  have hA : r + 8 / 3 * l < p := by
    by_contra hn
    push Not at hn
    nlinarith
  clear_value p r
  have hD2 : D ^ 2 ≤ (l * p + l ^ 2 / 3) ^ 2 := pow_le_pow_left₀ hD0 h1'.le 2
  have hr : r ^ 2 ≤ (p - 8 / 3 * l) ^ 2 := pow_le_pow_left₀ hr0 (by linarith) 2
  have hpos : 0 < p := by linarith
  have hlp : l ≤ 3 / 8 * p := by linarith
  -- divide by l
  have h3 : 10 / 3 * p < 64 / 9 * l + 2 * l * (p + l / 3) ^ 2 := by
    have : l * (10 / 3 * p) < l * (64 / 9 * l + 2 * l * (p + l / 3) ^ 2) := by nlinarith
    exact lt_of_mul_lt_mul_left this hl.le
  have h4 : (p + l / 3) ^ 2 ≤ (9 / 8 * p) ^ 2 := pow_le_pow_left₀ (by positivity) (by linarith) 2
  have h5 : l * (p + l / 3) ^ 2 ≤ 3 / 8 * p * (9 / 8 * p) ^ 2 :=
    mul_le_mul hlp h4 (sq_nonneg _) (by positivity)
  have h6 : p * p ^ 2 ≤ p * (1 / 2) := mul_le_mul_of_nonneg_left hple hp0
  nlinarith

end Mlp.Bern
