import Mathlib.Analysis.SpecialFunctions.Gaussian.GaussianIntegral
import Mathlib.Analysis.Real.Pi.Bounds
import Verif.Props.PValueAccuracy

/-! # C139: p-values of the t test in floating point -/

namespace Mlp.Props
open Mlp Mlp.Sciprint Mlp.Paper Mlp.PaperR Mlp.PerfR Mlp.BootR Mlp.Boot Mlp.Spec Mlp.Lemmas Mlp.Round MeasureTheory ProbabilityTheory
open scoped NNReal

variable {L : Lib ℝ} {u η : ℝ}

/-! ### How fast Student's distribution function grows -/

theorem studentDensity_continuous {ν : ℕ} (h : 1 ≤ ν) : Continuous (studentDensity ν) := by
  have hν : (0 : ℝ) < ν := by exact_mod_cast h
  unfold studentDensity
  apply Continuous.rpow_const
  · fun_prop
  · intro x
    exact Or.inl (by positivity : (0 : ℝ) < 1 + x ^ 2 / ν).ne'

theorem studentDensity_anti {ν : ℕ} (h : 1 ≤ ν) {x y : ℝ} (hx : 0 ≤ x) (hxy : x ≤ y) : studentDensity ν y ≤ studentDensity ν x := by
  have hν : (0 : ℝ) < ν := by exact_mod_cast h
  unfold studentDensity
  refine Real.rpow_le_rpow_of_nonpos (by positivity) ?_ (by linarith)
  have : x ^ 2 ≤ y ^ 2 := by nlinarith
  have := div_le_div_of_nonneg_right this hν.le
  linarith

theorem studentDensity_zero (ν : ℕ) : studentDensity ν 0 = 1 := by simp [studentDensity]

theorem studentDensity_ge {ν : ℕ} (h : 1 ≤ ν) (x : ℝ) : Real.exp (-1 * x ^ 2) ≤ studentDensity ν x := by
  have hν : (1 : ℝ) ≤ ν := by exact_mod_cast h
  have hb : (0 : ℝ) < 1 + x ^ 2 / ν := by positivity
  unfold studentDensity
  rw [Real.rpow_def_of_pos hb]
  refine Real.exp_le_exp.2 ?_
  have h1 : Real.log (1 + x ^ 2 / ν) ≤ x ^ 2 / ν := by
    have := Real.log_le_sub_one_of_pos hb
    linarith
  have h2 : Real.log (1 + x ^ 2 / ν) * (((ν : ℝ) + 1) / 2) ≤ x ^ 2 / ν * ν :=
    mul_le_mul h1 (by linarith) (by linarith) (by positivity)
  rw [div_mul_cancel₀ _ (by linarith)] at h2
  have e : Real.log (1 + x ^ 2 / ν) * (-((ν : ℝ) + 1) / 2) = -(Real.log (1 + x ^ 2 / ν) * (((ν : ℝ) + 1) / 2)) := by ring
  rw [e]
  linarith

theorem studentDensity_total {ν : ℕ} (h : 1 ≤ ν) : (5 / 3 : ℝ) ≤ ∫ x, studentDensity ν x := by
  have h1 : ∫ x : ℝ, Real.exp (-1 * x ^ 2) = Real.sqrt (Real.pi / 1) := integral_gaussian 1
  have h2 : ∫ x : ℝ, Real.exp (-1 * x ^ 2) ≤ ∫ x, studentDensity ν x :=
    integral_mono (integrable_exp_neg_mul_sq one_pos) (studentDensity_integrable h) fun x => studentDensity_ge h x
  refine le_trans ?_ (h1 ▸ h2)
  rw [div_one]
  refine Real.le_sqrt_of_sq_le ?_
  have := Real.pi_gt_three
  norm_num
  linarith

/-- The distribution function of Student's t grows at most with slope 3/5, and at most by half the relative increase of its argument. -/
theorem student_growth {ν : ℕ} (h : 1 ≤ ν) {a b : ℝ} (ha : 0 ≤ a) (hab : a ≤ b) :
    0 ≤ (studentT ν).cdf b - (studentT ν).cdf a ∧ (studentT ν).cdf b - (studentT ν).cdf a ≤ 3 / 5 * (b - a) ∧
      ((studentT ν).cdf b - (studentT ν).cdf a) * (2 * a) ≤ b - a := by
  have hi := studentDensity_integrable h
  have hc := studentDensity_continuous h
  have hsym := studentT_isSymmetric h
  have hZ := studentDensity_total h
  set Z := ∫ x, studentDensity ν x with hZdef
  have hdiff : ∀ x y : ℝ, (studentT ν).cdf y - (studentT ν).cdf x = (∫ t in x..y, studentDensity ν t) / Z := fun x y => by
    rw [← intervalIntegral.integral_Iic_sub_Iic hi.integrableOn hi.integrableOn, sub_div]
    rfl
  have hup : ∫ t in a..b, studentDensity ν t ≤ (b - a) * studentDensity ν a := by
    have := intervalIntegral.integral_mono_on hab (hc.intervalIntegrable a b) (intervalIntegrable_const (c := studentDensity ν a) (μ := volume))
      fun t ht => studentDensity_anti h ha ht.1
    simpa using this
  have hlo : a * studentDensity ν a ≤ ∫ t in (0 : ℝ)..a, studentDensity ν t := by
    have := intervalIntegral.integral_mono_on ha (intervalIntegrable_const (c := studentDensity ν a) (μ := volume)) (hc.intervalIntegrable 0 a)
      fun t ht => studentDensity_anti h ht.1 ht.2
    simpa using this
  have hhalf : (studentT ν).cdf a - (studentT ν).cdf 0 ≤ 1 / 2 := by
    have h1 := hsym.symm 0
    rw [neg_zero] at h1
    linarith [hsym.lt_one a]
  rw [hdiff, div_le_iff₀ (by linarith)] at hhalf
  have hda := studentDensity_pos h a
  have hd1 : studentDensity ν a ≤ 1 := by rw [← studentDensity_zero ν]; exact studentDensity_anti h le_rfl ha
  refine ⟨?_, ?_, ?_⟩
  · exact sub_nonneg.2 (hsym.strictMono.monotone hab)
  · rw [hdiff, div_le_iff₀ (by linarith)]
    have k : (b - a) * studentDensity ν a ≤ (b - a) * 1 := mul_le_mul_of_nonneg_left hd1 (by linarith)
    have k2 : 3 / 5 * (b - a) * (5 / 3) ≤ 3 / 5 * (b - a) * Z := mul_le_mul_of_nonneg_left hZ (by linarith)
    linarith
  · rw [hdiff, div_mul_eq_mul_div, div_le_iff₀ (by linarith)]
    have k : (∫ t in a..b, studentDensity ν t) * (2 * a) ≤ (b - a) * studentDensity ν a * (2 * a) :=
      mul_le_mul_of_nonneg_right hup (by linarith)
    have k2 : (b - a) * (2 * (a * studentDensity ν a)) ≤ (b - a) * Z := mul_le_mul_of_nonneg_left (by linarith) (by linarith)
    linarith

/-- Dividing by another standard error. -/
theorem student_scale {ν : ℕ} (h : 1 ≤ ν) {m s s' r : ℝ} (hm : 0 ≤ m) (hs : 0 < s) (hs' : 0 < s') (hr : 0 < r) (h1 : r ≤ s) (h2 : r ≤ s') :
    |(studentT ν).cdf (m / s') - (studentT ν).cdf (m / s)| ≤ |s' - s| / (2 * r) := by
  rcases hm.lt_or_eq with hm | rfl
  swap
  · simp only [zero_div, sub_self, abs_zero]
    positivity
  have main : ∀ {x y : ℝ}, 0 < x → x ≤ y → r ≤ x →
      |(studentT ν).cdf (m / x) - (studentT ν).cdf (m / y)| ≤ (y - x) / (2 * r) := by
    intro x y hx hxy hrx
    have hy : 0 < y := hx.trans_le hxy
    obtain ⟨k1, -, k3⟩ := student_growth h (a := m / y) (b := m / x) (by positivity) (div_le_div_of_nonneg_left hm.le hx hxy)
    rw [abs_of_nonneg k1]
    have k4 : (studentT ν).cdf (m / x) - (studentT ν).cdf (m / y) ≤ (m / x - m / y) / (2 * (m / y)) := by
      rw [le_div_iff₀ (by positivity)]; exact k3
    have e : (m / x - m / y) / (2 * (m / y)) = (y - x) / (2 * x) := by field_simp
    rw [e] at k4
    exact k4.trans (div_le_div_of_nonneg_left (by linarith) (by positivity) (by linarith))
  rcases le_total s' s with hle | hle
  · rw [abs_of_nonpos (by linarith : s' - s ≤ 0), neg_sub]
    exact main hs' hle h2
  · rw [abs_sub_comm ((studentT ν).cdf _), abs_of_nonneg (by linarith : 0 ≤ s' - s)]
    exact main hs hle h1

theorem student_lip {ν : ℕ} (h : 1 ≤ ν) {x y : ℝ} (hx : 0 ≤ x) (hy : 0 ≤ y) :
    |(studentT ν).cdf y - (studentT ν).cdf x| ≤ 3 / 5 * |y - x| := by
  rcases le_total x y with hle | hle
  · obtain ⟨k1, k2, -⟩ := student_growth h hx hle
    rwa [abs_of_nonneg k1, abs_of_nonneg (by linarith)]
  · obtain ⟨k1, k2, -⟩ := student_growth h hy hle
    rw [abs_sub_comm, abs_sub_comm y, abs_of_nonneg k1, abs_of_nonneg (by linarith)]
    exact k2

theorem student_rel {ν : ℕ} (h : 1 ≤ ν) (hu : 0 ≤ u) (hu2 : u ≤ 1 / 2) {t t' : ℝ} (ht : 0 ≤ t) (ht' : 0 ≤ t') (hd : |t' - t| ≤ u * t) :
    |(studentT ν).cdf t' - (studentT ν).cdf t| ≤ u := by
  obtain ⟨d1, d2⟩ := abs_le.1 hd
  have hut : u * t ≤ 1 / 2 * t := mul_le_mul_of_nonneg_right hu2 ht
  have key : ∀ {a b D : ℝ}, 0 < a → D * (2 * a) ≤ b - a → b - a ≤ u * (2 * a) → D ≤ u := by
    intro a b D ha h1 h2
    exact le_of_mul_le_mul_right (h1.trans h2) (by linarith : 0 < 2 * a)
  rcases le_total t' t with hle | hle
  · obtain ⟨k1, -, k3⟩ := student_growth h ht' hle
    rw [abs_sub_comm, abs_of_nonneg k1]
    rcases ht'.lt_or_eq with h0 | h0
    · refine key h0 k3 ?_
      have : u * t ≤ u * (2 * t') := mul_le_mul_of_nonneg_left (by linarith) hu
      linarith
    · have : t = 0 := by linarith
      rw [this, ← h0, sub_self]
      exact hu
  · obtain ⟨k1, -, k3⟩ := student_growth h ht hle
    rw [abs_of_nonneg k1]
    rcases ht.lt_or_eq with h0 | h0
    · refine key h0 k3 ?_
      have : 0 ≤ u * t := mul_nonneg hu ht
      linarith
    · have : t' = 0 := by rw [← h0] at d2; linarith
      rw [this, ← h0, sub_self]
      exact hu

/-! ### The test -/

/-- The accuracy of `ss.t.sf` for samples of size `n`: an absolute error of at most `η`. -/
def AccurateSf (η : ℝ) (L : Lib ℝ) (n : Nat) : Prop :=
  ∀ t, 0 ≤ t → ∃ s, L.tSf (n - 1) (.fin t) = .fin s ∧ |s - (1 - (studentT (n - 1)).cdf t)| ≤ η

/-- The p-value that `t_test` computes if the standard error is not zero. -/
theorem tTestR_value (hL : GoodLib L) {ys : List ℝ} (h2 : 2 ≤ ys.length) (hs : 0 < L.sqrt (L.rnd (varR L 1 ys / ys.length))) {s : ℝ}
    (hsf : L.tSf (ys.length - 1) (.fin |L.rnd (L.rnd (meanR L ys - 0) / L.sqrt (L.rnd (varR L 1 ys / ys.length)))|) = .fin s) :
    tTestR L (finVec ys) = .ok (.fin (L.rnd (s * 2))) := by
  obtain ⟨p, e, p0, p1⟩ := hL.tSf (ys.length - 1) |L.rnd (L.rnd (meanR L ys - 0) / L.sqrt (L.rnd (varR L 1 ys / ys.length)))| (abs_nonneg _)
  rw [hsf, Flt.fin.injEq] at e
  subst e
  have k0 : 0 ≤ L.rnd (s * 2) := hL.rnd.nonneg (by linarith)
  have k1 : L.rnd (s * 2) ≤ 1 := by
    have h1 := hL.rnd.one
    rw [← h1]
    exact hL.rnd.mono (by linarith)
  unfold tTestR
  rw [pyAssert_bind, if_pos ((noNaN_any _).2 (noNaN_finVec ys)), if_neg (informative_finVec h2)]
  simp only [finVals_finVec]
  have ed : (Flt.fin (L.rnd (meanR L ys - 0))).div (.fin (L.sqrt (L.rnd (varR L 1 ys / ys.length)))) =
      .fin (L.rnd (meanR L ys - 0) / L.sqrt (L.rnd (varR L 1 ys / ys.length))) := by
    simp [Flt.div, hs.ne']
  rw [ed]
  simp only [rF, fabs, hsf, Flt.mul]
  simp [pyAssert_bind, k0, k1, pure_eq_ok, ok_bind, Flt.isNaN]

/-- The standard error that `t_test` computes from rounded data. -/
theorem t_stdErr_close (hL : GoodLib L) (hA : AccurateLib u L) {xs : List ℝ} {f : ℝ → ℝ} (hf : ∀ x ∈ xs, |f x - x| ≤ u * |x|)
    (hn : xs.length * u ≤ 1 / 1000000) (h2 : 1 < xs.length) :
    |L.sqrt (L.rnd (varR L 1 (xs.map f) / xs.length)) - stdErr xs| ≤ xs.length * u * (11 * stdErr xs + 8 * avgAbs xs) := by
  have hu := hA.nonneg
  have hA0 := avgAbs_nonneg xs
  have hS0 := stdErr_nonneg xs
  have hne : xs ≠ [] := by rintro rfl; simp at h2
  have hus := u_small hu h2 hn
  have h2' : (2 : ℝ) ≤ xs.length := by exact_mod_cast h2
  have hn0 : (0 : ℝ) < xs.length := by linarith
  set nu := (xs.length : ℝ) * u with hnu
  have hnu0 : 0 ≤ nu := by positivity
  have hunu : u ≤ nu / 2 := by rw [hnu]; nlinarith
  set ys := xs.map f with hys
  have hly : ys.length = xs.length := List.length_map _
  set S := stdErr xs with hSdef
  set A := avgAbs xs with hAdef
  obtain ⟨pm, pA⟩ := avg_perturb hf
  have hnuA : nu * A ≤ 1 / 1000000 * A := mul_le_mul_of_nonneg_right hn hA0
  have hnuA0 : 0 ≤ nu * A := mul_nonneg hnu0 hA0
  have hnuS : nu * S ≤ 1 / 1000000 * S := mul_le_mul_of_nonneg_right hn hS0
  have hnuS0 : 0 ≤ nu * S := mul_nonneg hnu0 hS0
  have uA : u * A ≤ nu / 2 * A := mul_le_mul_of_nonneg_right hunu hA0
  have uS : u * S ≤ nu / 2 * S := mul_le_mul_of_nonneg_right hunu hS0
  have hAy0 := avgAbs_nonneg ys
  have hAy : avgAbs ys ≤ 1001 / 1000 * A := by linarith
  set r := Real.sqrt (xs.length : ℝ) with hr
  have hr1 : 1 ≤ r := Real.one_le_sqrt.2 (by linarith)
  have hr0 : 0 < r := by linarith
  have sp := stdErr_perturb hu h2 hf
  have hAr : A / r ≤ A := div_le_self hA0 hr1
  have sp' : |stdErr ys - S| ≤ nu / 2 * (S + 2 * A) :=
    sp.trans (mul_le_mul hunu (by linarith) (by positivity) (by linarith))
  obtain ⟨hv0, sc⟩ := C133_std hA hL.sum (xs := ys) (by rw [hly]; exact h2) (by rw [hly]; exact hn) (d := 1) (by norm_num) le_rfl
  rw [hly, ← hnu] at sc
  set σ := Real.sqrt (sqDev ys / (xs.length - 1)) with hσ
  have hσ0 : 0 ≤ σ := Real.sqrt_nonneg _
  have hSy : stdErr ys = σ / r := by
    unfold stdErr
    rw [hly]
  set v := varR L 1 ys with hv
  have q1 := near_sqrt hA hv0
  have q1' := q1.bound hu (Real.sqrt_nonneg _) (by push_cast; linarith)
  push_cast at q1'
  have q2 : Lemmas.Near u 2 (L.sqrt (L.rnd (v / xs.length))) (Real.sqrt (v / xs.length)) :=
    (near_sqrt hA (hL.rnd.nonneg (by positivity))).trans hu (Real.sqrt_nonneg _)
      ((near_rnd hA.rnd (by positivity)).sqrt (by positivity) (hL.rnd.nonneg (by positivity)))
  have q2' := q2.bound hu (Real.sqrt_nonneg _) (by push_cast; linarith)
  push_cast at q2'
  have ev : Real.sqrt (v / xs.length) = Real.sqrt v / r := Real.sqrt_div' _ (by positivity)
  rw [ev] at q2'
  set s' := L.sqrt (L.rnd (v / xs.length)) with hs'
  set w := Real.sqrt v with hw
  have hw0 : 0 ≤ w := Real.sqrt_nonneg _
  have uw : u * w ≤ nu / 2 * w := mul_le_mul_of_nonneg_right hunu hw0
  have uw' : nu * w ≤ 1 / 1000000 * w := mul_le_mul_of_nonneg_right hn hw0
  have usg : nu * σ ≤ 1 / 1000000 * σ := mul_le_mul_of_nonneg_right hn hσ0
  have usg0 : 0 ≤ nu * σ := mul_nonneg hnu0 hσ0
  have nAy : nu * avgAbs ys ≤ nu * (1001 / 1000 * A) := mul_le_mul_of_nonneg_left hAy hnu0
  have hwσ : |w - σ| ≤ nu * w + 6 * nu * σ + 5 * nu * A := by
    have := abs_sub_le w (L.sqrt v) σ
    rw [abs_sub_comm w (L.sqrt v)] at this
    linarith
  have hwle : w ≤ 1001 / 1000 * σ + 1 / 1000 * A := by linarith [(abs_le.1 hwσ).2]
  have nuw : nu * w ≤ nu * (1001 / 1000 * σ + 1 / 1000 * A) := mul_le_mul_of_nonneg_left hwle hnu0
  have hdiv : ∀ x : ℝ, 0 ≤ x → x / r ≤ x := fun x hx => div_le_self hx hr1
  have hds0 : |s' - w / r| ≤ 2 * nu * (w / r) := by
    have : u * (w / r) ≤ nu / 2 * (w / r) := mul_le_mul_of_nonneg_right hunu (by positivity)
    linarith
  have hdw : |w / r - σ / r| ≤ (nu * w + 6 * nu * σ + 5 * nu * A) / r := by
    rw [← sub_div, abs_div, abs_of_pos hr0]
    exact div_le_div_of_nonneg_right hwσ hr0.le
  have hds1 : |s' - σ / r| ≤ 10 * nu * (σ / r) + 6 * nu * A := by
    have t1 := abs_sub_le s' (w / r) (σ / r)
    have t2 : 2 * nu * (w / r) + (nu * w + 6 * nu * σ + 5 * nu * A) / r = (3 * (nu * w) + 6 * (nu * σ) + 5 * (nu * A)) / r := by ring
    have t3 : (3 * (nu * w) + 6 * (nu * σ) + 5 * (nu * A)) / r ≤ (10 * (nu * σ) + 6 * (nu * A)) / r :=
      div_le_div_of_nonneg_right (by linarith) hr0.le
    have t4 : (10 * (nu * σ) + 6 * (nu * A)) / r = 10 * nu * (σ / r) + 6 * (nu * A / r) := by ring
    have t5 := hdiv (nu * A) hnuA0
    linarith
  rw [← hSy] at hds1
  have t1 := abs_sub_le s' (stdErr ys) S
  have t2 : nu * stdErr ys ≤ nu * (S + nu / 2 * (S + 2 * A)) := mul_le_mul_of_nonneg_left (by linarith [(abs_le.1 sp').2]) hnu0
  have t3 : nu * (nu / 2 * (S + 2 * A)) ≤ 1 / 1000000 * (nu / 2 * (S + 2 * A)) := mul_le_mul_of_nonneg_right hn (by positivity)
  linarith

/-- The mean that `t_test` computes from rounded data. -/
theorem t_mean_close (hL : GoodLib L) (hA : AccurateLib u L) {xs : List ℝ} {f : ℝ → ℝ} (hf : ∀ x ∈ xs, |f x - x| ≤ u * |x|)
    (hn : xs.length * u ≤ 1 / 1000000) (h2 : 1 < xs.length) :
    |L.rnd (meanR L (xs.map f) - 0) - avg xs| ≤ 4 * (xs.length * u) * avgAbs xs := by
  have hu := hA.nonneg
  have hA0 := avgAbs_nonneg xs
  have hS0 := stdErr_nonneg xs
  have hne : xs ≠ [] := by rintro rfl; simp at h2
  have hus := u_small hu h2 hn
  have h2' : (2 : ℝ) ≤ xs.length := by exact_mod_cast h2
  have hn0 : (0 : ℝ) < xs.length := by linarith
  set nu := (xs.length : ℝ) * u with hnu
  have hnu0 : 0 ≤ nu := by positivity
  have hunu : u ≤ nu / 2 := by rw [hnu]; nlinarith
  set ys := xs.map f with hys
  have hly : ys.length = xs.length := List.length_map _
  set A := avgAbs xs with hAdef
  obtain ⟨pm, pA⟩ := avg_perturb hf
  have hnuA : nu * A ≤ 1 / 1000000 * A := mul_le_mul_of_nonneg_right hn hA0
  have hnuA0 : 0 ≤ nu * A := mul_nonneg hnu0 hA0
  have uA : u * A ≤ nu / 2 * A := mul_le_mul_of_nonneg_right hunu hA0
  have hAy : avgAbs ys ≤ 1001 / 1000 * A := by linarith
  have nAy : nu * avgAbs ys ≤ nu * (1001 / 1000 * A) := mul_le_mul_of_nonneg_left hAy hnu0
  have hmean := C111_mean hu hA.rnd hL.sum (xs := ys) (by rw [hys]; simpa using hne) (by rw [hly]; exact hn)
  rw [hly, ← hnu] at hmean
  set m' := L.rnd (meanR L ys - 0) with hm'
  have hm1 := hA.rnd (meanR L ys - 0)
  rw [sub_zero] at hm1
  have habs : |avg xs| ≤ A := abs_avg_le
  have dm0 : |meanR L ys - avg xs| ≤ 3 * nu * A := by
    have t1 := abs_sub_le (meanR L ys) (avg ys) (avg xs)
    linarith
  have t1 := abs_sub_le m' (meanR L ys) (avg xs)
  have t2 : |meanR L ys| ≤ 1001 / 1000 * A := by
    have := abs_sub_abs_le_abs_sub (meanR L ys) (avg xs)
    linarith
  have t3 : u * |meanR L ys| ≤ nu / 2 * (1001 / 1000 * A) := mul_le_mul hunu t2 (abs_nonneg _) (by linarith)
  rw [hm', sub_zero] at t1 ⊢
  linarith

/-- A p-value from a slightly wrong mean, standard error, quotient and survival function. -/
theorem t_stat_close {ν : ℕ} (hν : 1 ≤ ν) (hu : 0 ≤ u) (hu2 : u ≤ 1 / 2) {m m' S s' t' s pR D E : ℝ} (hS : 0 < S) (hs'lo : S / 2 ≤ s')
    (hds : |s' - S| ≤ D) (hdm : |m' - m| ≤ E) (ht0 : 0 ≤ t') (ht'd : |t' - |m'| / s'| ≤ u * (|m'| / s'))
    (ds : |s - (1 - (studentT ν).cdf t')| ≤ η) (hs0 : 0 ≤ s) (hs1 : s ≤ 1 / 2) (k3 : |pR - s * 2| ≤ u * |s * 2|) :
    S * |pR - 2 * (1 - (studentT ν).cdf (|m| / S))| ≤ 2 * D + 12 / 5 * E + 3 * u * S + 2 * η * S := by
  have hs'0 : 0 < s' := by linarith
  have hE : 0 ≤ E := (abs_nonneg _).trans hdm
  have dm' : |(|m'|) - (|m|)| ≤ E := (abs_abs_sub_abs_le_abs_sub _ _).trans hdm
  have c1 := student_scale hν (m := |m|) (abs_nonneg _) hS hs'0 (r := S / 2) (by linarith) (by linarith) hs'lo
  have c2 := student_lip hν (x := |m| / s') (y := |m'| / s') (by positivity) (by positivity)
  have c4 := student_rel hν hu hu2 (by positivity) ht0 ht'd
  set F := (studentT ν).cdf with hF
  have k1 : S * |F (|m| / s') - F (|m| / S)| ≤ D := by
    have e : S * (|s' - S| / (2 * (S / 2))) = |s' - S| := by field_simp
    calc S * |F (|m| / s') - F (|m| / S)| ≤ S * (|s' - S| / (2 * (S / 2))) := mul_le_mul_of_nonneg_left c1 hS.le
      _ ≤ _ := by rw [e]; exact hds
  have k2 : S * |F (|m'| / s') - F (|m| / s')| ≤ 6 / 5 * E := by
    rw [← sub_div, abs_div, abs_of_pos hs'0] at c2
    have e1 : |(|m'|) - (|m|)| / s' ≤ E / (S / 2) := div_le_div₀ hE dm' (by positivity) hs'lo
    have e2 : S * (3 / 5 * (E / (S / 2))) = 6 / 5 * E := by field_simp; ring
    rw [← e2]
    exact mul_le_mul_of_nonneg_left (c2.trans (by linarith)) hS.le
  have k3' : |pR - s * 2| ≤ u := by
    refine k3.trans ?_
    rw [abs_of_nonneg (by linarith)]
    exact mul_le_of_le_one_right hu (by linarith)
  have k4 : |pR - 2 * (1 - F (|m| / S))| ≤ 3 * u + 2 * η + 2 * |F (|m'| / s') - F (|m| / s')| + 2 * |F (|m| / s') - F (|m| / S)| := by
    have e : pR - 2 * (1 - F (|m| / S)) = (pR - s * 2) + 2 * (s - (1 - F t')) - 2 * (F t' - F (|m'| / s')) -
        2 * (F (|m'| / s') - F (|m| / s')) - 2 * (F (|m| / s') - F (|m| / S)) := by ring
    obtain ⟨a1, a1'⟩ := abs_le.1 k3'
    obtain ⟨a2, a2'⟩ := abs_le.1 ds
    obtain ⟨a3, a3'⟩ := abs_le.1 c4
    have a4 := neg_abs_le (F (|m'| / s') - F (|m| / s'))
    have a4' := le_abs_self (F (|m'| / s') - F (|m| / s'))
    have a5 := neg_abs_le (F (|m| / s') - F (|m| / S))
    have a5' := le_abs_self (F (|m| / s') - F (|m| / S))
    rw [e, abs_le]
    constructor <;> linarith
  have k5 := mul_le_mul_of_nonneg_left k4 hS.le
  linarith

/-- The t test of rounded data next to the exact test. -/
theorem t_p_close (hL : GoodLib L) (hA : AccurateLib u L) {xs : List ℝ} {f : ℝ → ℝ} (hf : ∀ x ∈ xs, |f x - x| ≤ u * |x|)
    (hn : xs.length * u ≤ 1 / 1000000) (hsf : AccurateSf η L xs.length) :
    ∃ p pR : ℝ, tTest studentT (finVec xs) = .ok (.fin p) ∧ tTestR L (finVec (xs.map f)) = .ok (.fin pR) ∧ (0 ≤ p ∧ p ≤ 1) ∧ (0 ≤ pR ∧ pR ≤ 1) ∧
      stdErr xs * |pR - p| ≤ 26 * (xs.length * u) * (stdErr xs + avgAbs xs) + 3 * η * stdErr xs := by
  have hu := hA.nonneg
  have hA0 := avgAbs_nonneg xs
  have hS0 := stdErr_nonneg xs
  have hη : 0 ≤ η := by
    obtain ⟨s, -, h⟩ := hsf 0 le_rfl
    exact (abs_nonneg _).trans h
  rcases Nat.lt_or_ge 1 xs.length with h2 | h2
  swap
  · refine ⟨1, 1, ?_, ?_, by norm_num, by norm_num, ?_⟩
    · unfold tTest
      rw [pyAssert_bind, if_pos ((noNaN_any _).2 (noNaN_finVec xs)), if_pos (uninformative_short h2)]
      rfl
    · unfold tTestR
      rw [pyAssert_bind, if_pos ((noNaN_any _).2 (noNaN_finVec _)), if_pos (uninformative_short (by simpa using h2))]
      rfl
    · rw [sub_self, abs_zero, mul_zero]
      positivity
  have hne : xs ≠ [] := by rintro rfl; simp at h2
  have hus := u_small hu h2 hn
  have h2' : (2 : ℝ) ≤ xs.length := by exact_mod_cast h2
  have hn0 : (0 : ℝ) < xs.length := by linarith
  set nu := (xs.length : ℝ) * u with hnu
  have hnu0 : 0 ≤ nu := by positivity
  have hunu : u ≤ nu / 2 := by rw [hnu]; nlinarith
  set ys := xs.map f with hys
  have hly : ys.length = xs.length := List.length_map _
  have hν : 1 ≤ xs.length - 1 := by omega
  have hg := gradual_of_relError hL.rnd hL.double hu hA.rnd
  obtain ⟨p, hp, hp0, hp1, hpv, -⟩ := C45_t_test studentT (xs := xs) h2 (studentT_isSymmetric hν)
  obtain ⟨pR, hpR, hpR0, hpR1⟩ := tTestR_ok hL.toSignLib hg (xs := ys) (by rw [hly]; exact h2) (by rw [hly]; exact hn)
  refine ⟨p, pR, hp, hpR, ⟨hp0, hp1⟩, ⟨hpR0, hpR1⟩, ?_⟩
  set S := stdErr xs with hSdef
  set A := avgAbs xs with hAdef
  by_cases hbig : S ≤ 26 * nu * (S + A)
  · have : |pR - p| ≤ 1 := abs_le.2 ⟨by linarith, by linarith⟩
    have : S * |pR - p| ≤ S * 1 := mul_le_mul_of_nonneg_left this hS0
    have : 0 ≤ 3 * η * S := by positivity
    linarith
  push Not at hbig
  have hSpos : 0 < S := lt_of_le_of_lt (by positivity) hbig
  have hx : ∃ x ∈ xs, x ≠ avg xs := by
    by_contra hcon
    push Not at hcon
    exact hSpos.ne' ((stdErr_eq_zero h2).2 hcon)
  obtain ⟨hpv, -⟩ := hpv hx
  have hnuS0 : 0 ≤ nu * S := mul_nonneg hnu0 hS0
  have hnuA0 : 0 ≤ nu * A := mul_nonneg hnu0 hA0
  have uS : u * S ≤ nu / 2 * S := mul_le_mul_of_nonneg_right hunu hS0
  have hds := t_stdErr_close hL hA hf hn h2
  have hdm := t_mean_close hL hA hf hn h2
  rw [← hnu, ← hSdef, ← hAdef] at hds
  rw [← hnu, ← hAdef] at hdm
  have hs'lo : S / 2 ≤ L.sqrt (L.rnd (varR L 1 ys / xs.length)) := by linarith [(abs_le.1 hds).1]
  have hs'0 : 0 < L.sqrt (L.rnd (varR L 1 ys / xs.length)) := by linarith
  obtain ⟨s, es, ds⟩ := hsf |L.rnd (L.rnd (meanR L ys - 0) / L.sqrt (L.rnd (varR L 1 ys / xs.length)))| (abs_nonneg _)
  have hval := tTestR_value hL (ys := ys) (by rw [hly]; exact h2) (by rw [hly]; exact hs'0) (s := s) (by rw [hly]; exact es)
  rw [hpR, Except.ok.injEq, Flt.fin.injEq] at hval
  obtain ⟨s0, es', hs0, hs1⟩ := hL.tSf (xs.length - 1) _ (abs_nonneg (L.rnd (L.rnd (meanR L ys - 0) / L.sqrt (L.rnd (varR L 1 ys / xs.length)))))
  rw [es, Flt.fin.injEq] at es'
  subst es'
  have ht'd : |(|L.rnd (L.rnd (meanR L ys - 0) / L.sqrt (L.rnd (varR L 1 ys / xs.length)))|) -
      |L.rnd (meanR L ys - 0)| / L.sqrt (L.rnd (varR L 1 ys / xs.length))| ≤
      u * (|L.rnd (meanR L ys - 0)| / L.sqrt (L.rnd (varR L 1 ys / xs.length))) := by
    have := (abs_abs_sub_abs_le_abs_sub _ _).trans (hA.rnd (L.rnd (meanR L ys - 0) / L.sqrt (L.rnd (varR L 1 ys / xs.length))))
    rwa [abs_div, abs_of_pos hs'0] at this
  have key := t_stat_close hν hu (by linarith) hSpos hs'lo hds hdm (abs_nonneg _) ht'd ds hs0 hs1 (pR := pR) (by rw [hval]; exact hA.rnd _)
  rw [hpv]
  have hηS : 0 ≤ η * S := mul_nonneg hη hS0
  linarith

/-- **C139, the test.**  The p-value that `t_test` computes in floating point for finite data is a number between 0 and 1, and it differs from the
exact p-value by at most `26 n u (1 + A / S) + 3 η`, where `S` is the standard error and `A` the average absolute value. -/
theorem C139_t_test (hL : GoodLib L) (hA : AccurateLib u L) {xs : List ℝ} (hn : xs.length * u ≤ 1 / 1000000) (hsf : AccurateSf η L xs.length) :
    ∃ p pR : ℝ, tTest studentT (finVec xs) = .ok (.fin p) ∧ tTestR L (finVec xs) = .ok (.fin pR) ∧ (0 ≤ p ∧ p ≤ 1) ∧ (0 ≤ pR ∧ pR ≤ 1) ∧
      stdErr xs * |pR - p| ≤ 26 * (xs.length * u) * (stdErr xs + avgAbs xs) + 3 * η * stdErr xs := by
  have h := t_p_close hL hA (xs := xs) (f := id) (fun x _ => by simpa using mul_nonneg hA.nonneg (abs_nonneg x)) hn hsf
  rwa [List.map_id] at h

/-- **C139, tables.**  The p-value of every cell but those of the reference, in a loss table made with method `'t'`. -/
theorem C139_table (hL : GoodLib L) (hA : AccurateLib u L)
    {tbl : LossTable} {refMethod : Str} {pairwise : Bool} {c c' : Flt ℝ} {limits : List (Str × (Flt ℝ × Flt ℝ))} {draws : Str → Str → Draws}
    {out outR : List (List (Flt ℝ × Flt ℝ × Flt ℝ))} {metric method : Str} {cell cellR : Flt ℝ × Flt ℝ × Flt ℝ}
    (hc : SummaryCell tbl out metric method cell) (hcR : SummaryCell tbl outR metric method cellR)
    {xs rs : List ℝ} (hX : HasLoss tbl metric method (finVec xs)) (hY : HasLoss tbl metric refMethod (finVec rs))
    (hlen : rs.length = xs.length) (hn : xs.length * u ≤ 1 / 1000000) (hsf : AccurateSf η L xs.length) (hmr : method ≠ refMethod)
    (ho : lossSummaryTable studentT tbl refMethod pairwise c .t limits draws = .ok out)
    (hoR : lossSummaryTableR L tbl refMethod pairwise c' .t limits draws = .ok outR)
    {lo hi : Flt ℝ} (hlim : LimitsOf limits metric lo hi) :
    ∃ p pR : ℝ, cell.2.2 = .fin p ∧ cellR.2.2 = .fin pR ∧ (0 ≤ p ∧ p ≤ 1) ∧ (0 ≤ pR ∧ pR ≤ 1) ∧
      stdErr (List.zipWith (· - ·) xs rs) * |pR - p| ≤
        26 * (xs.length * u) * (stdErr (List.zipWith (· - ·) xs rs) + avgAbs (List.zipWith (· - ·) xs rs)) +
          3 * η * stdErr (List.zipWith (· - ·) xs rs) := by
  have hdl : (List.zipWith (· - ·) xs rs).length = xs.length := by rw [List.length_zipWith]; omega
  obtain ⟨p, pR, e1, e2, h1⟩ := t_p_close hL hA (xs := List.zipWith (· - ·) xs rs) (f := L.rnd) (fun x _ => hA.rnd x) (by rwa [hdl])
    (by rwa [hdl])
  have f2 := summaryCellR_test (by simp) hoR hcR hlim hX hY hmr
  simp only [getTestR] at f2
  rw [e2, Except.ok.injEq] at f2
  have f1 : cell.2.2 = .fin p := by
    obtain ⟨loss, lossRef, lo', hi', k1, k2, k3, -, -, -, -, -, -, h10, h11⟩ := summaryCell_isCell ho hc
    obtain rfl := hasLoss_unique hX k1
    obtain rfl := hasLoss_unique hY k2
    obtain ⟨rfl, rfl⟩ := limitsOf_unique hlim k3
    cases pairwise with
    | true =>
      obtain ⟨m, hm'⟩ := h10 rfl hmr
      have := ((C49_agree studentT _ _ _ _ _ _ _ m cell.2.1 cell.2.2).1 hm').2
      rw [deltas_finVec] at this
      have e3 : tTest studentT (finVec (List.zipWith (· - ·) xs rs)) = .ok cell.2.2 := this
      rw [e1, Except.ok.injEq] at e3
      exact e3.symm
    | false =>
      have := (h11 rfl).2.2 hmr
      rw [deltas_finVec] at this
      have e3 : tTest studentT (finVec (List.zipWith (· - ·) xs rs)) = .ok cell.2.2 := this
      rw [e1, Except.ok.injEq] at e3
      exact e3.symm
  rw [hdl] at h1
  exact ⟨p, pR, f1, f2.symm, h1⟩

/-- The average absolute value in terms of the mean and the standard error. -/
theorem avgAbs_le_stat {xs : List ℝ} (h2 : 2 ≤ xs.length) (hS : 0 < stdErr xs) :
    avgAbs xs ≤ |avg xs| + Real.sqrt xs.length * stdErr xs := by
  have h2' : (2 : ℝ) ≤ xs.length := by exact_mod_cast h2
  set r := Real.sqrt (xs.length : ℝ) with hr
  have hr2 : r ^ 2 = xs.length := Real.sq_sqrt (by linarith)
  have hr0 : 0 < r := Real.sqrt_pos.2 (by linarith)
  set S := stdErr xs with hSdef
  have hk : 0 < r * S := by positivity
  have hss : sqDev xs = (xs.length - 1) * (r * S) ^ 2 := by
    have e : r * S = Real.sqrt (sqDev xs / (xs.length - 1)) := by
      rw [hSdef]
      unfold stdErr
      rw [← hr]
      field_simp
    rw [e, Real.sq_sqrt (div_nonneg (sqDev_nonneg _) (by linarith))]
    rw [mul_div_cancel₀]
    linarith
  have gen : ∀ (m k : ℝ), 0 < k → ∀ ys : List ℝ,
      (ys.map fun v => |v|).sum ≤ ys.length * (|m| + k / 2) + (ys.map fun x => (x - m) ^ 2).sum / (2 * k) := by
    intro m k hk ys
    induction ys with
    | nil => simp
    | cons y ys ih =>
      simp only [List.map_cons, List.sum_cons, List.length_cons, Nat.cast_add, Nat.cast_one]
      have h1 : |y| ≤ |m| + |y - m| := by
        have := abs_add_le m (y - m)
        rwa [add_sub_cancel] at this
      have h3 : |y - m| ≤ (y - m) ^ 2 / (2 * k) + k / 2 := by
        rw [div_add' _ _ _ (by positivity), le_div_iff₀ (by positivity), ← sq_abs (y - m)]
        nlinarith [sq_nonneg (|y - m| - k)]
      rw [add_div]
      linarith
  have h3 := gen (avg xs) (r * S) hk xs
  have e : (xs.map fun x => (x - avg xs) ^ 2).sum = sqDev xs := rfl
  rw [e, hss] at h3
  unfold avgAbs
  rw [div_le_iff₀ (by linarith)]
  have e2 : (xs.length - 1) * (r * S) ^ 2 / (2 * (r * S)) = (xs.length - 1) * (r * S) / 2 := by field_simp
  rw [e2] at h3
  linarith

/-- **C139, the t statistic.**  The error of the p-value in terms of the t statistic of the data. -/
theorem C139_t_stat (hL : GoodLib L) (hA : AccurateLib u L) {xs : List ℝ} {f : ℝ → ℝ} (hf : ∀ x ∈ xs, |f x - x| ≤ u * |x|)
    (hn : xs.length * u ≤ 1 / 1000000) (hsf : AccurateSf η L xs.length) (h2 : 2 ≤ xs.length) (hS : 0 < stdErr xs) :
    ∃ p pR : ℝ, tTest studentT (finVec xs) = .ok (.fin p) ∧ tTestR L (finVec (xs.map f)) = .ok (.fin pR) ∧
      p = 2 * (1 - (studentT (xs.length - 1)).cdf (|avg xs| / stdErr xs)) ∧
      |pR - p| ≤ 26 * (xs.length * u) * (1 + Real.sqrt xs.length + |avg xs| / stdErr xs) + 3 * η := by
  obtain ⟨p, pR, h1, hR, -, -, hd⟩ := t_p_close hL hA hf hn hsf
  have hν : 1 ≤ xs.length - 1 := by omega
  obtain ⟨p', hp', -, -, hv, -⟩ := C45_t_test studentT (xs := xs) h2 (studentT_isSymmetric hν)
  rw [h1, Except.ok.injEq, Flt.fin.injEq] at hp'
  subst hp'
  refine ⟨p, pR, h1, hR, (hv ?_).1, ?_⟩
  · by_contra hcon
    push Not at hcon
    exact hS.ne' ((stdErr_eq_zero h2).2 hcon)
  have hA' := avgAbs_le_stat h2 hS
  have hu := hA.nonneg
  have hnu : 0 ≤ xs.length * u := by positivity
  refine le_of_mul_le_mul_left (hd.trans ?_) hS
  have e : stdErr xs * (26 * (xs.length * u) * (1 + Real.sqrt xs.length + |avg xs| / stdErr xs) + 3 * η) =
      26 * (xs.length * u) * (stdErr xs + (|avg xs| + Real.sqrt xs.length * stdErr xs)) + 3 * η * stdErr xs := by field_simp; ring
  rw [e]
  have := mul_le_mul_of_nonneg_left hA' (by positivity : 0 ≤ 26 * (xs.length * u))
  linarith

/-! ### False alarms -/

/-- The tail of Student's distribution. -/
theorem student_tail {ν : ℕ} (h : 1 ≤ ν) {T : ℝ} (hT : 0 < T) : 1 - (studentT ν).cdf T ≤ 6 / 5 / T := by
  have hν : (1 : ℝ) ≤ ν := by exact_mod_cast h
  have hi := studentDensity_integrable h
  have hc := studentDensity_continuous h
  have hsym := studentT_isSymmetric h
  have hZ := studentDensity_total h
  have hdens : ∀ x : ℝ, 0 < x → studentDensity ν x ≤ 2 * x ^ (-2 : ℤ) := by
    intro x hx
    unfold studentDensity
    have e : -((ν : ℝ) + 1) / 2 = -(((ν : ℝ) + 1) / 2) := by ring
    have hb : (0 : ℝ) < 1 + x ^ 2 / ν := by positivity
    rw [e, Real.rpow_neg hb.le]
    have hB := one_add_mul_self_le_rpow_one_add (s := x ^ 2 / ν) (by linarith [show 0 ≤ x ^ 2 / ν by positivity]) (p := ((ν : ℝ) + 1) / 2) (by linarith)
    have h1 : x ^ 2 / 2 ≤ 1 + ((ν : ℝ) + 1) / 2 * (x ^ 2 / ν) := by
      have e2 : ((ν : ℝ) + 1) / 2 * (x ^ 2 / ν) = x ^ 2 / 2 + x ^ 2 / 2 / ν := by field_simp
      rw [e2]
      have : 0 ≤ x ^ 2 / 2 / ν := by positivity
      linarith
    have e3 : 2 * x ^ (-2 : ℤ) = (x ^ 2 / 2)⁻¹ := by
      rw [zpow_neg, inv_div, div_eq_mul_inv]
      norm_cast
    rw [e3]
    exact inv_anti₀ (by positivity) (h1.trans hB)
  set Z := ∫ x, studentDensity ν x with hZdef
  have hdiff : ∀ x y : ℝ, (studentT ν).cdf y - (studentT ν).cdf x = (∫ t in x..y, studentDensity ν t) / Z := fun x y => by
    rw [← intervalIntegral.integral_Iic_sub_Iic hi.integrableOn hi.integrableOn, sub_div]
    rfl
  have hb : ∀ b, T ≤ b → (studentT ν).cdf b ≤ (studentT ν).cdf T + 6 / 5 / T := by
    intro b hTb
    have hb0 : 0 < b := hT.trans_le hTb
    have h0 : (0 : ℝ) ∉ Set.uIcc T b := by
      rw [Set.uIcc_of_le hTb]
      exact fun hh => absurd hh.1 (not_le.2 hT)
    have h1 := intervalIntegral.integral_mono_on (μ := volume) hTb (hc.intervalIntegrable T b) (g := fun x => 2 * x ^ (-2 : ℤ))
      ((intervalIntegral.intervalIntegrable_zpow (Or.inr h0)).const_mul 2) fun x hx => hdens x (hT.trans_le hx.1)
    rw [intervalIntegral.integral_const_mul, integral_zpow (Or.inr ⟨by norm_num, h0⟩)] at h1
    have e : (2 : ℝ) * ((b ^ (-2 + 1 : ℤ) - T ^ (-2 + 1 : ℤ)) / (((-2 : ℤ) : ℝ) + 1)) = 2 / T - 2 / b := by
      norm_num
      ring
    rw [e] at h1
    have h3 := hdiff T b
    have hbp : 0 ≤ 2 / b := by positivity
    have h4 : (∫ t in T..b, studentDensity ν t) / Z ≤ 6 / 5 / T := by
      rw [div_le_iff₀ (by linarith)]
      have : 6 / 5 / T * (5 / 3) ≤ 6 / 5 / T * Z := mul_le_mul_of_nonneg_left hZ (by positivity)
      have e4 : 6 / 5 / T * (5 / 3) = 2 / T := by ring
      linarith
    linarith
  rw [sub_le_iff_le_add]
  refine le_of_forall_lt fun q hq => ?_
  by_cases hq0 : 0 < (1 + max q 0) / 2
  swap
  · exfalso
    have := le_max_right q 0
    linarith
  have hm1 : max q 0 < 1 := max_lt hq one_pos
  have hp := hsym.cdf_ppf ((1 + max q 0) / 2) hq0 (by linarith)
  have := le_max_left q 0
  have hT' := hb (max T ((studentT ν).ppf ((1 + max q 0) / 2))) (le_max_left _ _)
  have := hsym.strictMono.monotone (le_max_right T ((studentT ν).ppf ((1 + max q 0) / 2)))
  linarith

section
variable {Ω : Type} [MeasurableSpace Ω] {P : Measure Ω} [IsProbabilityMeasure P] {n : ℕ}

/-- **C139, false alarms.**  Independent normal data with mean zero, rounded to floating point numbers: the p-value that `t_test` computes is at
most `α` with probability at most `α + 26 n u (1 + √n + 12 / (5 α)) + 3 η`. -/
theorem C139_false_alarm (hL : GoodLib L) (hA : AccurateLib u L) (h2 : 2 ≤ n) (hn : n * u ≤ 1 / 1000000) (hsf : AccurateSf η L n)
    {X : Fin n → Ω → ℝ} {v : ℝ≥0} (h : NormalSample P X 0 v) {α : ℝ} (hα : 0 < α) :
    P.real {ω | ∃ p : ℝ, tTestR L (finVec ((observed X ω).map L.rnd)) = .ok (.fin p) ∧ p ≤ α} ≤
      α + 26 * (n * u) * (1 + Real.sqrt n + 12 / 5 / α) + 3 * η := by
  have hu := hA.nonneg
  have hη : 0 ≤ η := by
    obtain ⟨s, -, h⟩ := hsf 0 le_rfl
    exact (abs_nonneg _).trans h
  set β := α + 26 * (n * u) * (1 + Real.sqrt n + 12 / 5 / α) + 3 * η with hβ
  have hαβ : α ≤ β := by
    have : 0 ≤ 26 * (n * u) * (1 + Real.sqrt n + 12 / 5 / α) := by positivity
    linarith
  by_cases hβ1 : 1 ≤ β
  · exact measureReal_le_one.trans hβ1
  push Not at hβ1
  have hν : 1 ≤ n - 1 := by omega
  have hne : ∀ᵐ ω ∂P, 0 < stdErr (observed X ω) := by
    obtain ⟨ν, rfl⟩ : ∃ ν, n = ν + 1 := ⟨n - 1, by omega⟩
    filter_upwards [tStat_ne_zero (by omega) h] with ω hω
    refine lt_of_le_of_ne (stdErr_nonneg _) fun e => hω ?_
    unfold tStat
    rw [← e, div_zero]
  rw [← (C95_t_test_exact h2 h (hα.le.trans hαβ) hβ1.le).2]
  refine ENNReal.toReal_mono (measure_ne_top _ _) (measure_mono_ae ?_)
  filter_upwards [hne] with ω hS
  rintro ⟨pR, hpR, hle⟩
  have hlen : (observed X ω).length = n := observed_length X ω
  obtain ⟨p, pR', h1, hR, hv, hd⟩ := C139_t_stat hL hA (xs := observed X ω) (f := L.rnd) (fun x _ => hA.rnd x) (by rw [hlen]; exact hn)
    (by rw [hlen]; exact hsf) (by rw [hlen]; exact h2) hS
  rw [hpR, Except.ok.injEq, Flt.fin.injEq] at hR
  subst hR
  rw [hlen] at hd hv
  refine ⟨p, h1, ?_⟩
  by_cases ht : |avg (observed X ω)| / stdErr (observed X ω) ≤ 12 / 5 / α
  · have := mul_le_mul_of_nonneg_left ht (by positivity : 0 ≤ 26 * (n * u))
    have := (abs_le.1 hd).1
    linarith
  · push Not at ht
    have hpos : 0 < |avg (observed X ω)| / stdErr (observed X ω) := lt_trans (by positivity) ht
    have := student_tail hν hpos
    have h5 : 6 / 5 / (|avg (observed X ω)| / stdErr (observed X ω)) ≤ α / 2 := by
      rw [div_le_iff₀ hpos]
      rw [div_lt_iff₀ hα] at ht
      linarith
    linarith

/-- **C139, false alarms in tables.**  The table of losses whose differences from the losses of the reference are independent normal numbers
with mean zero, made with method `'t'` in floating point. -/
theorem C139_table_false_alarm (hL : GoodLib L) (hA : AccurateLib u L) (h2 : 2 ≤ n) (hn : n * u ≤ 1 / 1000000) (hsf : AccurateSf η L n)
    {tbl : Ω → LossTable} {metric method refMethod : Str} {limits : List (Str × (Flt ℝ × Flt ℝ))} {lo hi : Flt ℝ}
    (hlim : LimitsOf limits metric lo hi) (hmr : method ≠ refMethod) {X Y : Fin n → Ω → ℝ}
    (hX : ∀ ω, HasLoss (tbl ω) metric method (finVec (observed X ω))) (hY : ∀ ω, HasLoss (tbl ω) metric refMethod (finVec (observed Y ω)))
    {v : ℝ≥0} (h : NormalSample P (fun i ω => X i ω - Y i ω) 0 v)
    {pairwise : Bool} {c : Flt ℝ} {draws : Ω → Str → Str → Draws} {out : Ω → List (List (Flt ℝ × Flt ℝ × Flt ℝ))}
    (ho : ∀ ω, lossSummaryTableR L (tbl ω) refMethod pairwise c .t limits (draws ω) = .ok (out ω))
    {cell : Ω → Flt ℝ × Flt ℝ × Flt ℝ} (hc : ∀ ω, SummaryCell (tbl ω) (out ω) metric method (cell ω)) {α : ℝ} (hα : 0 < α) :
    P.real {ω | ∃ p : ℝ, (cell ω).2.2 = .fin p ∧ p ≤ α} ≤ α + 26 * (n * u) * (1 + Real.sqrt n + 12 / 5 / α) + 3 * η := by
  refine (measureReal_mono ?_).trans (C139_false_alarm hL hA h2 hn hsf h hα)
  rintro ω ⟨p, hp, hle⟩
  have f2 := summaryCellR_test (by simp) (ho ω) (hc ω) hlim (hX ω) (hY ω) hmr
  rw [observed_sub] at f2
  simp only [getTestR] at f2
  exact ⟨p, by rw [f2, hp], hle⟩

/-- **C139, printed false alarms.**  The same for the p-values in the text that the library prints. -/
theorem C139_printed (hL : GoodLib L) (hA : AccurateLib u L) (h2 : 2 ≤ n) (hn : n * u ≤ 1 / 1000000) (hsf : AccurateSf η L n)
    {tbl : Ω → LossTable} {metric method refMethod : Str} {limits : List (Str × (Flt ℝ × Flt ℝ))} {lo hi : Flt ℝ}
    (hlim : LimitsOf limits metric lo hi) (hmr : method ≠ refMethod) {X Y : Fin n → Ω → ℝ}
    (hX : ∀ ω, HasLoss (tbl ω) metric method (finVec (observed X ω))) (hY : ∀ ω, HasLoss (tbl ω) metric refMethod (finVec (observed Y ω)))
    {v : ℝ≥0} (h : NormalSample P (fun i ω => X i ω - Y i ω) 0 v)
    {pairwise : Bool} {c : Flt ℝ} {draws : Ω → Str → Str → Draws} {out : Ω → List (List (Flt ℝ × Flt ℝ × Flt ℝ))}
    (ho : ∀ ω, lossSummaryTableR L (tbl ω) refMethod pairwise c .t limits (draws ω) = .ok (out ω))
    {cell : Ω → Flt ℝ × Flt ℝ × Flt ℝ} (hc : ∀ ω, SummaryCell (tbl ω) (out ω) metric method (cell ω)) {α : ℝ} (hα : 0 < α) :
    P.real {ω | ∃ b w, ShowsP (tbl ω) (out ω) metric method (b, w) ∧ (w : ℝ) ≤ α} ≤
      α + 26 * (n * u) * (1 + Real.sqrt n + 12 / 5 / α) + 3 * η := by
  refine (measureReal_mono ?_).trans (C139_table_false_alarm hL hA h2 hn hsf hlim hmr hX hY h ho hc hα)
  rintro ω ⟨b, w, hs, hw⟩
  have hlen := observed_length (fun i ω => X i ω - Y i ω) ω
  have f2 := summaryCellR_test (by simp) (ho ω) (hc ω) hlim (hX ω) (hY ω) hmr
  rw [observed_sub] at f2
  simp only [getTestR] at f2
  obtain ⟨p, pR, -, e2, -⟩ := t_p_close hL hA (xs := observed (fun i ω => X i ω - Y i ω) ω) (f := L.rnd) (fun x _ => hA.rnd x) (by rwa [hlen])
    (by rwa [hlen])
  rw [e2, Except.ok.injEq] at f2
  have := C138_cell (hc ω) f2.symm hs
  refine ⟨pR, f2.symm, ?_⟩
  cases b with
  | true => exact (this.1 rfl).1.le.trans hw
  | false => exact (this.2 rfl).1.trans hw

end

end Mlp.Props
