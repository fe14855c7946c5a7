import Verif.Props.PrintedCoverage

/-! # C138: Bernstein p-values in floating point -/

namespace Mlp.Props
open Mlp Mlp.Sciprint Mlp.Paper Mlp.PaperR Mlp.PerfR Mlp.BootR Mlp.Boot Mlp.Spec Mlp.Lemmas Mlp.Round MeasureTheory ProbabilityTheory

variable {L : Lib ℝ} {u κ : ℝ}

/-- The accuracy of `np.roots` for the polynomials of `bernstein_test`.  It computes eigenvalues of the companion matrix, so its errors are
relative to the larger root in absolute value, which is `z + b/a` if `z` is the non-negative root. -/
def AccurateRoots (κ : ℝ) (L : Lib ℝ) : Prop := ∀ a b c, 0 < a → 0 ≤ b → c ≤ 0 → ∀ r₁ r₂, L.roots a b c = some (r₁, r₂) →
  ∀ z, 0 ≤ z → a * z ^ 2 + b * z + c = 0 → |max r₁ r₂ - z| ≤ κ * (z + b / a)

/-! ### How the solution of the quadratic equation depends on its coefficients -/

theorem root_perturb_le {a a' b b' m m' z z' M : ℝ} (ha : 0 < a) (hb : 0 ≤ b) (hz : 0 ≤ z) (hz' : 0 ≤ z')
    (e : a * z ^ 2 + b * z = m) (e' : a' * z' ^ 2 + b' * z' = m') (hM : z' ≤ M) :
    a * (z' ^ 2 - z ^ 2) ≤ |m' - m| + |a' - a| * M ^ 2 + |b' - b| * M := by
  have hM0 : 0 ≤ M := hz'.trans hM
  have hrhs : 0 ≤ |m' - m| + |a' - a| * M ^ 2 + |b' - b| * M := by positivity
  rcases le_total z' z with h | h
  · have : z' ^ 2 ≤ z ^ 2 := by nlinarith
    nlinarith
  · have k1 : a * (z' ^ 2 - z ^ 2) = (m' - m) - b * (z' - z) - (a' - a) * z' ^ 2 - (b' - b) * z' := by rw [← e, ← e']; ring
    have k2 : 0 ≤ b * (z' - z) := mul_nonneg hb (by linarith)
    have k3 : -((a' - a) * z' ^ 2) ≤ |a' - a| * M ^ 2 := by
      have h1 : |(a' - a) * z' ^ 2| ≤ |a' - a| * M ^ 2 := by
        rw [abs_mul, abs_of_nonneg (by positivity : 0 ≤ z' ^ 2)]
        exact mul_le_mul_of_nonneg_left (by nlinarith) (abs_nonneg _)
      linarith [neg_abs_le ((a' - a) * z' ^ 2)]
    have k4 : -((b' - b) * z') ≤ |b' - b| * M := by
      have h1 : |(b' - b) * z'| ≤ |b' - b| * M := by
        rw [abs_mul, abs_of_nonneg hz']
        exact mul_le_mul_of_nonneg_left hM (abs_nonneg _)
      linarith [neg_abs_le ((b' - b) * z')]
    linarith [le_abs_self (m' - m)]

theorem root_perturb {a a' b b' m m' z z' M s : ℝ} (ha : 0 < a) (ha' : 0 < a') (hb : 0 ≤ b) (hb' : 0 ≤ b') (hz : 0 ≤ z) (hz' : 0 ≤ z')
    (e : a * z ^ 2 + b * z = m) (e' : a' * z' ^ 2 + b' * z' = m') (hM : z ≤ M) (hM' : z' ≤ M) (hs : 0 < s) (h1 : s ≤ a) (h2 : s ≤ a') :
    s * |z' ^ 2 - z ^ 2| ≤ |m' - m| + |a' - a| * M ^ 2 + |b' - b| * M := by
  have k1 := root_perturb_le ha hb hz hz' e e' hM'
  have k2 := root_perturb_le ha' hb' hz' hz e' e hM
  rw [abs_sub_comm m m', abs_sub_comm a a', abs_sub_comm b b'] at k2
  rcases le_total (z ^ 2) (z' ^ 2) with h | h
  · rw [abs_of_nonneg (by linarith)]
    exact (mul_le_mul_of_nonneg_right h1 (by linarith)).trans k1
  · rw [abs_of_nonpos (by linarith), neg_sub]
    exact (mul_le_mul_of_nonneg_right h2 (by linarith)).trans k2

/-- The exponent: the perturbed coefficients, roots and square give `B` up to `10 n (n u) + 2 κ n`. -/
theorem exponent_close {n nu R σ q a' b' m m' z z' zh Bh : ℝ} (hn : 2 ≤ n) (hnu0 : 0 ≤ nu) (hnu : nu ≤ 1 / 1000000) (hR : 0 < R)
    (hσ0 : 0 ≤ σ) (hσ : σ ≤ R) (hq0 : 0 ≤ q) (hq : q ^ 2 = 2 / n) (hm0 : 0 ≤ m) (hm : m ≤ R) (hκ0 : 0 ≤ κ) (hκ : κ ≤ 1 / 2)
    (hb' : 0 ≤ b') (hm' : 0 ≤ m') (da : |a' - 3 * R / n| ≤ 4 * nu * (3 * R / n)) (db : |b' - σ * q| ≤ 15 * nu * (R * q)) (dm : |m' - m| ≤ 3 * nu * R)
    (hz : 0 ≤ z) (hz' : 0 ≤ z') (e : 3 * R / n * z ^ 2 + σ * q * z = m) (e' : a' * z' ^ 2 + b' * z' = m')
    (dz : |zh - z'| ≤ κ * (z' + b' / a')) (dB : |Bh - zh * zh| ≤ nu / 2 * (zh * zh)) :
    |Bh - z ^ 2| ≤ 10 * n * nu + 2 * κ * n := by
  have hn0 : 0 < n := by linarith
  set a := 3 * R / n with ha
  have ha0 : 0 < a := by positivity
  have haR : a * n = 3 * R := by rw [ha]; field_simp
  obtain ⟨da1, da2⟩ := abs_le.1 da
  obtain ⟨db1, db2⟩ := abs_le.1 db
  obtain ⟨dm1, dm2⟩ := abs_le.1 dm
  have hnua : nu * a ≤ 1 / 1000000 * a := mul_le_mul_of_nonneg_right hnu ha0.le
  have ha' : a * (999 / 1000) ≤ a' := by linarith
  have ha'0 : 0 < a' := by linarith
  have hnR : nu * R ≤ 1 / 1000000 * R := mul_le_mul_of_nonneg_right hnu hR.le
  have hm'R : m' ≤ R * (1001 / 1000) := by linarith
  -- the sizes of the roots
  have hz2 : z ^ 2 ≤ n / 2 := by
    have h1 : a * z ^ 2 ≤ R := by linarith [mul_nonneg (mul_nonneg hσ0 hq0) hz]
    have h2 : a * z ^ 2 ≤ a * (n / 2) := by linarith
    exact le_of_mul_le_mul_left h2 ha0
  have hz'm : a' * z' ^ 2 ≤ m' := by linarith [mul_nonneg hb' hz']
  have hmn : m' ≤ a' * (n / 2) := by
    have := mul_le_mul_of_nonneg_right ha' (by positivity : 0 ≤ n / 2)
    linarith
  have hz'2 : z' ^ 2 ≤ n / 2 := le_of_mul_le_mul_left (hz'm.trans hmn) ha'0
  set M := Real.sqrt (n / 2) with hMdef
  have hM2 : M ^ 2 = n / 2 := Real.sq_sqrt (by positivity)
  have hM0 : 0 ≤ M := Real.sqrt_nonneg _
  have hzM : z ≤ M := Real.le_sqrt_of_sq_le hz2
  have hz'M : z' ≤ M := Real.le_sqrt_of_sq_le hz'2
  have hqM : q * M = 1 := by
    have : (q * M) ^ 2 = 1 := by rw [mul_pow, hq, hM2]; field_simp
    exact (pow_eq_one_iff_of_nonneg (mul_nonneg hq0 hM0) two_ne_zero).1 this
  have key := root_perturb ha0 ha'0 (mul_nonneg hσ0 hq0) hb' hz hz' e e' hzM hz'M (by positivity : 0 < a * (999 / 1000)) (by linarith) ha'
  have k1 : |a' - a| * M ^ 2 ≤ 6 * nu * R := by
    rw [hM2]
    have := mul_le_mul_of_nonneg_right da (by positivity : 0 ≤ n / 2)
    have e2 : 4 * nu * a * (n / 2) = 2 * nu * (a * n) := by ring
    rw [e2, haR] at this
    linarith
  have k2 : |b' - σ * q| * M ≤ 15 * nu * R := by
    have := mul_le_mul_of_nonneg_right db hM0
    have e2 : 15 * nu * (R * q) * M = 15 * nu * R * (q * M) := by ring
    rw [e2, hqM, mul_one] at this
    exact this
  have d1 : |z' ^ 2 - z ^ 2| ≤ 9 * n * nu := by
    have h3 : a * (999 / 1000) * |z' ^ 2 - z ^ 2| ≤ a * (999 / 1000) * (9 * n * nu) := by
      have : a * (999 / 1000) * (9 * n * nu) = 999 / 1000 * 9 * nu * (a * n) := by ring
      rw [this, haR]
      linarith [mul_nonneg hnu0 hR.le]
    exact le_of_mul_le_mul_left h3 (by positivity)
  -- the computed root
  set t := z' + b' / a' with ht
  have hba0 : 0 ≤ b' / a' := by positivity
  have ht0 : 0 ≤ t := by positivity
  have htz : t * z' ≤ n / 2 := by
    have h3 : a' * (t * z') = m' := by rw [ht, ← e']; field_simp
    exact le_of_mul_le_mul_left (h3.le.trans hmn) ha'0
  have hba : (b' / a') ^ 2 ≤ n / 4 := by
    have h3 : b' ≤ R * q * (1001 / 1000) := by
      have : σ * q ≤ R * q := mul_le_mul_of_nonneg_right hσ hq0
      have : nu * (R * q) ≤ 1 / 1000000 * (R * q) := mul_le_mul_of_nonneg_right hnu (mul_nonneg hR.le hq0)
      linarith [mul_nonneg hR.le hq0]
    have h4 : b' ^ 2 ≤ (R * q * (1001 / 1000)) ^ 2 := pow_le_pow_left₀ hb' h3 2
    have h5 : (R * q * (1001 / 1000)) ^ 2 = R ^ 2 * (2 / n) * (1001 / 1000) ^ 2 := by rw [← hq]; ring
    have h6 : (a * (999 / 1000)) ^ 2 ≤ a' ^ 2 := pow_le_pow_left₀ (by positivity) ha' 2
    have h7 : (a * (999 / 1000)) ^ 2 * (n / 4) = 9 * R ^ 2 / n / 4 * (999 / 1000) ^ 2 := by
      rw [ha]; field_simp; norm_num
    rw [div_pow, div_le_iff₀ (by positivity)]
    have h8 : R ^ 2 * (2 / n) * (1001 / 1000) ^ 2 ≤ 9 * R ^ 2 / n / 4 * (999 / 1000) ^ 2 := by
      have e3 : R ^ 2 * (2 / n) * (1001 / 1000) ^ 2 = (R ^ 2 / n) * (2 * (1001 / 1000) ^ 2) := by ring
      have e4 : 9 * R ^ 2 / n / 4 * (999 / 1000) ^ 2 = (R ^ 2 / n) * (9 / 4 * (999 / 1000) ^ 2) := by ring
      rw [e3, e4]
      exact mul_le_mul_of_nonneg_left (by norm_num) (by positivity)
    have h9 : (a * (999 / 1000)) ^ 2 * (n / 4) ≤ a' ^ 2 * (n / 4) := mul_le_mul_of_nonneg_right h6 (by positivity)
    linarith
  have ht2 : t ^ 2 ≤ 3 / 2 * n := by
    have e2 : t ^ 2 = 2 * z' ^ 2 + 2 * (b' / a') ^ 2 - (z' - b' / a') ^ 2 := by rw [ht]; ring
    linarith [sq_nonneg (z' - b' / a')]
  have hκt0 : 0 ≤ κ * t := by positivity
  have d2 : |zh * zh - z' ^ 2| ≤ 7 / 4 * κ * n := by
    have e3 : zh * zh - z' ^ 2 = (zh - z') * (2 * z') + (zh - z') ^ 2 := by ring
    rw [e3]
    refine (abs_add_le _ _).trans ?_
    rw [abs_mul, abs_of_nonneg (by positivity : 0 ≤ 2 * z'), abs_of_nonneg (sq_nonneg (zh - z')), ← sq_abs (zh - z')]
    have h3 : |zh - z'| * (2 * z') ≤ κ * t * (2 * z') := mul_le_mul_of_nonneg_right dz (by positivity)
    have h4 : |zh - z'| ^ 2 ≤ (κ * t) ^ 2 := pow_le_pow_left₀ (abs_nonneg _) dz 2
    rw [mul_pow] at h4
    have h5 : κ * (t * z') ≤ κ * (n / 2) := mul_le_mul_of_nonneg_left htz hκ0
    have h6 : κ ^ 2 * t ^ 2 ≤ κ ^ 2 * (3 / 2 * n) := mul_le_mul_of_nonneg_left ht2 (sq_nonneg _)
    have h7 : κ ^ 2 * n ≤ κ * (1 / 2) * n := mul_le_mul_of_nonneg_right (by rw [pow_two]; exact mul_le_mul_of_nonneg_left hκ hκ0) hn0.le
    linarith
  have hzh : zh * zh ≤ n / 2 + 7 / 4 * κ * n := by linarith [(abs_le.1 d2).2]
  have hκn : κ * n ≤ 1 / 2 * n := mul_le_mul_of_nonneg_right hκ hn0.le
  have hzh' : zh * zh ≤ 11 / 8 * n := by linarith
  have d3 : |Bh - zh * zh| ≤ 11 / 16 * n * nu := by
    have := mul_le_mul_of_nonneg_left hzh' (by positivity : 0 ≤ nu / 2)
    linarith
  have t1 := abs_sub_le Bh (zh * zh) (z ^ 2)
  have t2 := abs_sub_le (zh * zh) (z' ^ 2) (z ^ 2)
  linarith [mul_nonneg hκ0 hn0.le, mul_nonneg hnu0 hn0.le]

/-- The p-value that `bernstein_test` computes. -/
theorem bernsteinTestR_value (hL : GoodLib L) {ys : List ℝ} (h2 : 2 ≤ ys.length) {lo hi : ℝ} (hlu : lo ≤ hi) (hw : ∀ x ∈ ys, lo ≤ x ∧ x ≤ hi)
    (hz : L.rnd (hi - lo) ≠ 0) (ha : 0 < L.rnd (L.rnd (3 * L.rnd (hi - lo)) / ys.length))
    (hb : 0 ≤ L.rnd (L.sqrt (varR L 0 ys) * L.sqrt (L.rnd (2 / ys.length)))) :
    ∃ r₁ r₂ : ℝ, L.roots (L.rnd (L.rnd (3 * L.rnd (hi - lo)) / ys.length)) (L.rnd (L.sqrt (varR L 0 ys) * L.sqrt (L.rnd (2 / ys.length))))
        (-|meanR L ys|) = some (r₁, r₂) ∧
      bernsteinTestR L (finVec ys) (.fin lo) (.fin hi) =
        .ok (.fin (min 1 (L.rnd (3 * L.exp (-L.rnd (max r₁ r₂ * max r₁ r₂)))))) := by
  obtain ⟨r₁, r₂, er, s1, s2⟩ := hL.roots _ _ (-|meanR L ys|) ha hb (by simp)
  refine ⟨r₁, r₂, er, ?_⟩
  have hR : 0 ≤ L.rnd (hi - lo) := hL.rnd.nonneg (by linarith)
  unfold bernsteinTestR
  rw [pyAssert_bind, if_pos ((noNaN_any _).2 (noNaN_finVec ys)), pyAssert_bind, if_pos (by simpa [rF] using hR), pyAssert_bind,
    if_pos ((within_finVec (by simp) ys).2 fun x hx => ⟨by simpa using (hw x hx).1, by simpa using (hw x hx).2⟩), if_neg (informative_finVec h2)]
  simp only [Flt.sub_fin, rF, finVals_finVec, if_neg hz]
  rw [er]
  simp only [pyAssert_bind]
  have hp : 0 ≤ min 1 (L.rnd (3 * L.exp (-L.rnd (max r₁ r₂ * max r₁ r₂)))) :=
    le_min (by norm_num) (hL.rnd.nonneg (mul_nonneg (by norm_num) (hL.exp_nonneg _)))
  have hp1 : min 1 (L.rnd (3 * L.exp (-L.rnd (max r₁ r₂ * max r₁ r₂)))) ≤ 1 := min_le_left _ _
  rw [if_pos (by simpa using s1), if_pos (by simpa using s2), if_pos (by rw [decide_eq_true hp, decide_eq_true hp1]; rfl)]
  rfl

/-- The exponential of an approximate exponent, with two roundings. -/
theorem exp_close (hA : AccurateLib u L) (hu : u ≤ 1 / 1000000) {B Bh d E : ℝ} (hB : |Bh - B| ≤ d) (hE : d + 3 * u ≤ E) :
    3 * Real.exp (-B) ≤ Real.exp E * L.rnd (3 * L.exp (-Bh)) ∧ L.rnd (3 * L.exp (-Bh)) ≤ Real.exp E * (3 * Real.exp (-B)) := by
  have hu0 := hA.nonneg
  obtain ⟨b1, b2⟩ := abs_le.1 hB
  obtain ⟨e1, e2⟩ := abs_le.1 (hA.exp (-Bh))
  have hx := Real.exp_pos (-Bh)
  have hl0 : 0 ≤ L.exp (-Bh) := by nlinarith
  have hr := hA.rnd (3 * L.exp (-Bh))
  rw [abs_of_nonneg (by linarith : 0 ≤ 3 * L.exp (-Bh))] at hr
  obtain ⟨r1, r2⟩ := abs_le.1 hr
  have up : L.rnd (3 * L.exp (-Bh)) ≤ (1 + u) ^ 2 * (3 * Real.exp (-Bh)) := by nlinarith
  have lo : (1 - u) ^ 2 * (3 * Real.exp (-Bh)) ≤ L.rnd (3 * L.exp (-Bh)) := by nlinarith
  have h3 : Real.exp (-(3 * u)) ≤ (1 - u) ^ 2 := by
    rw [Real.exp_neg, inv_le_comm₀ (Real.exp_pos _) (by nlinarith)]
    have := Real.add_one_le_exp (3 * u)
    refine le_trans ?_ this
    rw [inv_le_iff_one_le_mul₀ (by nlinarith)]
    nlinarith [mul_nonneg hu0 hu0]
  have h4 : (1 + u) ^ 2 ≤ Real.exp (2 * u) := by
    rw [two_mul, Real.exp_add, pow_two]
    have := Real.add_one_le_exp u
    exact mul_le_mul (by linarith) (by linarith) (by linarith) (Real.exp_pos _).le
  constructor
  · have k1 : Real.exp E * (Real.exp (-(3 * u)) * (3 * Real.exp (-Bh))) ≤ Real.exp E * L.rnd (3 * L.exp (-Bh)) :=
      mul_le_mul_of_nonneg_left ((mul_le_mul_of_nonneg_right h3 (by positivity)).trans lo) (Real.exp_pos _).le
    refine le_trans ?_ k1
    have e : Real.exp E * (Real.exp (-(3 * u)) * (3 * Real.exp (-Bh))) = 3 * Real.exp (E + -(3 * u) + -Bh) := by
      rw [Real.exp_add, Real.exp_add]; ring
    rw [e]
    exact mul_le_mul_of_nonneg_left (Real.exp_le_exp.2 (by linarith)) (by norm_num)
  · refine up.trans ((mul_le_mul_of_nonneg_right h4 (by positivity)).trans ?_)
    have e : Real.exp (2 * u) * (3 * Real.exp (-Bh)) = 3 * Real.exp (2 * u + -Bh) := by rw [Real.exp_add]; ring
    have e' : Real.exp E * (3 * Real.exp (-B)) = 3 * Real.exp (E + -B) := by rw [Real.exp_add]; ring
    rw [e, e']
    exact mul_le_mul_of_nonneg_left (Real.exp_le_exp.2 (by linarith)) (by norm_num)

theorem min_one_close {x y E : ℝ} (hE : 0 ≤ E) (h : x ≤ Real.exp E * y) : min 1 x ≤ Real.exp E * min 1 y := by
  have h1 := Real.one_le_exp hE
  rcases le_total 1 y with hy | hy
  · rw [min_eq_left hy, mul_one]
    exact (min_le_left _ _).trans h1
  · rw [min_eq_right hy]
    exact (min_le_right _ _).trans h

/-- The test of rounded data with rounded limits is the exact test, up to a factor. -/
theorem bern_p_close (hL : GoodLib L) (hA : AccurateLib u L) (hr : AccurateRoots κ L) (hκ0 : 0 ≤ κ) (hκ : κ ≤ 1 / 2) {xs : List ℝ} {f : ℝ → ℝ}
    (hf : ∀ x ∈ xs, |f x - x| ≤ u * |x|) {lo hi lo' hi' : ℝ} (hlu : lo ≤ hi) (hlu' : lo' ≤ hi') (hw : ∀ x ∈ xs, lo ≤ x ∧ x ≤ hi)
    (hw' : ∀ x ∈ xs.map f, lo' ≤ x ∧ x ≤ hi') (dR : |(hi' - lo') - (hi - lo)| ≤ u * (hi - lo)) (hS : avgAbs xs ≤ hi - lo)
    (hn : xs.length * u ≤ 1 / 1000000) :
    ∃ p pR : ℝ, bernsteinTest (finVec xs) (.fin lo) (.fin hi) = .ok (.fin p) ∧
      bernsteinTestR L (finVec (xs.map f)) (.fin lo') (.fin hi') = .ok (.fin pR) ∧ 0 < p ∧ p ≤ 1 ∧
      p ≤ Real.exp (xs.length * (11 * (xs.length * u) + 2 * κ)) * pR ∧ pR ≤ Real.exp (xs.length * (11 * (xs.length * u) + 2 * κ)) * p := by
  have hu := hA.nonneg
  set E := (xs.length : ℝ) * (11 * (xs.length * u) + 2 * κ) with hE
  have hE0 : 0 ≤ E := by positivity
  have hone : bernsteinTest (finVec xs) (.fin lo) (.fin hi) = .ok (.fin 1) → bernsteinTestR L (finVec (xs.map f)) (.fin lo') (.fin hi') = .ok (.fin 1) →
      ∃ p pR : ℝ, bernsteinTest (finVec xs) (.fin lo) (.fin hi) = .ok (.fin p) ∧
      bernsteinTestR L (finVec (xs.map f)) (.fin lo') (.fin hi') = .ok (.fin pR) ∧ 0 < p ∧ p ≤ 1 ∧ p ≤ Real.exp E * pR ∧ pR ≤ Real.exp E * p :=
    fun h1 h2 => ⟨1, 1, h1, h2, one_pos, le_rfl, by simpa using hE0, by simpa using hE0⟩
  have hwi : within (.fin lo) (.fin hi) (finVec xs) = true :=
    (within_finVec (by simp) xs).2 fun x hx => ⟨by simpa using (hw x hx).1, by simpa using (hw x hx).2⟩
  have hwi' : within (.fin lo') (.fin hi') (finVec (xs.map f)) = true :=
    (within_finVec (by simp) _).2 fun x hx => ⟨by simpa using (hw' x hx).1, by simpa using (hw' x hx).2⟩
  rcases Nat.lt_or_ge 1 xs.length with h2 | h2
  swap
  · refine hone ?_ ?_
    · unfold bernsteinTest
      rw [pyAssert_bind, if_pos ((noNaN_any _).2 (noNaN_finVec xs)), Flt.sub_fin, pyAssert_bind, if_pos (by simpa using hlu), pyAssert_bind,
        if_pos hwi, if_pos (uninformative_short h2)]
      rfl
    · unfold bernsteinTestR
      rw [pyAssert_bind, if_pos ((noNaN_any _).2 (noNaN_finVec _)), Flt.sub_fin, pyAssert_bind,
        if_pos (by simpa [rF] using hL.rnd.nonneg (sub_nonneg.2 hlu')), pyAssert_bind, if_pos hwi', if_pos (uninformative_short (by simpa using h2))]
      rfl
  rcases hlu.lt_or_eq with hlt | heq
  swap
  · have e' : hi' - lo' = 0 := by
      rw [heq, sub_self, mul_zero, sub_zero] at dR
      exact abs_nonpos_iff.1 dR
    refine hone ?_ ?_
    · unfold bernsteinTest
      rw [pyAssert_bind, if_pos ((noNaN_any _).2 (noNaN_finVec xs)), Flt.sub_fin, pyAssert_bind, if_pos (by simpa using hlu), pyAssert_bind,
        if_pos hwi, if_neg (informative_finVec h2)]
      simp only [heq, sub_self, if_true]
      rfl
    · unfold bernsteinTestR
      rw [pyAssert_bind, if_pos ((noNaN_any _).2 (noNaN_finVec _)), Flt.sub_fin, pyAssert_bind,
        if_pos (by simpa [rF] using hL.rnd.nonneg (sub_nonneg.2 hlu')), pyAssert_bind, if_pos hwi',
        if_neg (informative_finVec (by rw [List.length_map]; exact h2))]
      simp only [e', rF, hL.rnd.zero, if_true]
      rfl
  -- the interesting case
  have hne : xs ≠ [] := by rintro rfl; simp at h2
  have hus := u_small hu h2 hn
  have h2' : (2 : ℝ) ≤ xs.length := by exact_mod_cast h2
  have hn0 : (0 : ℝ) < xs.length := by linarith
  set nu := (xs.length : ℝ) * u with hnu
  have hnu0 : 0 ≤ nu := by positivity
  have hunu : u ≤ nu / 2 := by rw [hnu]; nlinarith
  set R := hi - lo with hR
  have hR0 : 0 < R := by rw [hR]; linarith
  have hA0 := avgAbs_nonneg xs
  set ys := xs.map f with hys
  have hly : ys.length = xs.length := List.length_map _
  -- the range
  have nR : Lemmas.Near u 4 (L.rnd (L.rnd (3 * L.rnd (hi' - lo')) / xs.length)) (3 * R / xs.length) := by
    have n0 : Lemmas.Near u 1 (hi' - lo') R := by unfold Lemmas.Near; rw [pow_one, add_sub_cancel_left]; exact dR
    have n1 := n0.rnd hu hA.rnd (sub_nonneg.2 hlu') hR0.le
    have n2 := n1.scale (d := 3) (by norm_num)
    rw [mul_comm _ (3 : ℝ), mul_comm R] at n2
    have g1 : 0 ≤ L.rnd (hi' - lo') := hL.rnd.nonneg (sub_nonneg.2 hlu')
    have n3 := n2.rnd hu hA.rnd (by linarith) (by linarith)
    have n4 := n3.scale (d := (xs.length : ℝ)⁻¹) (by positivity)
    rw [← div_eq_mul_inv, ← div_eq_mul_inv] at n4
    exact n4.rnd hu hA.rnd (div_nonneg (hL.rnd.nonneg (by linarith)) hn0.le) (by positivity)
  have da := nR.bound hu (by positivity) (by push_cast; linarith)
  push_cast at da
  set a' := L.rnd (L.rnd (3 * L.rnd (hi' - lo')) / xs.length) with ha'
  have ha0 : 0 < 3 * R / (xs.length : ℝ) := by positivity
  have hua : u * (3 * R / xs.length) ≤ nu / 2 * (3 * R / xs.length) := mul_le_mul_of_nonneg_right hunu ha0.le
  have da' : |a' - 3 * R / xs.length| ≤ 4 * nu * (3 * R / xs.length) := by linarith
  have ha'0 : 0 < a' := by
    have := (abs_le.1 da').1
    have : nu * (3 * R / xs.length) ≤ 1 / 1000000 * (3 * R / xs.length) := mul_le_mul_of_nonneg_right hn ha0.le
    linarith
  have hrz : L.rnd (hi' - lo') ≠ 0 := by
    intro h
    rw [ha', h, mul_zero, hL.rnd.zero, zero_div, hL.rnd.zero] at ha'0
    exact lt_irrefl _ ha'0
  -- mean and standard deviation
  obtain ⟨p1, p2⟩ := avg_perturb hf
  have uA : u * avgAbs xs ≤ nu / 2 * R := mul_le_mul hunu hS hA0 (by linarith)
  have hnuR0 : 0 ≤ nu * R := by positivity
  have hnuR : nu * R ≤ 1 / 1000000 * R := mul_le_mul_of_nonneg_right hn hR0.le
  have hAy : avgAbs ys ≤ R * (1001 / 1000) := by linarith
  have hmean := C111_mean hu hA.rnd hL.sum (xs := ys) (by rw [hys]; simpa using hne) (by rw [hly]; exact hn)
  rw [hly] at hmean
  have dm : |meanR L ys - avg xs| ≤ 3 * nu * R := by
    have t1 := abs_sub_le (meanR L ys) (avg ys) (avg xs)
    have t2 : 2 * nu * avgAbs ys ≤ 2 * nu * (R * (1001 / 1000)) := mul_le_mul_of_nonneg_left hAy (by positivity)
    linarith
  have dm' : |(|meanR L ys|) - (|avg xs|)| ≤ 3 * nu * R := (abs_abs_sub_abs_le_abs_sub _ _).trans dm
  have hσ : Real.sqrt (sqDev xs / xs.length) ≤ R := by
    rw [Real.sqrt_le_left hR0.le, div_le_iff₀ hn0, mul_comm]
    exact sqDev_le_range hne hw
  set σ := Real.sqrt (sqDev xs / xs.length) with hσdef
  have hσ0 : 0 ≤ σ := Real.sqrt_nonneg _
  have sp := std_perturb hu h2 hf (d := 0) le_rfl (by norm_num)
  rw [sub_zero, ← hσdef] at sp
  obtain ⟨hv0, sc⟩ := C133_std hA hL.sum (xs := ys) (by rw [hly]; exact h2) (by rw [hly]; exact hn) (d := 0) le_rfl (by norm_num)
  rw [hly, sub_zero] at sc
  set σ' := Real.sqrt (sqDev ys / xs.length) with hσ'def
  set s := L.sqrt (varR L 0 ys) with hs
  have hs0 : 0 ≤ s := hL.sqrt_nonneg _ hv0
  have ds : |s - σ| ≤ 12 * nu * R := by
    have t0 : u * (σ + 2 * avgAbs xs) ≤ nu / 2 * (3 * R) := mul_le_mul hunu (by linarith) (by positivity) (by linarith)
    have t1 : σ' ≤ R * (1001 / 1000) := by linarith [(abs_le.1 sp).2]
    have t2 : 6 * nu * σ' ≤ 6 * nu * (R * (1001 / 1000)) := mul_le_mul_of_nonneg_left t1 (by positivity)
    have t3 : 4 * nu * avgAbs ys ≤ 4 * nu * (R * (1001 / 1000)) := mul_le_mul_of_nonneg_left hAy (by positivity)
    have t4 := abs_sub_le s σ' σ
    linarith
  set q := Real.sqrt (2 / xs.length) with hq
  have hq0 : 0 ≤ q := Real.sqrt_nonneg _
  have hq2 : q ^ 2 = 2 / xs.length := Real.sq_sqrt (by positivity)
  have r0 : 0 ≤ L.rnd (2 / xs.length) := hL.rnd.nonneg (by positivity)
  have nq : Lemmas.Near u 2 (L.sqrt (L.rnd (2 / xs.length))) q :=
    (near_sqrt hA r0).trans hu hq0 ((near_rnd hA.rnd (by positivity)).sqrt (by positivity) r0)
  have dq := nq.bound hu hq0 (by push_cast; linarith)
  push_cast at dq
  set q' := L.sqrt (L.rnd (2 / xs.length)) with hq'
  have hq'0 : 0 ≤ q' := hL.sqrt_nonneg _ r0
  set b' := L.rnd (s * q') with hb'
  have hb'0 : 0 ≤ b' := hL.rnd.nonneg (mul_nonneg hs0 hq'0)
  have db : |b' - σ * q| ≤ 15 * nu * (R * q) := by
    have t1 := hA.rnd (s * q')
    rw [abs_of_nonneg (mul_nonneg hs0 hq'0)] at t1
    have uq : u * q ≤ 1 / 1000000 * q := mul_le_mul_of_nonneg_right (by linarith) hq0
    have q1 : q' ≤ q * (1001 / 1000) := by linarith [(abs_le.1 dq).2]
    have s1 : s ≤ R * (1001 / 1000) := by linarith [(abs_le.1 ds).2]
    have hRq : 0 ≤ R * q := by positivity
    have t2 : u * (s * q') ≤ nu / 2 * ((R * (1001 / 1000)) * (q * (1001 / 1000))) :=
      mul_le_mul hunu (mul_le_mul s1 q1 hq'0 (by positivity)) (mul_nonneg hs0 hq'0) (by linarith)
    have t3 : |s * q' - σ * q| ≤ 12 * nu * R * (q * (1001 / 1000)) + R * (2 * (2 * (nu / 2)) * q) := by
      have e : s * q' - σ * q = (s - σ) * q' + σ * (q' - q) := by ring
      rw [e]
      refine (abs_add_le _ _).trans ?_
      rw [abs_mul, abs_mul, abs_of_nonneg hq'0, abs_of_nonneg hσ0]
      refine add_le_add (mul_le_mul ds q1 hq'0 (by positivity)) (mul_le_mul hσ (dq.trans ?_) (abs_nonneg _) hR0.le)
      exact mul_le_mul_of_nonneg_right (by linarith) hq0
    have t4 := abs_sub_le b' (s * q') (σ * q)
    have hnRq : 0 ≤ nu * (R * q) := by positivity
    linarith
  -- the roots
  obtain ⟨B, hB0, hB, hex⟩ := C47_bernstein_test h2 hlt hw
  rw [← hR] at hB
  obtain ⟨r₁, r₂, er, hval⟩ := bernsteinTestR_value hL (ys := ys) (by rw [hly]; exact h2) hlu' hw' hrz (by rw [hly]; exact ha'0)
    (by rw [hly]; exact hb'0)
  rw [hly, ← ha', ← hs, ← hq', ← hb'] at er
  obtain ⟨-, z', -, -, hz'0, hz', -⟩ := bern_root ha'0 hb'0 (abs_nonneg (meanR L ys))
  have dz := hr _ _ _ ha'0 hb'0 (by simp) _ _ er z' hz'0 (by linarith)
  have hBz : Real.sqrt B ^ 2 = B := Real.sq_sqrt hB0
  have ez : 3 * R / xs.length * Real.sqrt B ^ 2 + σ * q * Real.sqrt B = |avg xs| := by
    rw [← hB, hBz]
    unfold bernWidth
    have : Real.sqrt (2 * B / xs.length) = q * Real.sqrt B := by
      rw [hq, ← Real.sqrt_mul (by positivity)]
      congr 1
      ring
    rw [this]
    ring
  have dB : |L.rnd (max r₁ r₂ * max r₁ r₂) - max r₁ r₂ * max r₁ r₂| ≤ nu / 2 * (max r₁ r₂ * max r₁ r₂) := by
    have := hA.rnd (max r₁ r₂ * max r₁ r₂)
    rw [abs_of_nonneg (mul_self_nonneg (max r₁ r₂))] at this
    exact this.trans (mul_le_mul_of_nonneg_right (by linarith) (mul_self_nonneg _))
  have hclose := exponent_close h2' hnu0 hn hR0 hσ0 hσ hq0 hq2 (abs_nonneg _) (abs_avg_le.trans hS) hκ0 hκ hb'0 (abs_nonneg _) da' db dm'
    (Real.sqrt_nonneg B) hz'0 ez hz' dz dB
  rw [hBz] at hclose
  obtain ⟨c1, c2⟩ := exp_close hA (hus.trans (by norm_num)) hclose (E := E) (by
    have : 2 * nu ≤ xs.length * nu := mul_le_mul_of_nonneg_right h2' hnu0
    rw [hE]
    linarith)
  exact ⟨_, _, hex, hval, lt_min one_pos (by positivity), min_le_left _ _, min_one_close hE0 c1, min_one_close hE0 c2⟩

/-- **C138, one test.**  `bernstein_test` in floating point: for data whose mean absolute value is at most the difference of the limits, as for
limits on both sides of zero, the p-value differs from that of exact arithmetic at most by the factor `exp(n (11 n u + 2 κ))`. -/
theorem C138_bernstein_test (hL : GoodLib L) (hA : AccurateLib u L) (hr : AccurateRoots κ L) (hκ0 : 0 ≤ κ) (hκ : κ ≤ 1 / 2) {xs : List ℝ}
    {lo hi : ℝ} (hlu : lo ≤ hi) (hw : ∀ x ∈ xs, lo ≤ x ∧ x ≤ hi) (hS : avgAbs xs ≤ hi - lo) (hn : xs.length * u ≤ 1 / 1000000) :
    ∃ p pR : ℝ, bernsteinTest (finVec xs) (.fin lo) (.fin hi) = .ok (.fin p) ∧
      bernsteinTestR L (finVec xs) (.fin lo) (.fin hi) = .ok (.fin pR) ∧ 0 < p ∧ p ≤ 1 ∧
      p ≤ Real.exp (xs.length * (11 * (xs.length * u) + 2 * κ)) * pR ∧ pR ≤ Real.exp (xs.length * (11 * (xs.length * u) + 2 * κ)) * p := by
  have h := bern_p_close hL hA hr hκ0 hκ (xs := xs) (f := id) (lo := lo) (hi := hi) (lo' := lo) (hi' := hi)
    (fun x _ => by simpa using mul_nonneg hA.nonneg (abs_nonneg x)) hlu hlu hw (by simpa using hw)
    (by rw [sub_self, abs_zero]; exact mul_nonneg hA.nonneg (by linarith)) hS hn
  rwa [List.map_id] at h

/-- The test of rounded differences within rounded symmetric limits. -/
theorem pair_test (hL : GoodLib L) (hA : AccurateLib u L) (hr : AccurateRoots κ L) (hκ0 : 0 ≤ κ) (hκ : κ ≤ 1 / 2) {ds : List ℝ} (hne : ds ≠ [])
    {R : ℝ} (hw : ∀ x ∈ ds, -R ≤ x ∧ x ≤ R) (hn : ds.length * u ≤ 1 / 1000000) :
    ∃ p pR : ℝ, bernsteinTest (finVec ds) (.fin (-R)) (.fin R) = .ok (.fin p) ∧
      bernsteinTestR L (finVec (ds.map L.rnd)) (.fin (-L.rnd R)) (.fin (L.rnd R)) = .ok (.fin pR) ∧ 0 < p ∧ p ≤ 1 ∧
      p ≤ Real.exp (ds.length * (11 * (ds.length * u) + 2 * κ)) * pR ∧ pR ≤ Real.exp (ds.length * (11 * (ds.length * u) + 2 * κ)) * p := by
  have hu := hA.nonneg
  have hR : 0 ≤ R := by
    obtain ⟨x, hx⟩ := List.exists_mem_of_ne_nil ds hne
    linarith [(hw x hx).1, (hw x hx).2]
  have hR' : 0 ≤ L.rnd R := hL.rnd.nonneg hR
  refine bern_p_close hL hA hr hκ0 hκ (fun x _ => hA.rnd x) (by linarith) (by linarith) hw (rnd_sym_within hL hw) ?_ ?_ hn
  · have := hA.rnd R
    rw [abs_of_nonneg hR] at this
    rw [show L.rnd R - -L.rnd R - (R - -R) = 2 * (L.rnd R - R) by ring, abs_mul, abs_of_pos two_pos]
    linarith
  · exact (avgAbs_le_sym hne hw).trans (by linarith)

/-- `get_mean_EB_test` returns the p-value of `get_test`, also in floating point. -/
theorem meanEBTestR_test {x : List (Flt ℝ)} {conf minEB lower upper : Flt ℝ} {method : EBMethod} {counts counts' : List (List Nat)}
    (hm : method ≠ .boot) {mu EB p : Flt ℝ} (h : getMeanEBTestR L x conf minEB lower upper method counts = .ok (mu, EB, p)) :
    getTestR L x lower upper method counts' = .ok p := by
  unfold getMeanEBTestR at h
  rw [assert_bind_ok] at h
  obtain ⟨-, h⟩ := h
  obtain ⟨r, h1, h⟩ := (bind_ok_iff _ _ _).1 h
  obtain ⟨m, h2, h⟩ := (bind_ok_iff _ _ _).1 h
  obtain ⟨e, h3, h⟩ := (bind_ok_iff _ _ _).1 h
  simp only [pure_eq_ok, Except.ok.injEq, Prod.mk.injEq] at h
  obtain ⟨-, -, rfl⟩ := h
  unfold getTestR
  cases method with
  | t =>
    obtain ⟨a, ha, h1⟩ := (bind_ok_iff _ _ _).1 h1
    obtain ⟨b, hb, h1⟩ := (bind_ok_iff _ _ _).1 h1
    cases h1
    exact hb
  | bernstein =>
    obtain ⟨a, ha, h1⟩ := (bind_ok_iff _ _ _).1 h1
    obtain ⟨b, hb, h1⟩ := (bind_ok_iff _ _ _).1 h1
    cases h1
    exact hb
  | boot => exact absurd rfl hm
  | other => cases h1

/-- What the p-value of a cell of the table computed in floating point is, with and without `pairwise_CI`. -/
theorem summaryCellR_test {tbl : LossTable} {refMethod : Str} {pairwise : Bool} {confidence : Flt ℝ} {methodEB : EBMethod}
    (hm : methodEB ≠ .boot) {limits : List (Str × (Flt ℝ × Flt ℝ))} {draws : Str → Str → Draws}
    {out : List (List (Flt ℝ × Flt ℝ × Flt ℝ))}
    (ho : lossSummaryTableR L tbl refMethod pairwise confidence methodEB limits draws = .ok out)
    {metric method : Str} {cell : Flt ℝ × Flt ℝ × Flt ℝ} (hc : SummaryCell tbl out metric method cell)
    {lower upper : Flt ℝ} (hlim : LimitsOf limits metric lower upper) {xs rs : List ℝ} (hX : HasLoss tbl metric method (finVec xs))
    (hY : HasLoss tbl metric refMethod (finVec rs)) (hmr : method ≠ refMethod) :
    getTestR L (finVec ((List.zipWith (· - ·) xs rs).map L.rnd)) (rF L.rnd (upper.sub lower)).neg (rF L.rnd (upper.sub lower)) methodEB
      (draws metric method).test = .ok cell.2.2 := by
  obtain ⟨i, j, row, h1, h2, h3, h4⟩ := hc
  obtain ⟨-, -, -, h⟩ := summaryR_ok.1 ho
  obtain ⟨lo, hi, lr, k1, -, k2, -, -, h⟩ := forall₂_getElem? h h1 h3
  obtain ⟨loss, k3, h⟩ := forall₂_getElem? h h2 h4
  obtain rfl := hasLoss_unique hX k3
  obtain rfl := hasLoss_unique hY k2
  obtain ⟨rfl, rfl⟩ := limitsOf_unique hlim k1
  unfold cellOfR at h
  have hz : List.zipWith (fun a b : ℝ => L.rnd (a - b)) xs rs = (List.zipWith (· - ·) xs rs).map L.rnd := by
    rw [List.map_zipWith]
  simp only [assert_bind_ok, deltasR_finVec, hz, hmr, decide_false, Bool.false_eq_true, if_false] at h
  obtain ⟨-, -, h⟩ := h
  cases pairwise with
  | true =>
    simp only [if_true] at h
    obtain ⟨⟨m, e, p⟩, h5, h⟩ := (bind_ok_iff _ _ _).1 h
    cases h
    exact meanEBTestR_test hm h5
  | false =>
    simp only [Bool.false_eq_true, if_false] at h
    obtain ⟨⟨m, e⟩, h5, h⟩ := (bind_ok_iff _ _ _).1 h
    rw [assert_bind_ok] at h
    obtain ⟨-, h⟩ := h
    obtain ⟨p, h6, h⟩ := (bind_ok_iff _ _ _).1 h
    cases h
    exact h6

/-- **C138, the table.**  The p-value that `loss_summary_table` computes in floating point differs from the one of exact arithmetic at most by
the factor `exp(n (11 n u + 2 κ))`. -/
theorem C138_table (hL : GoodLib L) (hA : AccurateLib u L) (hr : AccurateRoots κ L) (hκ0 : 0 ≤ κ) (hκ : κ ≤ 1 / 2) {T : Nat → RefDist}
    {tbl : LossTable} {refMethod : Str} {pairwise : Bool} {c c' : Flt ℝ} {limits : List (Str × (Flt ℝ × Flt ℝ))} {draws : Str → Str → Draws}
    {out outR : List (List (Flt ℝ × Flt ℝ × Flt ℝ))} {metric method : Str} {cell cellR : Flt ℝ × Flt ℝ × Flt ℝ}
    (hc : SummaryCell tbl out metric method cell) (hcR : SummaryCell tbl outR metric method cellR)
    {xs rs : List ℝ} (hX : HasLoss tbl metric method (finVec xs)) (hY : HasLoss tbl metric refMethod (finVec rs))
    (hlen : rs.length = xs.length) (hn : xs.length * u ≤ 1 / 1000000) (hne : xs ≠ []) (hmr : method ≠ refMethod)
    (ho : lossSummaryTable T tbl refMethod pairwise c .bernstein limits draws = .ok out)
    (hoR : lossSummaryTableR L tbl refMethod pairwise c' .bernstein limits draws = .ok outR)
    {l h : ℝ} (hlim : LimitsOf limits metric (.fin l) (.fin h)) :
    ∃ p pR : ℝ, cell.2.2 = .fin p ∧ cellR.2.2 = .fin pR ∧ 0 < p ∧ p ≤ 1 ∧
      p ≤ Real.exp (xs.length * (11 * (xs.length * u) + 2 * κ)) * pR ∧ pR ≤ Real.exp (xs.length * (11 * (xs.length * u) + 2 * κ)) * p := by
  obtain ⟨w1, w2, -⟩ := summaryCell_exact ho hc hlim hX hY hne
  have w1' : ∀ x ∈ xs, l ≤ x ∧ x ≤ h := fun x hx => by simpa using w1 x hx
  have w2' : ∀ x ∈ rs, l ≤ x ∧ x ≤ h := fun x hx => by simpa using w2 x hx
  have hdw := diff_range w1' w2'
  have hdl : (List.zipWith (· - ·) xs rs).length = xs.length := by rw [List.length_zipWith]; omega
  have hdne : List.zipWith (· - ·) xs rs ≠ [] := by
    intro e
    rw [e] at hdl
    exact hne (List.length_eq_zero_iff.1 hdl.symm)
  obtain ⟨p, pR, e1, e2, h1⟩ := pair_test hL hA hr hκ0 hκ hdne hdw (by rwa [hdl])
  have f2 := summaryCellR_test (by simp) hoR hcR hlim hX hY hmr
  simp only [Flt.sub_fin, Flt.neg_fin, rF, getTestR] at f2
  rw [e2, Except.ok.injEq] at f2
  have f1 : cell.2.2 = .fin p := by
    obtain ⟨loss, lossRef, lo, hi, k1, k2, k3, -, -, -, -, -, -, h10, h11⟩ := summaryCell_isCell ho hc
    obtain rfl := hasLoss_unique hX k1
    obtain rfl := hasLoss_unique hY k2
    obtain ⟨rfl, rfl⟩ := limitsOf_unique hlim k3
    cases pairwise with
    | true =>
      obtain ⟨m, hm'⟩ := h10 rfl hmr
      have := ((C49_agree T _ _ _ _ _ _ _ m cell.2.1 cell.2.2).1 hm').2
      rw [deltas_finVec] at this
      simp only [Flt.sub_fin, Flt.neg_fin] at this
      have e3 : bernsteinTest (finVec (List.zipWith (· - ·) xs rs)) (.fin (-(h - l))) (.fin (h - l)) = .ok cell.2.2 := this
      rw [e1, Except.ok.injEq] at e3
      exact e3.symm
    | false =>
      have := (h11 rfl).2.2 hmr
      rw [deltas_finVec] at this
      simp only [Flt.sub_fin, Flt.neg_fin] at this
      have e3 : bernsteinTest (finVec (List.zipWith (· - ·) xs rs)) (.fin (-(h - l))) (.fin (h - l)) = .ok cell.2.2 := this
      rw [e1, Except.ok.injEq] at e3
      exact e3.symm
  rw [hdl] at h1
  exact ⟨p, pR, f1, f2.symm, h1⟩

section
variable {Ω : Type} [MeasurableSpace Ω] {P : Measure Ω} [IsProbabilityMeasure P] {n : ℕ} {tbl : Ω → LossTable} {metric method refMethod : Str}
  {limits : List (Str × (Flt ℝ × Flt ℝ))} {l h : ℝ} {X Y : Fin n → Ω → ℝ} {mX : ℝ}

/-- **C138, false alarms.**  In floating point: if method and reference have the same expected loss, then the p-value of the table is at most
`α` with probability at most `α exp(n (11 n u + 2 κ))`. -/
theorem C138_false_alarm (hL : GoodLib L) (hA : AccurateLib u L) (hr : AccurateRoots κ L) (hκ0 : 0 ≤ κ) (hκ : κ ≤ 1 / 2)
    (hrl : RandomLosses P tbl metric method refMethod limits l h X Y mX mX) (hmr : method ≠ refMethod) (hn : n * u ≤ 1 / 1000000)
    {pairwise : Bool} {c : Flt ℝ} {draws : Ω → Str → Str → Draws} {out : Ω → List (List (Flt ℝ × Flt ℝ × Flt ℝ))}
    (ho : ∀ ω, lossSummaryTableR L (tbl ω) refMethod pairwise c .bernstein limits (draws ω) = .ok (out ω))
    {cell : Ω → Flt ℝ × Flt ℝ × Flt ℝ} (hc : ∀ ω, SummaryCell (tbl ω) (out ω) metric method (cell ω)) {α : ℝ} (hα : 0 ≤ α) :
    P.real {ω | ∃ p : ℝ, (cell ω).2.2 = .fin p ∧ p ≤ α} ≤ α * Real.exp (n * (11 * (n * u) + 2 * κ)) := by
  have hlu := hrl.le
  refine (measureReal_mono ?_).trans (C93_test (X := fun i ω => X i ω - Y i ω) (fun i => (hrl.measX i).sub (hrl.measY i)) hrl.indepD
    (l := -(h - l)) (u := h - l) (by linarith) hrl.boundD (fun i => by rw [hrl.meanD, sub_self]) (by positivity)).2
  rintro ω ⟨pR, hp, hle⟩
  have hlenD : (observed (fun i ω => X i ω - Y i ω) ω).length = n := observed_length _ ω
  have hneD := observed_ne_nil hrl.rows (fun i ω => X i ω - Y i ω) ω
  have hwD := observed_within hrl.boundD ω
  have f2 := summaryCellR_test (by simp) (ho ω) (hc ω) hrl.limits (hrl.meth ω) (hrl.ref ω) hmr
  rw [observed_sub] at f2
  simp only [Flt.sub_fin, Flt.neg_fin, rF, getTestR] at f2
  obtain ⟨p, pR', e1, e2, -, -, h1, -⟩ := pair_test hL hA hr hκ0 hκ hneD hwD (by rwa [hlenD])
  rw [e2, Except.ok.injEq, hp, Flt.fin.injEq] at f2
  subst f2
  rw [hlenD] at h1
  refine ⟨p, e1, h1.trans ?_⟩
  rw [mul_comm]
  exact mul_le_mul_of_nonneg_right hle (Real.exp_pos _).le

end

/-! ## The printed p-value -/

/-- A printed p-value: a number, or `<` and a number; whether it has the `<` and the number. -/
def readP (s : Str) : Option (Bool × ℚ) :=
  match s with
  | '<' :: s => (readNum s).map fun p => (true, p.1)
  | s => (readNum s).map fun p => (false, p.1)

/-- In the p-value column of the metric the row of the method reads `r`. -/
def PrintedP (st : StrTable Str) (methods : List Str) (metric method : Str) (r : Bool × ℚ) : Prop :=
  ∃ col ∈ st.cols, col.1 = metric ∧ ∃ (j : ℕ) (row : Str × Str), methods[j]? = some method ∧ col.2.2[j]? = some row ∧ readP row.2 = some r

/-- `just_format_it`, with some limits, units and options, turns the table `out` of `loss_summary_table` into a text in which the p-value of the
method in the column of the metric reads `r`. -/
def ShowsP (tbl : LossTable) (out : List (List (Flt ℝ × Flt ℝ × Flt ℝ))) (metric method : Str) (r : Bool × ℚ) : Prop :=
  ∃ sortAbs ebLimit o ud usePrefix useTex t st, SameTable t tbl out ∧
    justFormatIt sortAbs ebLimit o ud usePrefix useTex t = .ok st ∧ PrintedP st tbl.methods metric method r

/-- **C138, one printed p-value.**  `<v` is shown only for p-values below `v`, which is then `10⁻⁴`; a shown number is at least the p-value, by less than `10⁻⁴`. -/
theorem C138_cell {tbl : LossTable} {out : List (List (Flt ℝ × Flt ℝ × Flt ℝ))} {metric method : Str} {cell : Flt ℝ × Flt ℝ × Flt ℝ}
    (hc : SummaryCell tbl out metric method cell) {p : ℝ} (hp : cell.2.2 = .fin p) {b : Bool} {v : ℚ}
    (hs : ShowsP tbl out metric method (b, v)) :
    (b = true → p < v ∧ v = 1 / 10000) ∧ (b = false → p ≤ v ∧ (v : ℝ) < p + 1 / 10000) := by
  obtain ⟨sortAbs, ebLimit, o, ud, usePrefix, useTex, t, st, ht, hst, col, hcol, rfl, j, row, hj, hrow, hread⟩ := hs
  obtain ⟨-, hcells, -⟩ := C22_table _ _ _ _ _ _ _ _ hst
  obtain ⟨w, hw⟩ := hcells col hcol
  rw [ht.1] at hw
  obtain ⟨r, est, k, hr, -, -, -, hpr⟩ := forall₂_getElem? hw hj hrow
  obtain ⟨-, -, s3⟩ := sameTable_cell ht hc
  rw [hp] at s3
  obtain ⟨n, m, ex, hx, rfl⟩ := sameNumber_fin s3
  have e4 : (10 : ℚ) ^ (-(4 : ℤ)) = 1 / 10000 := by norm_num
  unfold readP at hread
  split at hread
  · rename_i s hsrow
    simp only [Option.map_eq_some_iff, Prod.mk.injEq] at hread
    obtain ⟨q, hq, rfl, rfl⟩ := hread
    rw [hsrow] at hpr
    obtain ⟨k1, k2⟩ := C12_strict_bound _ _ _ _ n m ex hx (by norm_num) hr _ _ hpr
    rw [hq, Option.some.injEq] at k1
    simp only [k1, Nat.cast_ofNat, e4] at k2 ⊢
    refine ⟨fun _ => ⟨?_, trivial⟩, fun h => (by cases h)⟩
    exact_mod_cast k2
  · simp only [Option.map_eq_some_iff, Prod.mk.injEq] at hread
    obtain ⟨q, hq, rfl, rfl⟩ := hread
    obtain ⟨-, k2, k3⟩ := C12_printed_not_below _ _ _ _ n m ex hx hr _ _ q.1 q.2 hpr hq
    simp only [Nat.cast_ofNat, e4] at k3
    refine ⟨fun h => (by cases h), fun _ => ⟨by exact_mod_cast k2, ?_⟩⟩
    have := (Rat.cast_lt (K := ℝ)).2 k3
    push_cast at this
    exact this

/-- **C138, the p-value is shown.**  Every finite p-value is shown. -/
theorem C138_shown {sortAbs : List Int → List Int} {ebLimit : Str → Option Int} {o : FormatOpts Str} {ud : Str → Option Str}
    {usePrefix useTex : Bool} {t : Table Str FpCell} {st : StrTable Str} {tbl : LossTable}
    {out : List (List (Flt ℝ × Flt ℝ × Flt ℝ))} {metric method : Str} {cell : Flt ℝ × Flt ℝ × Flt ℝ}
    (ht : SameTable t tbl out) (hst : justFormatIt sortAbs ebLimit o ud usePrefix useTex t = .ok st)
    (hc : SummaryCell tbl out metric method cell) {p : ℝ} (hp : cell.2.2 = .fin p) :
    ∃ b v, PrintedP st tbl.methods metric method (b, v) := by
  obtain ⟨hcols, hcells, -⟩ := C22_table _ _ _ _ _ _ _ _ hst
  obtain ⟨i, j, row', h1, h2, h3, h4⟩ := id hc
  have hmem : metric ∈ st.cols.map Prod.fst := by
    rw [hcols]
    have : metric ∈ t.metrics := by rw [ht.2.1]; exact List.mem_of_getElem? h1
    simpa [levels] using this
  obtain ⟨col, hcol, rfl⟩ := List.mem_map.1 hmem
  obtain ⟨w, hw⟩ := hcells col hcol
  rw [ht.1] at hw
  obtain ⟨row, hrow⟩ : ∃ row, col.2.2[j]? = some row := by
    have hl := (List.getElem?_eq_some_iff.1 h2).1
    rw [hw.length_eq] at hl
    exact ⟨_, List.getElem?_eq_getElem hl⟩
  obtain ⟨r, est, k, hr, -, -, -, hpr⟩ := forall₂_getElem? hw h2 hrow
  obtain ⟨-, -, s3⟩ := sameTable_cell ht hc
  rw [hp] at s3
  obtain ⟨n, m, ex, hx, rfl⟩ := sameNumber_fin s3
  obtain ⟨c, hrp, -, -, -, h0, h1'⟩ := C06_pval_never_understated _ _ _ r n m ex hx hr
  rw [hrp] at hpr
  obtain ⟨-, k2, k3, -⟩ := printPval_fin n c (-((4 : ℕ) : Int)) o.nff
  have hrd : ∃ b v, readP row.2 = some (b, v) := by
    rcases le_or_gt (sval n c (-((4 : ℕ) : Int))) (10 ^ (-((4 : ℕ) : Int))) with hle | hgt
    · rw [k2 h0 hle] at hpr
      injection hpr with hpr
      rw [← hpr]
      unfold readP
      simp only [readNum_genFmt, Option.map_some]
      exact ⟨_, _, rfl⟩
    · rw [k3 hgt h1'] at hpr
      injection hpr with hpr
      have hg := readNum_genFmt n c (-((4 : ℕ) : Int))
      rw [← hpr]
      unfold readP
      split
      · rename_i s' hs'
        rw [hs', readNum_lt] at hg
        cases hg
      · rw [hg]
        exact ⟨_, _, rfl⟩
  obtain ⟨b, v, hbv⟩ := hrd
  exact ⟨b, v, col, hcol, rfl, j, row, h2, hrow, hbv⟩

section
variable {Ω : Type} [MeasurableSpace Ω] {P : Measure Ω} [IsProbabilityMeasure P] {n : ℕ} {tbl : Ω → LossTable} {metric method refMethod : Str}
  {limits : List (Str × (Flt ℝ × Flt ℝ))} {l h : ℝ} {X Y : Fin n → Ω → ℝ} {mX : ℝ}

/-- **C138, printed false alarms.**  If method and reference have the same expected loss, then with probability at most
`α exp(n (11 n u + 2 κ))` the table computed in floating point has some text whose p-value reads `v` or `<v` with `v ≤ α`. -/
theorem C138_printed (hL : GoodLib L) (hA : AccurateLib u L) (hr : AccurateRoots κ L) (hκ0 : 0 ≤ κ) (hκ : κ ≤ 1 / 2)
    (hrl : RandomLosses P tbl metric method refMethod limits l h X Y mX mX) (hmr : method ≠ refMethod) (hn : n * u ≤ 1 / 1000000)
    {pairwise : Bool} {c : Flt ℝ} {draws : Ω → Str → Str → Draws} {out : Ω → List (List (Flt ℝ × Flt ℝ × Flt ℝ))}
    (ho : ∀ ω, lossSummaryTableR L (tbl ω) refMethod pairwise c .bernstein limits (draws ω) = .ok (out ω))
    {cell : Ω → Flt ℝ × Flt ℝ × Flt ℝ} (hc : ∀ ω, SummaryCell (tbl ω) (out ω) metric method (cell ω)) {α : ℝ} (hα : 0 ≤ α) :
    P.real {ω | ∃ b v, ShowsP (tbl ω) (out ω) metric method (b, v) ∧ (v : ℝ) ≤ α} ≤ α * Real.exp (n * (11 * (n * u) + 2 * κ)) := by
  refine (measureReal_mono ?_).trans (C138_false_alarm hL hA hr hκ0 hκ hrl hmr hn ho hc hα)
  rintro ω ⟨b, v, hs, hv⟩
  have hneD := observed_ne_nil hrl.rows (fun i ω => X i ω - Y i ω) ω
  have f2 := summaryCellR_test (by simp) (ho ω) (hc ω) hrl.limits (hrl.meth ω) (hrl.ref ω) hmr
  rw [observed_sub] at f2
  simp only [Flt.sub_fin, Flt.neg_fin, rF, getTestR] at f2
  obtain ⟨p, pR, -, e2, -⟩ := pair_test hL hA hr hκ0 hκ hneD (observed_within hrl.boundD ω) (by rwa [observed_length])
  rw [e2, Except.ok.injEq] at f2
  have := C138_cell (hc ω) f2.symm hs
  refine ⟨pR, f2.symm, ?_⟩
  cases b with
  | true => exact (this.1 rfl).1.le.trans hv
  | false => exact (this.2 rfl).1.trans hv

end

end Mlp.Props
