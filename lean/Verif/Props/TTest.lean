import Verif.Lemmas.Stats
import Verif.Lemmas.StudentT

/-! # C45: t-test and t error bars -/

namespace Mlp.Props
open Mlp.Paper Mlp.Spec

/-- C45: with fewer than two points or an infinite point both functions are uninformative; NaN is
rejected by both, a confidence outside (0,1) by `t_EB`. -/
theorem C45_uninformative (T : Nat → RefDist) (x : List (Flt ℝ)) (conf : Flt ℝ) :
    (¬ NoNaN x → tTest T x = .error .assertion ∧ tEB T x conf = .error .assertion) ∧
    (NoNaN x → (x.length ≤ 1 ∨ Flt.pinf ∈ x ∨ Flt.ninf ∈ x) →
      tTest T x = .ok (.fin 1) ∧
      ((∃ c : ℝ, conf = .fin c ∧ 0 < c ∧ c < 1) → tEB T x conf = .ok .pinf)) ∧
    ((¬ ∃ c : ℝ, conf = .fin c ∧ 0 < c ∧ c < 1) → tEB T x conf = .error .assertion) := by
  refine ⟨fun h => ?_, fun h h2 => ?_, fun h => ?_⟩
  · have e : ¬ ((!(x.any fun v => v.isNaN)) = true) := fun h' => h ((noNaN_any x).1 h')
    constructor
    · unfold tTest; rw [pyAssert_bind, if_neg e]
    · unfold tEB; rw [pyAssert_bind, if_neg e]
  · have e := (noNaN_any x).2 h
    have u : uninformative x = true := by
      rw [uninformative_iff]
      rcases h2 with h2 | h2
      · exact Or.inl h2
      · right
        rintro ⟨xs, rfl⟩
        rcases h2 with h2 | h2 <;> simp [finVec] at h2
    constructor
    · unfold tTest; rw [pyAssert_bind, if_pos e, if_pos u]; rfl
    · intro hc
      unfold tEB
      rw [pyAssert_bind, if_pos e, pyAssert_bind, if_pos ((confOk_iff conf).2 hc), if_pos u]; rfl
  · unfold tEB
    rw [pyAssert_bind, pyAssert_bind, if_neg (fun h' => h ((confOk_iff conf).1 h'))]
    split_ifs <;> rfl

theorem sqrt_var_div {xs : List ℝ} (h : 2 ≤ xs.length) :
    Real.sqrt (varK 1 xs / xs.length) = stdErr xs := by
  unfold stdErr
  rw [varK_eq, Real.sqrt_div]
  have : (2 : ℝ) ≤ xs.length := by exact_mod_cast h
  exact div_nonneg (sqDev_nonneg xs) (by linarith)

theorem stdErr_eq_zero {xs : List ℝ} (h : 2 ≤ xs.length) : stdErr xs = 0 ↔ ∀ x ∈ xs, x = avg xs := by
  have h2 : (2 : ℝ) ≤ xs.length := by exact_mod_cast h
  unfold stdErr
  rw [div_eq_zero_iff, Real.sqrt_eq_zero (div_nonneg (sqDev_nonneg xs) (by linarith)),
    div_eq_zero_iff, sqDev_eq_zero]
  constructor
  · rintro ((h | h) | h)
    · exact h
    · linarith
    · rw [Real.sqrt_eq_zero (by linarith)] at h; linarith
  · exact fun h => Or.inl (Or.inl h)

theorem stdErr_nonneg (xs : List ℝ) : 0 ≤ stdErr xs := by unfold stdErr; positivity

/-- C45: the p-value of at least two numbers.  Not all equal: `2*(1-F(|mean|/stderr))`.  All equal to
a number other than 0: 0.  All zero: 1. -/
theorem C45_t_test (T : Nat → RefDist) {xs : List ℝ} (h : 2 ≤ xs.length)
    (hD : IsSymmetric (T (xs.length - 1))) :
    ∃ p : ℝ, tTest T (finVec xs) = .ok (.fin p) ∧ 0 ≤ p ∧ p ≤ 1 ∧
      ((∃ x ∈ xs, x ≠ avg xs) →
        p = 2 * (1 - (T (xs.length - 1)).cdf (|avg xs| / stdErr xs)) ∧ 0 < p) ∧
      ((∀ x ∈ xs, x = avg xs) → (avg xs ≠ 0 → p = 0) ∧ (avg xs = 0 → p = 1)) := by
  have e := (noNaN_any (finVec xs)).2 (noNaN_finVec xs)
  unfold tTest
  rw [pyAssert_bind, if_pos e, if_neg (informative_finVec h)]
  simp only [finVals_finVec, sub_zero]
  rw [sqrt_var_div h]
  simp only [meanK_eq]
  by_cases hs : stdErr xs = 0
  · have hall := (stdErr_eq_zero h).1 hs
    have hv : varK 1 xs = 0 := by rw [varK_eq, (sqDev_eq_zero xs).2 hall, zero_div]
    have hnot : ¬ ∃ x ∈ xs, x ≠ avg xs := by
      rintro ⟨x, hx, hne⟩; exact hne (hall x hx)
    by_cases hm : avg xs = 0
    · refine ⟨1, ?_, by norm_num, le_rfl, fun h => absurd h hnot, fun _ => ⟨fun h => absurd hm h, fun _ => rfl⟩⟩
      have hp : (((T (xs.length - 1)).sf (fabs ((Flt.fin (avg xs)).div (.fin (stdErr xs))))).mul
          (.fin 2)) = .nan := by
        rw [hs, hm]; simp [Flt.div, Flt.signInf, fabs, RefDist.sf, Flt.mul]
      simp only [hp, Flt.isNaN_nan, if_true]
      simp only [hm, hv, if_true]
      rw [pyAssert_bind, if_pos (by rw [decide_eq_true_eq]; positivity), pure_eq_ok, ok_bind,
        pyAssert_bind, if_pos (by simp)]
      rfl
    · refine ⟨0, ?_, le_rfl, by norm_num, fun h => absurd h hnot, fun _ => ⟨fun _ => rfl, fun h => absurd h hm⟩⟩
      have hp : (((T (xs.length - 1)).sf (fabs ((Flt.fin (avg xs)).div (.fin (stdErr xs))))).mul
          (.fin 2)) = .fin 0 := by
        rw [hs]
        rcases lt_or_gt_of_ne hm with h' | h'
        · have : ¬ 0 < avg xs := not_lt.2 h'.le
          simp [Flt.div, Flt.signInf, fabs, RefDist.sf, this, h']
        · simp [Flt.div, Flt.signInf, fabs, RefDist.sf, h']
      simp only [hp, Flt.isNaN_fin, Bool.false_eq_true, if_false, pure_eq_ok, ok_bind]
      rw [pyAssert_bind, if_pos (by simp)]
  · have hpos : 0 < stdErr xs := lt_of_le_of_ne (stdErr_nonneg xs) (Ne.symm hs)
    have hnot : ¬ ∀ x ∈ xs, x = avg xs := fun h' => hs ((stdErr_eq_zero h).2 h')
    have ht : 0 ≤ |avg xs| / stdErr xs := by positivity
    have h1 := hD.half_le ht
    have h2 := hD.lt_one (|avg xs| / stdErr xs)
    refine ⟨2 * (1 - (T (xs.length - 1)).cdf (|avg xs| / stdErr xs)), ?_, by linarith, by linarith,
      fun _ => ⟨rfl, by linarith⟩, fun h => absurd h hnot⟩
    have hp : (((T (xs.length - 1)).sf (fabs ((Flt.fin (avg xs)).div (.fin (stdErr xs))))).mul
        (.fin 2)) = .fin (2 * (1 - (T (xs.length - 1)).cdf (|avg xs| / stdErr xs))) := by
      rw [Flt.div_fin hs]
      simp only [fabs, RefDist.sf, Flt.mul_fin, abs_div, abs_of_pos hpos]
      rw [mul_comm]
    simp only [hp, Flt.isNaN_fin, Bool.false_eq_true, if_false, pure_eq_ok, ok_bind]
    rw [pyAssert_bind, if_pos]
    rw [Bool.and_eq_true, Flt.le_fin, Flt.le_fin, decide_eq_true_eq, decide_eq_true_eq]
    constructor <;> linarith

/-- C45: the error bar of at least two numbers: the quantile at `(1+c)/2` times the standard error. -/
theorem C45_t_EB (T : Nat → RefDist) {xs : List ℝ} (h : 2 ≤ xs.length)
    (hD : IsSymmetric (T (xs.length - 1))) {c : ℝ} (h0 : 0 < c) (h1 : c < 1) :
    ∃ e : ℝ, tEB T (finVec xs) (.fin c) = .ok (.fin e) ∧ 0 ≤ e ∧
      e = (T (xs.length - 1)).ppf ((1 + c) / 2) * stdErr xs ∧
      (e = 0 ↔ ∀ x ∈ xs, x = avg xs) := by
  have e := (noNaN_any (finVec xs)).2 (noNaN_finVec xs)
  have hq : (T (xs.length - 1)).ppf ((1 - c) / 2) = - (T (xs.length - 1)).ppf ((1 + c) / 2) := by
    rw [← hD.ppf_neg (by linarith) (by linarith)]
    congr 1; ring
  have hqp := hD.ppf_pos (q := (1 + c) / 2) (by linarith) (by linarith)
  have hEB : 1 / 2 * (Real.sqrt (varK 1 xs) / Real.sqrt xs.length) *
      ((T (xs.length - 1)).ppf ((1 + c) / 2) - (T (xs.length - 1)).ppf ((1 - c) / 2)) =
      (T (xs.length - 1)).ppf ((1 + c) / 2) * stdErr xs := by
    rw [hq, varK_eq]; unfold stdErr; ring
  refine ⟨_, ?_, ?_, rfl, ?_⟩
  · unfold tEB
    rw [pyAssert_bind, if_pos e, pyAssert_bind, if_pos ((confOk_iff _).2 ⟨c, rfl, h0, h1⟩),
      if_neg (informative_finVec h)]
    simp only [finVals_finVec, realOf_fin]
    rw [pyAssert_bind, if_pos, pyAssert_bind, hEB, if_pos]
    · rfl
    · rw [decide_eq_true_eq]
      exact mul_nonneg hqp.le (stdErr_nonneg xs)
    · rw [decide_eq_true_eq, not_lt, hq]; linarith
  · exact mul_nonneg hqp.le (stdErr_nonneg xs)
  · rw [mul_eq_zero, stdErr_eq_zero h]
    constructor
    · rintro (h' | h')
      · exact absurd h' hqp.ne'
      · exact h'
    · exact Or.inr

/-- C45: test and error bar agree: `p ≤ 1 - c` exactly when 0 is not strictly inside the interval,
unless all values are 0. -/
theorem C45_agree (T : Nat → RefDist) {xs : List ℝ} (h : 2 ≤ xs.length)
    (hD : IsSymmetric (T (xs.length - 1))) {c : ℝ} (h0 : 0 < c) (h1 : c < 1)
    (hz : ∃ x ∈ xs, x ≠ 0) {p e : ℝ} (hp : tTest T (finVec xs) = .ok (.fin p))
    (he : tEB T (finVec xs) (.fin c) = .ok (.fin e)) : p ≤ 1 - c ↔ e ≤ |avg xs| := by
  obtain ⟨p', hp', -, -, hne, heq⟩ := C45_t_test T h hD
  obtain ⟨e', he', -, ev, e0⟩ := C45_t_EB T h hD h0 h1
  rw [hp'] at hp
  rw [he'] at he
  simp only [Except.ok.injEq, Flt.fin.injEq] at hp he
  subst hp he
  by_cases hall : ∀ x ∈ xs, x = avg xs
  · have hm : avg xs ≠ 0 := by
      intro hm
      obtain ⟨x, hx, hx0⟩ := hz
      exact hx0 ((hall x hx).trans hm)
    rw [(heq hall).1 hm, e0.2 hall]
    constructor
    · intro _; positivity
    · intro _; linarith
  · have hs : stdErr xs ≠ 0 := fun h' => hall ((stdErr_eq_zero h).1 h')
    have hpos : 0 < stdErr xs := lt_of_le_of_ne (stdErr_nonneg xs) (Ne.symm hs)
    push Not at hall
    rw [(hne hall).1, ev]
    rw [← le_div_iff₀ hpos,
      ← hD.strictMono.le_iff_le (a := (T (xs.length - 1)).ppf ((1 + c) / 2)), hD.cdf_ppf _ (by linarith) (by linarith)]
    constructor <;> intro h <;> linarith

/-- C45: all zero data is the one exception: the bar is 0, 0 is inside, and p is 1. -/
theorem C45_zero (T : Nat → RefDist) {xs : List ℝ} (h : 2 ≤ xs.length)
    (hD : IsSymmetric (T (xs.length - 1))) {c : ℝ} (h0 : 0 < c) (h1 : c < 1) (hz : ∀ x ∈ xs, x = 0) :
    tTest T (finVec xs) = .ok (.fin 1) ∧ tEB T (finVec xs) (.fin c) = .ok (.fin 0) := by
  have ha : avg xs = 0 := by
    unfold avg
    rw [List.sum_eq_zero hz, zero_div]
  obtain ⟨p', hp', -, -, hne, heq⟩ := C45_t_test T h hD
  obtain ⟨e', he', -, ev, e0⟩ := C45_t_EB T h hD h0 h1
  have hall : ∀ x ∈ xs, x = avg xs := fun x hx => (hz x hx).trans ha.symm
  rw [hp', he', (heq hall).2 ha, e0.2 hall]
  exact ⟨rfl, rfl⟩

/-- C45: the bar grows with the confidence. -/
theorem C45_mono (T : Nat → RefDist) {xs : List ℝ} (h : 2 ≤ xs.length)
    (hD : IsSymmetric (T (xs.length - 1))) {c₁ c₂ : ℝ} (h0 : 0 < c₁) (hc : c₁ ≤ c₂) (h1 : c₂ < 1)
    {e₁ e₂ : ℝ} (he₁ : tEB T (finVec xs) (.fin c₁) = .ok (.fin e₁))
    (he₂ : tEB T (finVec xs) (.fin c₂) = .ok (.fin e₂)) : e₁ ≤ e₂ := by
  obtain ⟨a, ha, -, va, -⟩ := C45_t_EB T h hD h0 (by linarith : c₁ < 1)
  obtain ⟨b, hb, -, vb, -⟩ := C45_t_EB T h hD (by linarith : 0 < c₂) h1
  rw [ha] at he₁
  rw [hb] at he₂
  simp only [Except.ok.injEq, Flt.fin.injEq] at he₁ he₂
  subst he₁ he₂
  rw [va, vb]
  exact mul_le_mul_of_nonneg_right (hD.ppf_mono (by linarith) (by linarith) (by linarith))
    (stdErr_nonneg xs)

/-- C45: the agreement for Student's t distribution itself, without assumptions on a reference
distribution. -/
theorem C45_student {xs : List ℝ} (h : 2 ≤ xs.length) {c : ℝ} (h0 : 0 < c) (h1 : c < 1)
    (hz : ∃ x ∈ xs, x ≠ 0) :
    ∃ p e : ℝ, tTest Lemmas.studentT (finVec xs) = .ok (.fin p) ∧
      tEB Lemmas.studentT (finVec xs) (.fin c) = .ok (.fin e) ∧ (p ≤ 1 - c ↔ e ≤ |avg xs|) := by
  have hD := Lemmas.studentT_isSymmetric (ν := xs.length - 1) (by omega)
  obtain ⟨p, hp, -⟩ := C45_t_test Lemmas.studentT h hD
  obtain ⟨e, he, -⟩ := C45_t_EB Lemmas.studentT h hD h0 h1
  exact ⟨p, e, hp, he, C45_agree Lemmas.studentT h hD h0 h1 hz hp he⟩

/-- A sample meeting the hypotheses of `C45_t_test`, `C45_t_EB` and `C45_agree`. -/
example : ∃ p : ℝ, tTest Lemmas.studentT (finVec [1, 2, 3]) = .ok (.fin p) ∧ 0 < p ∧ p ≤ 1 := by
  obtain ⟨p, h1, h2, h3, h4, -⟩ := C45_t_test Lemmas.studentT (xs := [1, 2, 3]) (by simp)
    (Lemmas.studentT_isSymmetric (by simp))
  exact ⟨p, h1, (h4 ⟨1, by simp, by unfold avg; norm_num⟩).2, h3⟩

example : tTest Lemmas.studentT (finVec [0, 0]) = .ok (.fin 1) ∧
    tEB Lemmas.studentT (finVec [0, 0]) (.fin (1/2)) = .ok (.fin 0) :=
  C45_zero _ (by simp) (Lemmas.studentT_isSymmetric (by simp)) (by norm_num) (by norm_num) (by simp)

end Mlp.Props
