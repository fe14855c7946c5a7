import Verif.Lemmas.Stats
import Verif.Props.ClipEB
import Mathlib.Analysis.SpecialFunctions.Pow.Real

/-! # C46, C47: Bernstein test and error bars -/

namespace Mlp.Props
open Mlp.Paper Mlp.Spec

/-- All numbers lie within the limits. -/
def Within (lower upper : Flt ℝ) (xs : List ℝ) : Prop :=
  ∀ x ∈ xs, lower ≤ .fin x ∧ .fin x ≤ upper

theorem within_finVec {lower upper : Flt ℝ} (hu : upper ≠ .nan) (xs : List ℝ) :
    within lower upper (finVec xs) = true ↔ Within lower upper xs := by
  unfold within Within finVec
  rw [Bool.and_eq_true, List.all_map, List.all_map, List.all_eq_true, List.all_eq_true]
  simp only [Function.comp, Flt.le_iff' hu, Flt.le_iff' (show Flt.fin _ ≠ Flt.nan by simp)]
  constructor
  · rintro ⟨h1, h2⟩ x hx; exact ⟨h1 x hx, h2 x hx⟩
  · intro h; exact ⟨fun x hx => (h x hx).1, fun x hx => (h x hx).2⟩

/-- The Bernstein half width at `A = log(3/delta)`: `std*sqrt(2A/N) + 3*A*R/N`. -/
noncomputable def bernWidth (xs : List ℝ) (R A : ℝ) : ℝ :=
  Real.sqrt (sqDev xs / xs.length) * Real.sqrt (2 * A / xs.length) + 3 * A * R / xs.length

/-- Roots of the quadratic of the Bernstein test. -/
theorem bern_root {a b m : ℝ} (ha : 0 < a) (hb : 0 ≤ b) (hm : 0 ≤ m) :
    ∃ r₁ r₂ : ℝ, quadRoots a b (-m) = some (r₁, r₂) ∧ r₁ ≤ 0 ∧ 0 ≤ r₂ ∧
      a * r₂ ^ 2 + b * r₂ = m ∧ a * r₁ ^ 2 + b * r₁ = m := by
  have hd : 0 ≤ b ^ 2 - 4 * a * (-m) := by nlinarith [sq_nonneg b, mul_nonneg ha.le hm]
  have hs := Real.sq_sqrt hd
  have hsb : b ≤ Real.sqrt (b ^ 2 - 4 * a * (-m)) := by
    apply Real.le_sqrt_of_sq_le
    nlinarith [mul_nonneg ha.le hm]
  refine ⟨_, _, by unfold quadRoots; rw [if_neg (not_lt.2 hd)], ?_, ?_, ?_, ?_⟩
  · apply div_nonpos_of_nonpos_of_nonneg
    · have := Real.sqrt_nonneg (b ^ 2 - 4 * a * (-m)); linarith
    · positivity
  · apply div_nonneg <;> linarith
  · generalize Real.sqrt (b ^ 2 - 4 * a * (-m)) = s at hs ⊢
    field_simp
    nlinarith
  · generalize Real.sqrt (b ^ 2 - 4 * a * (-m)) = s at hs ⊢
    field_simp
    nlinarith

/-- C46/C47: for at least two numbers within limits of finite positive range, no assertion of
`bernstein_test` fails and the p-value is `min(1, 3*exp(-B))`, where `B ≥ 0` is the solution of
`std*sqrt(2B/N) + 3*B*R/N = |mean|`. -/
theorem C47_bernstein_test {xs : List ℝ} (h : 2 ≤ xs.length) {l u : ℝ} (hlu : l < u)
    (hw : ∀ x ∈ xs, l ≤ x ∧ x ≤ u) :
    ∃ B : ℝ, 0 ≤ B ∧ bernWidth xs (u - l) B = |avg xs| ∧
      bernsteinTest (finVec xs) (.fin l) (.fin u) = .ok (.fin (min 1 (3 * Real.exp (-B)))) := by
  have hn : (0 : ℝ) < xs.length := by
    have : 0 < xs.length := by omega
    exact_mod_cast this
  have hR : 0 < u - l := by linarith
  have e := (noNaN_any (finVec xs)).2 (noNaN_finVec xs)
  have hwi : within (.fin l) (.fin u) (finVec xs) = true :=
    (within_finVec (by simp) xs).2 fun x hx => ⟨by simpa using (hw x hx).1, by simpa using (hw x hx).2⟩
  obtain ⟨r₁, r₂, hr, h1, h2, h3, -⟩ := bern_root (a := 3 * (u - l) / xs.length)
    (b := Real.sqrt (varK 0 xs) * Real.sqrt (2 / xs.length)) (m := |avg xs|) (by positivity)
    (by positivity) (abs_nonneg _)
  refine ⟨r₂ ^ 2, by positivity, ?_, ?_⟩
  · rw [← h3]
    unfold bernWidth
    have : Real.sqrt (2 * r₂ ^ 2 / xs.length) = Real.sqrt (2 / xs.length) * r₂ := by
      rw [show 2 * r₂ ^ 2 / (xs.length : ℝ) = 2 / xs.length * r₂ ^ 2 by ring, Real.sqrt_mul (by positivity),
        Real.sqrt_sq h2]
    rw [this, varK_eq, sub_zero]
    ring
  · unfold bernsteinTest
    rw [pyAssert_bind, if_pos e, Flt.sub_fin, pyAssert_bind, if_pos (by simp; linarith), pyAssert_bind,
      if_pos hwi, if_neg (informative_finVec h)]
    simp only [finVals_finVec, meanK_eq, hR.ne', if_false]
    rw [hr]
    have hmax : max r₁ r₂ = r₂ := max_eq_right (h1.trans h2)
    have h0 : 0 ≤ min 1 (3 * Real.exp (-(r₂ ^ 2))) := le_min zero_le_one (by positivity)
    simp only [hmax]
    rw [pyAssert_bind, if_pos (by simp [h1]), pyAssert_bind, if_pos (by simp [h2]), pyAssert_bind,
      if_pos (by simp [h0, -le_inf_iff])]
    rfl

/-- `bernWidth` grows strictly with `A`. -/
theorem bernWidth_strictMono {xs : List ℝ} (h : 2 ≤ xs.length) {R : ℝ} (hR : 0 < R) {A B : ℝ}
    (hAB : A < B) : bernWidth xs R A < bernWidth xs R B := by
  have hn : (0 : ℝ) < xs.length := by
    have : 0 < xs.length := by omega
    exact_mod_cast this
  unfold bernWidth
  apply add_lt_add_of_le_of_lt
  · apply mul_le_mul_of_nonneg_left _ (Real.sqrt_nonneg _)
    apply Real.sqrt_le_sqrt
    apply div_le_div_of_nonneg_right _ hn.le
    linarith
  · apply div_lt_div_of_pos_right _ hn
    nlinarith

theorem bernWidth_le_iff {xs : List ℝ} (h : 2 ≤ xs.length) {R : ℝ} (hR : 0 < R) {A B : ℝ} :
    bernWidth xs R A ≤ bernWidth xs R B ↔ A ≤ B := by
  constructor
  · intro h'
    by_contra hc
    exact absurd (bernWidth_strictMono h hR (not_le.1 hc)) (not_lt.2 h')
  · intro h'
    rcases h'.lt_or_eq with h' | rfl
    · exact (bernWidth_strictMono h hR h').le
    · exact le_rfl

theorem log_pos_conf {c : ℝ} (h0 : 0 < c) (h1 : c < 1) :
    Real.log 3 < Real.log (3 / (1 - c)) ∧ 0 < Real.log (3 / (1 - c)) := by
  have hd : 0 < 1 - c := by linarith
  have h3 : (3 : ℝ) < 3 / (1 - c) := by
    rw [lt_div_iff₀ hd]; linarith
  have := Real.log_lt_log (by norm_num) h3
  have h4 : 0 < Real.log 3 := Real.log_pos (by norm_num)
  exact ⟨this, by linarith⟩

/-- C47: the error bar of at least two numbers within finite limits. -/
theorem C47_bernstein_EB {xs : List ℝ} (h : 2 ≤ xs.length) {l u : ℝ} (hlu : l ≤ u)
    (hw : ∀ x ∈ xs, l ≤ x ∧ x ≤ u) {c : ℝ} (h0 : 0 < c) (h1 : c < 1) :
    bernsteinEB (finVec xs) (.fin l) (.fin u) (.fin c) =
        .ok (.fin (bernWidth xs (u - l) (Real.log (3 / (1 - c))))) ∧
      0 ≤ bernWidth xs (u - l) (Real.log (3 / (1 - c))) ∧
      3 * Real.log 3 * (u - l) / xs.length ≤ bernWidth xs (u - l) (Real.log (3 / (1 - c))) ∧
      (l < u → 3 * Real.log 3 * (u - l) / xs.length < bernWidth xs (u - l) (Real.log (3 / (1 - c)))) := by
  have hn : (0 : ℝ) < xs.length := by
    have : 0 < xs.length := by omega
    exact_mod_cast this
  have hR : 0 ≤ u - l := by linarith
  obtain ⟨hA3, hA⟩ := log_pos_conf h0 h1
  have hlog3 : 0 < Real.log 3 := Real.log_pos (by norm_num)
  have e := (noNaN_any (finVec xs)).2 (noNaN_finVec xs)
  have hwi : within (.fin l) (.fin u) (finVec xs) = true :=
    (within_finVec (by simp) xs).2 fun x hx => ⟨by simpa using (hw x hx).1, by simpa using (hw x hx).2⟩
  have hs : 0 ≤ Real.sqrt (sqDev xs / xs.length) *
      Real.sqrt (2 * Real.log (3 / (1 - c)) / xs.length) := by positivity
  have hpos : 0 ≤ bernWidth xs (u - l) (Real.log (3 / (1 - c))) := by
    unfold bernWidth; positivity
  refine ⟨?_, hpos, ?_, fun hlt => ?_⟩
  · unfold bernsteinEB
    rw [pyAssert_bind, if_pos e, Flt.sub_fin, pyAssert_bind, if_pos (by simp; linarith), pyAssert_bind,
      if_pos hwi, pyAssert_bind, if_pos ((confOk_iff _).2 ⟨c, rfl, h0, h1⟩), if_neg (informative_finVec h)]
    simp only [finVals_finVec, realOf_fin, Flt.mul_fin, Flt.div_fin hn.ne', Flt.add_fin, varK_eq, sub_zero]
    rw [pyAssert_bind, if_pos]
    · rfl
    · rw [Flt.le_fin, decide_eq_true_eq]; exact hpos
  · unfold bernWidth
    have : 3 * Real.log 3 * (u - l) / xs.length ≤ 3 * Real.log (3 / (1 - c)) * (u - l) / xs.length := by
      apply div_le_div_of_nonneg_right _ hn.le
      apply mul_le_mul_of_nonneg_right _ hR
      linarith
    linarith
  · unfold bernWidth
    have : 3 * Real.log 3 * (u - l) / xs.length < 3 * Real.log (3 / (1 - c)) * (u - l) / xs.length := by
      apply div_lt_div_of_pos_right _ hn
      apply mul_lt_mul_of_pos_right _ (by linarith)
      linarith
    linarith

/-- C46: test and error bar agree: `p ≤ 1 - c` exactly when 0 is not strictly inside the interval. -/
theorem C46_agree {xs : List ℝ} (h : 2 ≤ xs.length) {l u : ℝ} (hlu : l < u)
    (hw : ∀ x ∈ xs, l ≤ x ∧ x ≤ u) {c : ℝ} (h0 : 0 < c) (h1 : c < 1) :
    ∃ p e : ℝ, bernsteinTest (finVec xs) (.fin l) (.fin u) = .ok (.fin p) ∧
      bernsteinEB (finVec xs) (.fin l) (.fin u) (.fin c) = .ok (.fin e) ∧
      0 < p ∧ p ≤ 1 ∧ 0 < e ∧ (p ≤ 1 - c ↔ e ≤ |avg xs|) := by
  obtain ⟨B, hB, hBw, hp⟩ := C47_bernstein_test h hlu hw
  obtain ⟨he, -, -, hpos⟩ := C47_bernstein_EB h hlu.le hw h0 h1
  have hn : (0 : ℝ) < xs.length := by
    have : 0 < xs.length := by omega
    exact_mod_cast this
  have hlog3 : 0 < Real.log 3 := Real.log_pos (by norm_num)
  have hlow : 0 ≤ 3 * Real.log 3 * (u - l) / xs.length := by
    have : 0 ≤ u - l := by linarith
    positivity
  refine ⟨_, _, hp, he, lt_min one_pos (by positivity), min_le_left _ _,
    lt_of_le_of_lt hlow (hpos hlu), ?_⟩
  have hd : 0 < 1 - c := by linarith
  rw [← hBw, bernWidth_le_iff h (by linarith : 0 < u - l), min_le_iff]
  constructor
  · rintro (h' | h')
    · linarith
    · rw [Real.log_le_iff_le_exp (by positivity), div_le_iff₀ hd]
      rw [Real.exp_neg, ← div_eq_mul_inv, div_le_iff₀ (Real.exp_pos _)] at h'
      linarith
  · intro h'
    right
    rw [Real.log_le_iff_le_exp (by positivity), div_le_iff₀ hd] at h'
    rw [Real.exp_neg, ← div_eq_mul_inv, div_le_iff₀ (Real.exp_pos _)]
    linarith

/-- C47: the bar grows with the confidence. -/
theorem C47_mono {xs : List ℝ} (h : 2 ≤ xs.length) {l u : ℝ} (hlu : l < u)
    (hw : ∀ x ∈ xs, l ≤ x ∧ x ≤ u) {c₁ c₂ : ℝ} (h0 : 0 < c₁) (hc : c₁ < c₂) (h1 : c₂ < 1) :
    ∃ e₁ e₂ : ℝ, bernsteinEB (finVec xs) (.fin l) (.fin u) (.fin c₁) = .ok (.fin e₁) ∧
      bernsteinEB (finVec xs) (.fin l) (.fin u) (.fin c₂) = .ok (.fin e₂) ∧ e₁ < e₂ := by
  refine ⟨_, _, (C47_bernstein_EB h hlu.le hw h0 (by linarith)).1,
    (C47_bernstein_EB h hlu.le hw (by linarith) h1).1, ?_⟩
  apply bernWidth_strictMono h (by linarith)
  apply Real.log_lt_log (by have : 0 < 1 - c₁ := by linarith
                            positivity)
  have : 0 < 1 - c₁ := by linarith
  have : 0 < 1 - c₂ := by linarith
  apply div_lt_div_of_pos_left <;> linarith

/-- C47: too few or infinite points, or a range of zero or infinity: p is 1; the bar is the range for
too few or infinite points, and infinite for an infinite range. -/
theorem C47_degenerate {x : List (Flt ℝ)} {lower upper : Flt ℝ} (hv : ValidLimits lower upper)
    (hx : NoNaN x) (hw : ∀ v ∈ x, lower ≤ v ∧ v ≤ upper) {c : ℝ} (h0 : 0 < c) (h1 : c < 1) :
    ((x.length ≤ 1 ∨ Flt.pinf ∈ x ∨ Flt.ninf ∈ x) →
      bernsteinTest x lower upper = .ok (.fin 1) ∧
      bernsteinEB x lower upper (.fin c) = .ok (upper.sub lower)) ∧
    (lower = upper ∨ lower = .ninf ∨ upper = .pinf → bernsteinTest x lower upper = .ok (.fin 1)) ∧
    (lower = .ninf ∨ upper = .pinf → bernsteinEB x lower upper (.fin c) = .ok .pinf) := by
  have e := (noNaN_any x).2 hx
  have er := (range_ok_iff lower upper).2 hv
  have ew : within lower upper x = true := by
    unfold within
    rw [Bool.and_eq_true, List.all_eq_true, List.all_eq_true]
    refine ⟨fun v hv' => ?_, fun v hv' => ?_⟩
    · rw [Flt.le_iff]
      exact ⟨fun h => hx (h ▸ hv'), (hw v hv').1⟩
    · rw [Flt.le_iff]
      exact ⟨hv.2.1, (hw v hv').2⟩
  have ec := (confOk_iff (.fin c)).2 ⟨c, rfl, h0, h1⟩
  have hinf : lower = .ninf ∨ upper = .pinf → upper.sub lower = .pinf := by
    obtain ⟨v1, v2, v3, v4, v5⟩ := hv
    rintro (rfl | rfl)
    · cases upper <;> simp_all [Flt.sub, Flt.add, Flt.neg]
    · cases lower <;> simp_all [Flt.sub, Flt.add, Flt.neg]
  refine ⟨fun h2 => ?_, fun h2 => ?_, fun h2 => ?_⟩
  · have u : uninformative x = true := by
      rw [uninformative_iff]
      rcases h2 with h2 | h2
      · exact Or.inl h2
      · right
        rintro ⟨xs, rfl⟩
        rcases h2 with h2 | h2 <;> simp [finVec] at h2
    constructor
    · unfold bernsteinTest
      rw [pyAssert_bind, if_pos e, pyAssert_bind, if_pos er, pyAssert_bind, if_pos ew, if_pos u]; rfl
    · unfold bernsteinEB
      rw [pyAssert_bind, if_pos e, pyAssert_bind, if_pos er, pyAssert_bind, if_pos ew, pyAssert_bind,
        if_pos ec, if_pos u]; rfl
  · unfold bernsteinTest
    rw [pyAssert_bind, if_pos e, pyAssert_bind, if_pos er, pyAssert_bind, if_pos ew]
    by_cases u : uninformative x = true
    · rw [if_pos u]; rfl
    · rw [if_neg u]
      rcases h2 with rfl | h2
      · have : lower.sub lower = .fin 0 := by
          obtain ⟨v1, v2, v3, v4, v5⟩ := hv
          cases lower <;> simp_all
        rw [this]; simp [pure_eq_ok]
      · rw [hinf h2]; rfl
  · unfold bernsteinEB
    rw [pyAssert_bind, if_pos e, pyAssert_bind, if_pos er, pyAssert_bind, if_pos ew, pyAssert_bind,
      if_pos ec]
    have hr := hinf h2
    rw [hr]
    by_cases u : uninformative x = true
    · rw [if_pos u]; rfl
    · rw [if_neg u]
      rw [uninformative_iff] at u
      push Not at u
      obtain ⟨u1, xs, rfl⟩ := u
      have hA := (log_pos_conf h0 h1).2
      have hn : ¬ ((xs.length : ℝ) < 0) := not_lt.2 (Nat.cast_nonneg _)
      have h3A : (0 : ℝ) < 3 * Real.log (3 / (1 - c)) := by positivity
      simp only [finVals_finVec, realOf_fin, Flt.mul, Flt.signInf, h3A, if_true, Flt.div, hn, if_false,
        Flt.add]
      rw [pyAssert_bind, if_pos (by rw [Flt.le_iff]; simp)]
      rfl

/-- C47: NaN data, data outside the limits, bad limits and a bad confidence are rejected. -/
theorem C47_reject (x : List (Flt ℝ)) (lower upper conf : Flt ℝ)
    (h : ¬ NoNaN x ∨ ¬ ValidLimits lower upper ∨ (∃ v ∈ x, v < lower ∨ upper < v)) :
    bernsteinTest x lower upper = .error .assertion ∧
    bernsteinEB x lower upper conf = .error .assertion := by
  by_cases hx : NoNaN x
  · by_cases hv : ValidLimits lower upper
    · obtain ⟨v, hv1, hv2⟩ : ∃ v ∈ x, v < lower ∨ upper < v := by
        rcases h with h | h | h
        · exact absurd hx h
        · exact absurd hv h
        · exact h
      have ew : ¬ (within lower upper x = true) := by
        unfold within
        rw [Bool.and_eq_true, List.all_eq_true, List.all_eq_true]
        rintro ⟨a1, a2⟩
        have b1 := (Flt.le_iff.1 (a1 v hv1)).2
        have b2 := (Flt.le_iff.1 (a2 v hv1)).2
        rcases hv2 with h | h
        · exact absurd h (not_lt.2 b1)
        · exact absurd h (not_lt.2 b2)
      unfold bernsteinTest bernsteinEB
      simp only [pyAssert_bind, if_neg ew]
      constructor <;> split_ifs <;> rfl
    · have er : ¬ ((Flt.fin 0).le (upper.sub lower) = true) := fun h => hv ((range_ok_iff _ _).1 h)
      unfold bernsteinTest bernsteinEB
      simp only [pyAssert_bind, if_neg er]
      constructor <;> split_ifs <;> rfl
  · have e : ¬ ((!(x.any fun v => v.isNaN)) = true) := fun h => hx ((noNaN_any x).1 h)
    unfold bernsteinTest bernsteinEB
    simp only [pyAssert_bind, if_neg e, and_self]

/-- A sample meeting the hypotheses: three zero-one losses. -/
example : ∃ p e : ℝ, bernsteinTest (finVec [0, 1, 1]) (.fin 0) (.fin 1) = .ok (.fin p) ∧
    bernsteinEB (finVec [0, 1, 1]) (.fin 0) (.fin 1) (.fin (95/100)) = .ok (.fin e) ∧ 0 < p ∧ 0 < e := by
  obtain ⟨p, e, h1, h2, h3, -, h4, -⟩ := C46_agree (xs := [0, 1, 1]) (l := 0) (u := 1) (c := 95/100)
    (by simp) (by norm_num) (by simp) (by norm_num) (by norm_num)
  exact ⟨p, e, h1, h2, h3, h4⟩

end Mlp.Props
