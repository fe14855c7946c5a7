import Verif.Props.LargeSampleTable

/-! # C132: with more and more data the table converges to the truth -/

namespace Mlp.Props
open Mlp.Paper Mlp.Spec Mlp.Lemmas MeasureTheory ProbabilityTheory Set Filter
open scoped NNReal ENNReal Topology

variable {Ω : Type} [MeasurableSpace Ω] {P : Measure Ω} [IsProbabilityMeasure P]

section
variable {X : ℕ → Ω → ℝ} {m : ℝ}

/-- The quantiles of the t distributions are bounded. -/
theorem student_quantile_bounded {c : ℝ} (h0 : 0 < c) (h1 : c < 1) :
    ∃ x, 0 ≤ x ∧ ∀ᶠ n in atTop, (studentT (n - 1)).ppf ((1 + c) / 2) ≤ x := by
  obtain ⟨x, hx, hlt⟩ := normalWithin_exists_gt h1
  refine ⟨x, hx, ?_⟩
  filter_upwards [(studentT_tendsto hx).eventually (lt_mem_nhds hlt), eventually_ge_atTop 2] with n hn h2
  have hsym := studentT_isSymmetric (ν := n - 1) (by omega)
  refine le_of_lt (hsym.strictMono.lt_iff_lt.1 ?_)
  rw [hsym.cdf_ppf _ (by linarith) (by linarith)]
  linarith

/-- The standard error tends to 0. -/
theorem DataStream.stdErr_tendsto (h : DataStream P X m) :
    ∀ᵐ ω ∂P, Tendsto (fun n => stdErr (observedN X n ω)) atTop (𝓝 0) := by
  filter_upwards [h.sd_tendsto] with ω hω
  have hs : Tendsto (fun n : ℕ => Real.sqrt n) atTop atTop := Real.tendsto_sqrt_atTop.comp tendsto_natCast_atTop_atTop
  simpa only [observedN_stdErr] using hω.div_atTop hs

theorem DataStream.tEB_small (h : DataStream P X m) {c : ℝ} (h0 : 0 < c) (h1 : c < 1) :
    ∀ᵐ ω ∂P, ∀ ε > 0, ∀ᶠ n in atTop, ∃ e : ℝ, tEB studentT (finVec (observedN X n ω)) (.fin c) = .ok (.fin e) ∧ 0 ≤ e ∧ e < ε := by
  obtain ⟨x, hx, hq⟩ := student_quantile_bounded h0 h1
  filter_upwards [h.stdErr_tendsto] with ω hω ε hε
  have hlim : Tendsto (fun n => x * stdErr (observedN X n ω)) atTop (𝓝 0) := by simpa using hω.const_mul x
  filter_upwards [hq, hlim.eventually (gt_mem_nhds hε), eventually_ge_atTop 2] with n hn hs h2
  obtain ⟨e, he, hpos, hev, -⟩ := C45_t_EB studentT (xs := observedN X n ω) (by rw [observedN_length]; omega)
    (by rw [observedN_length]; exact studentT_isSymmetric (by omega)) h0 h1
  refine ⟨e, he, hpos, lt_of_le_of_lt ?_ hs⟩
  rw [hev, observedN_length]
  exact mul_le_mul_of_nonneg_right hn (stdErr_nonneg _)

theorem DataStream.tTest_small (h : DataStream P X m) (hm : m ≠ 0) :
    ∀ᵐ ω ∂P, ∀ ε > 0, ∀ᶠ n in atTop, ∃ p : ℝ, tTest studentT (finVec (observedN X n ω)) = .ok (.fin p) ∧ 0 ≤ p ∧ p < ε := by
  filter_upwards [h.stdErr_tendsto, h.avg_tendsto, h.sd_tendsto] with ω hse havg hsd ε hε
  obtain ⟨x, hx, hlt⟩ := normalWithin_exists_gt (y := 1 - ε) (by linarith)
  have hσ : 0 < Real.sqrt Var[X 0; P] := Real.sqrt_pos.2 h.var_pos
  have hlim : Tendsto (fun n => |avg (observedN X n ω)| - x * stdErr (observedN X n ω)) atTop (𝓝 |m|) := by
    simpa using havg.abs.sub (hse.const_mul x)
  filter_upwards [(studentT_tendsto hx).eventually (lt_mem_nhds hlt), hlim.eventually (lt_mem_nhds (abs_pos.2 hm)),
    hsd.eventually (lt_mem_nhds hσ), eventually_ge_atTop 2] with n hn hbig hpos h2
  have hs : 0 < stdErr (observedN X n ω) := by
    rw [observedN_stdErr]
    have : (0 : ℝ) < n := by exact_mod_cast (by omega : 0 < n)
    positivity
  have hsym := studentT_isSymmetric (ν := n - 1) (by omega)
  obtain ⟨p, hp, hp0, -, hpv, -⟩ := C45_t_test studentT (xs := observedN X n ω) (by rw [observedN_length]; omega)
    (by rw [observedN_length]; exact hsym)
  refine ⟨p, hp, hp0, ?_⟩
  rw [(hpv (by
    by_contra hc
    push Not at hc
    exact hs.ne' ((stdErr_eq_zero (by rw [observedN_length]; omega)).2 hc))).1, observedN_length]
  have hle : x ≤ |avg (observedN X n ω)| / stdErr (observedN X n ω) := by
    rw [le_div_iff₀ hs]; linarith
  have := hsym.strictMono.monotone hle
  linarith

/-! ### Bernstein -/

theorem DataStream.bernWidth_tendsto (h : DataStream P X m) (R x : ℝ) :
    ∀ᵐ ω ∂P, Tendsto (fun n => bernWidth (observedN X n ω) R x) atTop (𝓝 0) := by
  filter_upwards [h.sampleVar_tendsto] with ω hω
  have hinv : Tendsto (fun n : ℕ => ((n : ℝ))⁻¹) atTop (𝓝 0) := tendsto_inv_atTop_nhds_zero_nat
  have hr : Tendsto (fun n : ℕ => ((n : ℝ) - 1) * (n : ℝ)⁻¹) atTop (𝓝 1) := by
    have : Tendsto (fun n : ℕ => 1 - (n : ℝ)⁻¹) atTop (𝓝 (1 - 0)) := hinv.const_sub 1
    rw [sub_zero] at this
    refine this.congr' ?_
    filter_upwards [eventually_ge_atTop 1] with n hn
    have : (n : ℝ) ≠ 0 := by exact_mod_cast (by omega : n ≠ 0)
    field_simp
  have hv : Tendsto (fun n : ℕ => sqDev (observedN X n ω) / n) atTop (𝓝 (Var[X 0; P] * 1)) := by
    refine (hω.mul hr).congr' ?_
    filter_upwards [eventually_ge_atTop 2] with n hn
    have h1 : (n : ℝ) ≠ 0 := by exact_mod_cast (by omega : n ≠ 0)
    have h2 : (n : ℝ) - 1 ≠ 0 := by
      have : (1 : ℝ) < n := by exact_mod_cast (by omega : 1 < n)
      linarith
    field_simp
  have h2 : Tendsto (fun n : ℕ => Real.sqrt (2 * x / n)) atTop (𝓝 0) := by
    have : Tendsto (fun n : ℕ => 2 * x / (n : ℝ)) atTop (𝓝 0) := tendsto_const_div_atTop_nhds_zero_nat _
    have h0 := (Real.continuous_sqrt.tendsto 0).comp this
    rw [Real.sqrt_zero] at h0
    exact h0
  have h3 : Tendsto (fun n : ℕ => 3 * x * R / (n : ℝ)) atTop (𝓝 0) := tendsto_const_div_atTop_nhds_zero_nat _
  have h4 := (((Real.continuous_sqrt.tendsto _).comp hv).mul h2).add h3
  rw [mul_zero, add_zero] at h4
  refine h4.congr fun n => ?_
  unfold bernWidth
  rw [observedN_length]
  rfl

theorem observedN_mem {l u : ℝ} (hb : ∀ i ω, l ≤ X i ω ∧ X i ω ≤ u) (n : ℕ) (ω : Ω) : ∀ x ∈ observedN X n ω, l ≤ x ∧ x ≤ u :=
  observed_within (fun i ω => hb i ω) ω

theorem DataStream.bernEB_small (h : DataStream P X m) {l u : ℝ} (hb : ∀ i ω, l ≤ X i ω ∧ X i ω ≤ u) {c : ℝ} (h0 : 0 < c)
    (h1 : c < 1) : ∀ᵐ ω ∂P, ∀ ε > 0, ∀ᶠ n in atTop, ∃ e : ℝ,
      bernsteinEB (finVec (observedN X n ω)) (.fin l) (.fin u) (.fin c) = .ok (.fin e) ∧ 0 ≤ e ∧ e < ε := by
  filter_upwards [h.bernWidth_tendsto (u - l) (Real.log (3 / (1 - c)))] with ω hω ε hε
  filter_upwards [hω.eventually (gt_mem_nhds hε), eventually_ge_atTop 2] with n hn h2
  have := C47_bernstein_EB (xs := observedN X n ω) (by rw [observedN_length]; omega) ((hb 0 ω).1.trans (hb 0 ω).2)
    (observedN_mem hb n ω) h0 h1
  exact ⟨_, this.1, this.2.1, hn⟩

theorem DataStream.lt_limits (h : DataStream P X m) {l u : ℝ} (hb : ∀ i ω, l ≤ X i ω ∧ X i ω ≤ u) : l < u := by
  obtain ⟨ω⟩ : Nonempty Ω := nonempty_of_isProbabilityMeasure P
  refine lt_of_le_of_ne ((hb 0 ω).1.trans (hb 0 ω).2) fun he => h.spread ?_
  have hc : ∀ ω, X 0 ω = l := fun ω => le_antisymm (he ▸ (hb 0 ω).2) (hb 0 ω).1
  have hm : l = m := by rw [← h.mean]; simp [hc]
  simp [hc, hm]

theorem DataStream.bernTest_small (h : DataStream P X m) (hm : m ≠ 0) {l u : ℝ} (hb : ∀ i ω, l ≤ X i ω ∧ X i ω ≤ u) :
    ∀ᵐ ω ∂P, ∀ ε > 0, ∀ᶠ n in atTop, ∃ p : ℝ,
      bernsteinTest (finVec (observedN X n ω)) (.fin l) (.fin u) = .ok (.fin p) ∧ 0 ≤ p ∧ p < ε := by
  have hall : ∀ᵐ ω ∂P, ∀ k : ℕ, Tendsto (fun n => bernWidth (observedN X n ω) (u - l) (Real.log (3 * ((k : ℝ) + 2)))) atTop (𝓝 0) :=
    ae_all_iff.2 fun k => h.bernWidth_tendsto (u - l) _
  filter_upwards [hall, h.avg_tendsto] with ω hω havg ε hε
  obtain ⟨k, hk⟩ := exists_nat_gt (1 / ε)
  have hk0 : (0 : ℝ) < (k : ℝ) + 2 := by positivity
  have hc1 : 1 - (1 - 1 / ((k : ℝ) + 2)) = 1 / ((k : ℝ) + 2) := by ring
  have hc0 : (0 : ℝ) < 1 - 1 / ((k : ℝ) + 2) := by
    rw [sub_pos, div_lt_one hk0]
    have : (0 : ℝ) ≤ k := by positivity
    linarith
  filter_upwards [(hω k).eventually_lt havg.abs (abs_pos.2 hm), eventually_ge_atTop 2] with n hn h2
  have hlen : 2 ≤ (observedN X n ω).length := by rw [observedN_length]; omega
  have hlu := h.lt_limits hb
  have hc2 : 1 - 1 / ((k : ℝ) + 2) < 1 := by
    have : 0 < 1 / ((k : ℝ) + 2) := by positivity
    linarith
  obtain ⟨p, e, hp, he, hp0, -, -, hiff⟩ := C46_agree hlen hlu (observedN_mem hb n ω) hc0 hc2
  have he2 := (C47_bernstein_EB hlen hlu.le (observedN_mem hb n ω) hc0 hc2).1
  rw [he] at he2
  rw [hc1] at he2 hiff
  have hee : e = bernWidth (observedN X n ω) (u - l) (Real.log (3 * ((k : ℝ) + 2))) := by
    injection he2 with he2
    injection he2 with he2
    rw [he2]
    congr 2
    field_simp
  refine ⟨p, hp, hp0.le, lt_of_le_of_lt (hiff.2 (by rw [hee]; exact hn.le)) ?_⟩
  rw [div_lt_iff₀ hk0]
  rw [div_lt_iff₀ hε] at hk
  nlinarith

/-! ### The functions with a choice of method -/

/-- The sequence is eventually a number that is not negative and smaller than any bound. -/
def Vanishes (v : ℕ → Flt ℝ) : Prop := ∀ ε > 0, ∀ᶠ n in atTop, ∃ r : ℝ, v n = .fin r ∧ 0 ≤ r ∧ r < ε

/-- The methods whose error bars vanish: `'t'` with any limits and `'bernstein'` with finite limits. -/
def Shrinking (method : EBMethod) (lower upper : Flt ℝ) : Prop :=
  method = .t ∨ method = .bernstein ∧ ∃ l u : ℝ, lower = .fin l ∧ upper = .fin u

theorem getMeanEB_of_rawEB {xs : List ℝ} (hne : xs ≠ []) {lower upper : Flt ℝ} (hv : ValidLimits lower upper)
    (hw : Within lower upper xs) {T : Nat → RefDist} {c : Flt ℝ} {method : EBMethod} {counts : List (List Nat)} {e0 : ℝ}
    (hpos : 0 ≤ e0) (he0 : (method = .t ∧ tEB T (finVec xs) c = .ok (.fin e0)) ∨
      (method = .bernstein ∧ bernsteinEB (finVec xs) lower upper c = .ok (.fin e0))) :
    ∃ e : ℝ, getMeanEB T (finVec xs) c (.fin 0) lower upper method counts = .ok (.fin (avg xs), .fin e) ∧ 0 ≤ e ∧ e ≤ e0 := by
  obtain ⟨ha1, ha2⟩ := avg_mem hne hw
  have hb2 : Flt.fin (2 * 0) ≤ upper.sub lower := by
    rw [mul_zero]
    exact (Flt.le_iff.1 ((range_ok_iff lower upper).2 hv)).2
  obtain ⟨e, he, -, hcl, -⟩ := C44_clip (EB := .fin e0) hv le_rfl ha1 ha2 hb2
  obtain ⟨c1, c2, -, c4, -, -, c7⟩ := hcl (by simp)
  have c4 := c4 (by simpa using hpos)
  have : ∃ r : ℝ, e = .fin r := by
    cases e with
    | fin r => exact ⟨r, rfl⟩
    | nan => exact absurd rfl c1
    | pinf => simp at c4
    | ninf => simp at c2
  obtain ⟨r, rfl⟩ := this
  refine ⟨r, ?_, by simpa using c2, by simpa using c4⟩
  unfold getMeanEB
  rw [pyAssert_bind, if_pos ((within_finVec hv.2.1 xs).2 hw)]
  rcases he0 with ⟨rfl, he0⟩ | ⟨rfl, he0⟩ <;>
  · dsimp only
    rw [he0, ok_bind, mean_finVec hne, clipChk_id (by simp) hv.1 hv.2.1 ha1 ha2, ok_bind, he]
    rfl

theorem fin_bounds {l u : ℝ} (hw : ∀ i ω, Flt.fin l ≤ .fin (X i ω) ∧ Flt.fin (X i ω) ≤ .fin u) :
    ∀ i ω, l ≤ X i ω ∧ X i ω ≤ u := fun i ω => by simpa using hw i ω

/-- **C132, `get_mean_and_EB`.**  For data that are independent and have the same distribution with finite variance, almost
surely the mean converges to the expected value and the error bar to 0, with method `'t'` and any limits, or `'bernstein'`
and finite limits. -/
theorem C132_mean_and_EB (h : DataStream P X m) {lower upper : Flt ℝ} (hv : ValidLimits lower upper)
    (hw : ∀ i ω, lower ≤ .fin (X i ω) ∧ .fin (X i ω) ≤ upper) {method : EBMethod} (hm : Shrinking method lower upper)
    {c : ℝ} (h0 : 0 < c) (h1 : c < 1) (counts : ℕ → Ω → List (List Nat)) :
    ∀ᵐ ω ∂P, ∀ ε > 0, ∀ᶠ n in atTop, ∃ mu e : ℝ,
      getMeanEB studentT (finVec (observedN X n ω)) (.fin c) (.fin 0) lower upper method (counts n ω) = .ok (.fin mu, .fin e) ∧
      |mu - m| < ε ∧ 0 ≤ e ∧ e < ε := by
  have hraw : ∀ᵐ ω ∂P, ∀ ε > 0, ∀ᶠ n in atTop, ∃ e : ℝ,
      ((method = .t ∧ tEB studentT (finVec (observedN X n ω)) (.fin c) = .ok (.fin e)) ∨
      (method = .bernstein ∧ bernsteinEB (finVec (observedN X n ω)) lower upper (.fin c) = .ok (.fin e))) ∧ 0 ≤ e ∧ e < ε := by
    rcases hm with rfl | ⟨rfl, l, u, rfl, rfl⟩
    · filter_upwards [h.tEB_small h0 h1] with ω hω ε hε
      filter_upwards [hω ε hε] with n ⟨e, he, hr⟩
      exact ⟨e, .inl ⟨rfl, he⟩, hr⟩
    · filter_upwards [h.bernEB_small (fin_bounds hw) h0 h1] with ω hω ε hε
      filter_upwards [hω ε hε] with n ⟨e, he, hr⟩
      exact ⟨e, .inr ⟨rfl, he⟩, hr⟩
  filter_upwards [hraw, h.avg_tendsto] with ω hω havg ε hε
  filter_upwards [hω ε hε, Metric.tendsto_nhds.1 havg ε hε, eventually_ge_atTop 1] with n ⟨e0, he0, hpos, hlt⟩ hav hn
  obtain ⟨e, he, he1, he2⟩ := getMeanEB_of_rawEB (counts := counts n ω) (observedN_ne_nil hn X ω) hv (observedN_within hw n ω) hpos he0
  exact ⟨_, e, he, by simpa [Real.dist_eq] using hav, he1, he2.trans_lt hlt⟩

/-- **C132, `get_test`.**  If the expected value is not 0, almost surely the p-value converges to 0. -/
theorem C132_test (h : DataStream P X m) (hm0 : m ≠ 0) {lower upper : Flt ℝ}
    (hw : ∀ i ω, lower ≤ .fin (X i ω) ∧ .fin (X i ω) ≤ upper) {method : EBMethod} (hm : Shrinking method lower upper)
    (counts : ℕ → Ω → List (List Nat)) :
    ∀ᵐ ω ∂P, ∀ ε > 0, ∀ᶠ n in atTop, ∃ p : ℝ,
      getTest studentT (finVec (observedN X n ω)) lower upper method (counts n ω) = .ok (.fin p) ∧ 0 ≤ p ∧ p < ε := by
  rcases hm with rfl | ⟨rfl, l, u, rfl, rfl⟩
  · exact h.tTest_small hm0
  · exact h.bernTest_small hm0 (fin_bounds hw)

/-! ### The table -/

variable {tbl : ℕ → Ω → LossTable} {metric method refMethod : Str} {limits : List (Str × (Flt ℝ × Flt ℝ))}
  {lower upper : Flt ℝ} {Y : ℕ → Ω → ℝ}

theorem Shrinking.diff {M : EBMethod} (h : Shrinking M lower upper) :
    Shrinking M (upper.sub lower).neg (upper.sub lower) := by
  rcases h with rfl | ⟨rfl, l, u, rfl, rfl⟩
  · exact .inl rfl
  · exact .inr ⟨rfl, -(u - l), u - l, by simp [Flt.sub, Flt.add, Flt.neg, sub_eq_add_neg], by simp [Flt.sub, Flt.add, Flt.neg, sub_eq_add_neg]⟩

/-- **C132, the loss table.**  As rows are added, almost surely the mean in the table converges to the expected loss of the
method, its error bar to 0, and, if the expected loss differs from that of the reference, its p-value to 0; so a truly
different method is eventually reported as significant at any level. -/
theorem C132_table (h : GrowingTable tbl metric method refMethod limits lower upper X Y) (hne : method ≠ refMethod)
    (hX : DataStream P X m) {δ : ℝ} (hD : DataStream P (fun i ω => X i ω - Y i ω) δ) {M : EBMethod}
    (hM : Shrinking M lower upper) (pairwise : Bool) {c : ℝ} (h0 : 0 < c) (h1 : c < 1)
    {draws : ℕ → Ω → Str → Str → Draws} {out : ℕ → Ω → List (List (Flt ℝ × Flt ℝ × Flt ℝ))}
    (ho : ∀ n ω, 2 ≤ n → lossSummaryTable studentT (tbl n ω) refMethod pairwise (.fin c) M limits (draws n ω) = .ok (out n ω))
    {cell : ℕ → Ω → Flt ℝ × Flt ℝ × Flt ℝ}
    (hc : ∀ n ω, 2 ≤ n → SummaryCell (tbl n ω) (out n ω) metric method (cell n ω)) :
    ∀ᵐ ω ∂P, (∀ ε > 0, ∀ᶠ n in atTop, ∃ mu : ℝ, (cell n ω).1 = .fin mu ∧ |mu - m| < ε) ∧
      Vanishes (fun n => (cell n ω).2.1) ∧ (δ ≠ 0 → Vanishes (fun n => (cell n ω).2.2)) := by
  have hEB : ∀ᵐ ω ∂P, Vanishes (fun n => (cell n ω).2.1) := by
    cases pairwise with
    | true =>
      filter_upwards [C132_mean_and_EB hD (diff_limits h.valid) h.boundD hM.diff h0 h1
        fun n ω => (draws n ω metric method).eb] with ω hω ε hε
      filter_upwards [hω ε hε, eventually_ge_atTop 2] with n ⟨mu, e, he, _, hr⟩ hn
      obtain ⟨m', h3⟩ := (h.cell (by omega) (ho n ω hn) (hc n ω hn)).2.1 rfl hne
      have h4 := ((C49_agree studentT _ _ _ _ _ _ _ m' (cell n ω).2.1 (cell n ω).2.2).1 h3).1
      rw [he] at h4
      injection h4 with h4
      injection h4 with h41 h42
      exact ⟨e, h42.symm, hr⟩
    | false =>
      filter_upwards [C132_mean_and_EB hX h.valid h.boundX hM h0 h1
        fun n ω => (draws n ω metric method).eb] with ω hω ε hε
      filter_upwards [hω ε hε, eventually_ge_atTop 2] with n ⟨mu, e, he, _, hr⟩ hn
      have h4 := ((h.cell (by omega) (ho n ω hn) (hc n ω hn)).2.2 rfl).1
      rw [he] at h4
      injection h4 with h4
      injection h4 with h41 h42
      exact ⟨e, h42.symm, hr⟩
  have hp : ∀ᵐ ω ∂P, δ ≠ 0 → Vanishes (fun n => (cell n ω).2.2) := by
    by_cases hδ : δ = 0
    · simp [hδ]
    cases pairwise with
    | true =>
      filter_upwards [C132_test hD hδ h.boundD hM.diff fun n ω => (draws n ω metric method).eb] with ω hω _ ε hε
      filter_upwards [hω ε hε, eventually_ge_atTop 2] with n ⟨p, hp, hr⟩ hn
      obtain ⟨m', h3⟩ := (h.cell (by omega) (ho n ω hn) (hc n ω hn)).2.1 rfl hne
      have h4 := ((C49_agree studentT _ _ _ _ _ _ _ m' (cell n ω).2.1 (cell n ω).2.2).1 h3).2
      rw [hp] at h4
      injection h4 with h4
      exact ⟨p, h4.symm, hr⟩
    | false =>
      filter_upwards [C132_test hD hδ h.boundD hM.diff fun n ω => (draws n ω metric method).test] with ω hω _ ε hε
      filter_upwards [hω ε hε, eventually_ge_atTop 2] with n ⟨p, hp, hr⟩ hn
      have h4 := ((h.cell (by omega) (ho n ω hn) (hc n ω hn)).2.2 rfl).2 hne
      rw [hp] at h4
      injection h4 with h4
      exact ⟨p, h4.symm, hr⟩
  filter_upwards [hEB, hp, hX.avg_tendsto] with ω hω1 hω2 havg
  refine ⟨fun ε hε => ?_, hω1, hω2⟩
  filter_upwards [Metric.tendsto_nhds.1 havg ε hε, eventually_ge_atTop 2] with n hav hn
  exact ⟨_, (h.cell (by omega) (ho n ω hn) (hc n ω hn)).1, by simpa [Real.dist_eq] using hav⟩

end

/-! ### Examples -/

/-- C132 for the zero-one losses of guesses: with either method the error bar vanishes around 1/2. -/
example (counts : ℕ → (ℕ → Bool) → List (List Nat)) (M : EBMethod) (hM : M = .t ∨ M = .bernstein) :
    ∀ᵐ ω ∂(Measure.infinitePi fun _ : ℕ => penny), ∀ ε > 0, ∀ᶠ n in atTop, ∃ mu e : ℝ,
      getMeanEB studentT (finVec (observedN (fun i ω => coinLoss (ω i)) n ω)) (.fin (19 / 20)) (.fin 0) (.fin 0) (.fin 1) M
        (counts n ω) = .ok (.fin mu, .fin e) ∧ |mu - 1 / 2| < ε ∧ 0 ≤ e ∧ e < ε := by
  refine C132_mean_and_EB coin_stream (by simp [ValidLimits]) (fun i ω => ?_) ?_ (by norm_num) (by norm_num) counts
  · unfold coinLoss; split <;> simp
  · rcases hM with rfl | rfl
    · exact .inl rfl
    · exact .inr ⟨rfl, 0, 1, rfl, rfl⟩

/-- And they are eventually seen to be wrong at all. -/
example (counts : ℕ → (ℕ → Bool) → List (List Nat)) :
    ∀ᵐ ω ∂(Measure.infinitePi fun _ : ℕ => penny), ∀ ε > 0, ∀ᶠ n in atTop, ∃ p : ℝ,
      getTest studentT (finVec (observedN (fun i ω => coinLoss (ω i)) n ω)) (.fin 0) (.fin 1) .bernstein (counts n ω) =
        .ok (.fin p) ∧ 0 ≤ p ∧ p < ε := by
  refine C132_test coin_stream (by norm_num) (fun i ω => ?_) (.inr ⟨rfl, 0, 1, rfl, rfl⟩) counts
  unfold coinLoss; split <;> simp

/-- C132 on the growing table of guesses against a reference that always guesses right. -/
example : ∃ cell : ℕ → (ℕ → Bool) → Flt ℝ × Flt ℝ × Flt ℝ,
    (∀ n ω, 2 ≤ n → ∃ cellRef, lossSummaryTable studentT (guessTable n ω) "A".toList true (.fin (19 / 20)) .bernstein
      [("L".toList, (.fin 0, .fin 1))] (fun _ _ => ⟨[], []⟩) = .ok [[cellRef, cell n ω]]) ∧
    ∀ᵐ ω ∂(Measure.infinitePi fun _ : ℕ => penny),
      (∀ ε > 0, ∀ᶠ n in atTop, ∃ mu : ℝ, (cell n ω).1 = .fin mu ∧ |mu - 1 / 2| < ε) ∧
      Vanishes (fun n => (cell n ω).2.1) ∧ ((1 / 2 : ℝ) ≠ 0 → Vanishes (fun n => (cell n ω).2.2)) := by
  obtain ⟨a, b, hab⟩ := pairTable_out (X := fun i (ω : ℕ → Bool) => coinLoss (ω i)) (Y := fun _ _ => 0)
    (fun i ω => coinLoss_bounds _) (by simp) zero_lt_one true .bernstein (by simp)
  refine ⟨b, fun n ω hn => ⟨a n ω, (hab n ω hn).1⟩, ?_⟩
  exact C132_table (pairTable_growing (fun i ω => coinLoss_bounds _) (by simp) zero_lt_one) (by decide) coin_stream (by simpa using coin_stream)
    (.inr ⟨rfl, 0, 1, rfl, rfl⟩) true (by norm_num) (by norm_num) (fun n ω hn => (hab n ω hn).1) (fun n ω hn => (hab n ω hn).2.2)

end Mlp.Props
