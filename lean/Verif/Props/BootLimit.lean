import Verif.Props.LargeSample
import Verif.Props.BootMoments
import Verif.Spec.IdealBoot
import Mathlib.Probability.Moments.SubGaussian

/-! # C140: more bootstrap replicates -/

set_option linter.unusedSectionVars false

namespace Mlp.Props
open Mlp Mlp.Paper Mlp.Spec Mlp.Lemmas Mlp.Boot MeasureTheory ProbabilityTheory Set Filter
open scoped NNReal ENNReal Topology

/-! ### Counting -/

theorem countP_finVec (p : Flt ℝ → Bool) (zs : List ℝ) : (finVec zs).countP p = zs.countP fun z => p (.fin z) := by
  unfold finVec
  rw [List.countP_map]
  rfl

/-- The p-value of finitely many replicates. -/
theorem significance_share {zs : List ℝ} (hne : zs ≠ []) (r : ℝ) :
    significance (finVec zs) (.scalar (.fin r)) =
      .ok (.fin (min 1 (2 * min ((zs.countP fun z => decide (z ≤ r)) / (zs.length : ℝ)) ((zs.countP fun z => decide (r ≤ z)) / (zs.length : ℝ))))) := by
  obtain ⟨p, hp, -, -, e⟩ := C41_scalar (K := ℝ) (boot := finVec zs) (by simpa [finVec] using hne) (by simp [NoNaN, finVec]) (r := .fin r) (by simp)
  rw [hp, e, countP_finVec, countP_finVec]
  have hl : (finVec zs).length = zs.length := by simp [finVec]
  have hn : (0 : ℝ) < zs.length := by exact_mod_cast List.length_pos_iff.2 hne
  rw [hl, ← min_div_div_right hn.le]
  simp

/-- The interval of finitely many replicates: how many lie on either side of its ends. -/
theorem percentile_share {zs : List ℝ} (hne : zs ≠ []) {c : ℝ} (h0 : 0 < c) (h1 : c < 1) :
    ∃ l u : ℝ, percentile (finVec zs) (.fin c) = .ok (.fin l, .fin u) ∧ ∀ a,
      (l < a → (1 - c) / 2 * ((zs.length : ℝ) - 1) < (zs.countP fun z => decide (z < a) : ℕ)) ∧
      (a < l → ((zs.countP fun z => decide (z ≤ a) : ℕ) : ℝ) ≤ (1 - c) / 2 * ((zs.length : ℝ) - 1)) ∧
      (u < a → ((zs.countP fun z => decide (a ≤ z) : ℕ) : ℝ) ≤ (1 - c) / 2 * ((zs.length : ℝ) - 1)) ∧
      (a < u → (1 - c) / 2 * ((zs.length : ℝ) - 1) < (zs.countP fun z => decide (a < z) : ℕ)) := by
  have hne' : finVec zs ≠ [] := by simpa [finVec] using hne
  have hl : (finVec zs).length = zs.length := by simp [finVec]
  obtain ⟨LB, UB, hok, m1, m2, -, ⟨k, hk, hkn, s1, s2⟩, -⟩ := C38_percentile (K := ℝ) (boot := finVec zs) hne' (by simp [NoNaN, finVec]) h0 h1
  obtain ⟨l, -, rfl⟩ := List.mem_map.1 m1
  obtain ⟨u, -, rfl⟩ := List.mem_map.1 m2
  rw [hl] at hk hkn s2
  obtain ⟨-, a1, a2⟩ := s1
  obtain ⟨-, b1, b2⟩ := s2
  rw [countP_finVec] at a1 a2 b1 b2
  simp only [Flt.fin_lt_fin, Flt.fin_le_fin] at a1 a2 b1 b2
  set A := (1 - c) / 2 * ((zs.length : ℝ) - 1) with hA
  have k1 : (k : ℝ) ≤ A := by
    have := Int.floor_le A
    rw [← hk] at this
    exact_mod_cast this
  have k2 : A < k + 1 := by
    have := Int.lt_floor_add_one A
    rw [← hk] at this
    exact_mod_cast this
  have compl : ∀ (p : ℝ → Bool), zs.countP p + (zs.countP fun z => !p z) = zs.length := fun p => by
    have := List.length_eq_countP_add_countP p (l := zs)
    simp only [Bool.not_eq_true] at this
    rw [this]
    congr 2
    funext z
    cases p z <;> rfl
  have c1 := compl fun z => decide (z ≤ u)
  have c2 := compl fun z => decide (z < u)
  refine ⟨l, u, hok, fun a => ⟨fun h => ?_, fun h => ?_, fun h => ?_, fun h => ?_⟩⟩
  · have m : (zs.countP fun z => decide (z ≤ l)) ≤ zs.countP fun z => decide (z < a) :=
      List.countP_mono_left fun z _ hz => by simp only [decide_eq_true_eq] at hz ⊢; exact hz.trans_lt h
    have : ((k + 1 : ℕ) : ℝ) ≤ (zs.countP fun z => decide (z < a) : ℕ) := by exact_mod_cast (by omega)
    push_cast at this
    linarith
  · have m : (zs.countP fun z => decide (z ≤ a)) ≤ zs.countP fun z => decide (z < l) :=
      List.countP_mono_left fun z _ hz => by simp only [decide_eq_true_eq] at hz ⊢; exact hz.trans_lt h
    have : ((zs.countP fun z => decide (z ≤ a) : ℕ) : ℝ) ≤ (k : ℕ) := by exact_mod_cast (m.trans a1)
    linarith
  · have m : (zs.countP fun z => decide (a ≤ z)) ≤ zs.countP fun z => !decide (z ≤ u) :=
      List.countP_mono_left fun z _ hz => by
        simp only [decide_eq_true_eq, Bool.not_eq_true', decide_eq_false_iff_not, not_le] at hz ⊢
        exact h.trans_le hz
    have : ((zs.countP fun z => decide (a ≤ z) : ℕ) : ℝ) ≤ (k : ℕ) := by exact_mod_cast (by omega)
    linarith
  · have m : (zs.countP fun z => !decide (z < u)) ≤ zs.countP fun z => decide (a < z) :=
      List.countP_mono_left fun z _ hz => by
        simp only [decide_eq_true_eq, Bool.not_eq_true', decide_eq_false_iff_not, not_lt] at hz ⊢
        exact h.trans_le hz
    have : ((k + 1 : ℕ) : ℝ) ≤ (zs.countP fun z => decide (a < z) : ℕ) := by exact_mod_cast (by omega)
    push_cast at this
    linarith

/-! ### The law of large numbers and Hoeffding's inequality for shares -/

section
variable {Ω : Type} [MeasurableSpace Ω] {P : Measure Ω} [IsProbabilityMeasure P] {Z : ℕ → Ω → ℝ}

theorem observedN_count (Z : ℕ → Ω → ℝ) (n : ℕ) (ω : Ω) (p : ℝ → Prop) [DecidablePred p] :
    (((observedN Z n ω).countP fun z => decide (p z) : ℕ) : ℝ) = ∑ i ∈ Finset.range n, ({z | p z} : Set ℝ).indicator 1 (Z i ω) := by
  have e : observedN Z n ω = (List.range n).map fun i => Z i ω := by
    unfold observedN observed
    rw [List.ofFn_eq_map, ← List.map_coe_finRange_eq_range, List.map_map]
    rfl
  rw [e]
  induction n with
  | zero => simp
  | succ n ih =>
    rw [List.range_succ, List.map_append, List.countP_append, Finset.sum_range_succ, Nat.cast_add]
    have h0 : observedN Z n ω = (List.range n).map fun i => Z i ω := by
      unfold observedN observed
      rw [List.ofFn_eq_map, ← List.map_coe_finRange_eq_range, List.map_map]
      rfl
    rw [ih h0]
    by_cases hp : p (Z n ω) <;> simp [hp, indicator]

theorem replicates_prob (h : Replicates P Z) (i : ℕ) {S : Set ℝ} (hS : MeasurableSet S) :
    ∫ ω, S.indicator 1 (Z i ω) ∂P = P.real {ω | Z 0 ω ∈ S} := by
  have e : (fun ω => S.indicator (1 : ℝ → ℝ) (Z i ω)) = ((Z i) ⁻¹' S).indicator 1 := by
    funext ω
    rfl
  rw [e, integral_indicator_one (h.meas i hS)]
  have := congrArg (fun μ => μ.real S) (h.same i)
  simp only [map_measureReal_apply (h.meas _) hS] at this
  exact this

/-- Shares converge to probabilities. -/
theorem replicates_share_tendsto (h : Replicates P Z) {p : ℝ → Prop} [DecidablePred p] (hS : MeasurableSet {z | p z}) :
    ∀ᵐ ω ∂P, Tendsto (fun n : ℕ => ((observedN Z n ω).countP fun z => decide (p z) : ℕ) / (n : ℝ)) atTop (𝓝 (P.real {ω | p (Z 0 ω)})) := by
  have hm : Measurable (({z | p z} : Set ℝ).indicator (1 : ℝ → ℝ)) := measurable_one.indicator hS
  have hs := strong_law_ae_real (μ := P) (fun i ω => ({z | p z} : Set ℝ).indicator (1 : ℝ → ℝ) (Z i ω))
    (Integrable.of_mem_Icc 0 1 (hm.comp (h.meas 0)).aemeasurable (ae_of_all _ fun ω => by
      simp only [indicator, mem_ofPred_eq, Pi.one_apply]
      split_ifs <;> simp))
    (fun i j hij => (h.indep.comp (fun _ => ({z | p z} : Set ℝ).indicator (1 : ℝ → ℝ)) fun _ => hm).indepFun hij)
    fun i => (⟨(h.meas i).aemeasurable, (h.meas 0).aemeasurable, h.same i⟩ : IdentDistrib (Z i) (Z 0) P P).comp hm
  rw [replicates_prob h 0 hS] at hs
  simp only [observedN_count]
  exact hs

/-- A share exceeds its probability by `δ` with probability at most `exp (-2 n δ²)`. -/
theorem replicates_share_high (h : Replicates P Z) {p : ℝ → Prop} [DecidablePred p] (hS : MeasurableSet {z | p z}) {n : ℕ} (hn : 0 < n) {δ : ℝ}
    (hδ : 0 ≤ δ) :
    P.real {ω | P.real {ω | p (Z 0 ω)} + δ ≤ ((observedN Z n ω).countP fun z => decide (p z) : ℕ) / (n : ℝ)} ≤ Real.exp (-2 * n * δ ^ 2) := by
  have hn' : (0 : ℝ) < n := by exact_mod_cast hn
  have hm : Measurable (({z | p z} : Set ℝ).indicator (1 : ℝ → ℝ)) := measurable_one.indicator hS
  set q := P.real {ω | p (Z 0 ω)} with hq
  have hind : iIndepFun (fun i ω => ({z | p z} : Set ℝ).indicator (1 : ℝ → ℝ) (Z i ω) - q) P :=
    h.indep.comp (fun _ z => ({z | p z} : Set ℝ).indicator (1 : ℝ → ℝ) z - q) fun _ => hm.sub_const q
  have hsub : ∀ i < n, HasSubgaussianMGF (fun ω => ({z | p z} : Set ℝ).indicator (1 : ℝ → ℝ) (Z i ω) - q) ((‖(1 : ℝ) - 0‖₊ / 2) ^ 2) P := by
    intro i _
    have := hasSubgaussianMGF_of_mem_Icc (μ := P) (X := fun ω => ({z | p z} : Set ℝ).indicator (1 : ℝ → ℝ) (Z i ω)) (a := 0) (b := 1)
      (hm.comp (h.meas i)).aemeasurable (ae_of_all _ fun ω => by
        simp only [indicator, mem_ofPred_eq, Pi.one_apply]
        split_ifs <;> simp)
    rwa [replicates_prob h i hS] at this
  have key := HasSubgaussianMGF.measure_sum_range_ge_le_of_iIndepFun hind hsub (ε := n * δ) (by positivity)
  have e1 : -(n * δ) ^ 2 / (2 * n * (((‖(1 : ℝ) - 0‖₊ / 2) ^ 2 : ℝ≥0) : ℝ)) = -2 * n * δ ^ 2 := by
    have : (((‖(1 : ℝ) - 0‖₊ / 2) ^ 2 : ℝ≥0) : ℝ) = 1 / 4 := by
      push_cast
      norm_num
    rw [this]
    field_simp
    norm_num
  rw [e1] at key
  refine (measureReal_mono ?_).trans key
  intro ω hω
  simp only [mem_ofPred_eq, observedN_count] at hω ⊢
  rw [le_div_iff₀ hn'] at hω
  rw [Finset.sum_sub_distrib, Finset.sum_const, Finset.card_range, nsmul_eq_mul]
  linarith

/-- A share falls short of its probability by `δ` with probability at most `exp (-2 n δ²)`. -/
theorem replicates_share_low (h : Replicates P Z) {p : ℝ → Prop} [DecidablePred p] (hS : MeasurableSet {z | p z}) {n : ℕ} (hn : 0 < n) {δ : ℝ}
    (hδ : 0 ≤ δ) :
    P.real {ω | ((observedN Z n ω).countP fun z => decide (p z) : ℕ) / (n : ℝ) ≤ P.real {ω | p (Z 0 ω)} - δ} ≤ Real.exp (-2 * n * δ ^ 2) := by
  have hn' : (0 : ℝ) < n := by exact_mod_cast hn
  refine (measureReal_mono ?_).trans (replicates_share_high h (p := fun z => ¬ p z) hS.compl hn hδ)
  intro ω hω
  simp only [mem_ofPred_eq] at hω ⊢
  have e : P.real {ω | ¬ p (Z 0 ω)} = 1 - P.real {ω | p (Z 0 ω)} := by
    have := probReal_compl_eq_one_sub (μ := P) (h.meas 0 hS)
    exact this
  have c : (((observedN Z n ω).countP fun z => decide (¬ p z) : ℕ) : ℝ) = n - ((observedN Z n ω).countP fun z => decide (p z) : ℕ) := by
    have := List.length_eq_countP_add_countP (fun z => decide (p z)) (l := observedN Z n ω)
    rw [observedN_length] at this
    rw [eq_sub_iff_add_eq]
    exact_mod_cast (by
      simp only [decide_eq_true_eq] at this
      omega)
  rw [e, c, sub_div, div_self hn'.ne']
  linarith

/-! ### p-values and intervals -/

/-- **C140, p-values.**  With more and more independent replicates the p-value of `significance` converges to that of their distribution. -/
theorem C140_significance (h : Replicates P Z) (r : ℝ) :
    ∀ᵐ ω ∂P, ∃ p : ℕ → ℝ, (∀ n, 1 ≤ n → significance (finVec (observedN Z n ω)) (.scalar (.fin r)) = .ok (.fin (p n))) ∧
      Tendsto p atTop (𝓝 (idealPValue P (Z 0) r)) := by
  filter_upwards [replicates_share_tendsto h (p := fun z => z ≤ r) measurableSet_Iic, replicates_share_tendsto h (p := fun z => r ≤ z) measurableSet_Ici]
    with ω h1 h2
  refine ⟨_, fun n hn => ?_, tendsto_const_nhds.min ((h1.min h2).const_mul 2)⟩
  have := significance_share (zs := observedN Z n ω) (by rw [← List.length_pos_iff, observedN_length]; exact hn) r
  rwa [observedN_length] at this

/-- **C140, noise of p-values.**  With `n` replicates the p-value is off by more than `2 δ` with probability at most `3 exp (-2 n δ²)`. -/
theorem C140_significance_noise (h : Replicates P Z) {n : ℕ} (hn : 1 ≤ n) (r : ℝ) {δ : ℝ} (hδ : 0 ≤ δ) :
    P.real {ω | ¬ ∃ p : ℝ, significance (finVec (observedN Z n ω)) (.scalar (.fin r)) = .ok (.fin p) ∧ |p - idealPValue P (Z 0) r| ≤ 2 * δ} ≤
      3 * Real.exp (-2 * n * δ ^ 2) := by
  set a := P.real {ω | Z 0 ω ≤ r} with ha
  set b := P.real {ω | r ≤ Z 0 ω} with hb
  have l1 := replicates_share_low h (p := fun z => z ≤ r) measurableSet_Iic hn hδ
  have l2 := replicates_share_low h (p := fun z => r ≤ z) measurableSet_Ici hn hδ
  have u1 := replicates_share_high h (p := fun z => z ≤ r) measurableSet_Iic hn hδ
  have u2 := replicates_share_high h (p := fun z => r ≤ z) measurableSet_Ici hn hδ
  set sa : Ω → ℝ := fun ω => ((observedN Z n ω).countP fun z => decide (z ≤ r) : ℕ) / (n : ℝ) with hsa
  set sb : Ω → ℝ := fun ω => ((observedN Z n ω).countP fun z => decide (r ≤ z) : ℕ) / (n : ℝ) with hsb
  have key : ∃ U : Set Ω, P.real U ≤ Real.exp (-2 * n * δ ^ 2) ∧ ∀ ω, min (a + δ) (b + δ) < min (sa ω) (sb ω) → ω ∈ U := by
    rcases le_total a b with hab | hab
    · refine ⟨_, u1, fun ω hω => ?_⟩
      rw [min_eq_left (by linarith), lt_min_iff] at hω
      exact hω.1.le
    · refine ⟨_, u2, fun ω hω => ?_⟩
      rw [min_eq_right (by linarith), lt_min_iff] at hω
      exact hω.2.le
  obtain ⟨U, hU, hUm⟩ := key
  refine (measureReal_mono (s₂ := U ∪ ({ω | sa ω ≤ a - δ} ∪ {ω | sb ω ≤ b - δ})) ?_ (measure_ne_top _ _)).trans
    ((measureReal_union_le _ _).trans (by linarith [measureReal_union_le (μ := P) {ω | sa ω ≤ a - δ} {ω | sb ω ≤ b - δ}]))
  intro ω hω
  by_contra hcon
  simp only [mem_union, mem_ofPred_eq, not_or, not_le] at hcon
  obtain ⟨c1, c2, c3⟩ := hcon
  have c1' := not_lt.1 fun hh => c1 (hUm ω hh)
  refine hω ?_
  have hs := significance_share (zs := observedN Z n ω) (by rw [← List.length_pos_iff, observedN_length]; exact hn) r
  rw [observedN_length] at hs
  refine ⟨_, hs, ?_⟩
  change |min 1 (2 * min (sa ω) (sb ω)) - min 1 (2 * min a b)| ≤ 2 * δ
  rw [min_add_add_right] at c1'
  have c4 : min a b - δ ≤ min (sa ω) (sb ω) :=
    le_min (by linarith [min_le_left a b]) (by linarith [min_le_right a b])
  rw [abs_le]
  constructor
  · rcases min_choice 1 (2 * min (sa ω) (sb ω)) with e | e <;> rw [e]
    · linarith [min_le_left 1 (2 * min a b)]
    · linarith [min_le_right 1 (2 * min a b)]
  · rcases min_choice 1 (2 * min a b) with e | e <;> rw [e]
    · linarith [min_le_left 1 (2 * min (sa ω) (sb ω))]
    · linarith [min_le_right 1 (2 * min (sa ω) (sb ω))]

/-- **C140, intervals.**  With more and more replicates the ends of the `percentile` interval settle on the quantiles of the distribution of the
replicates: the lower end is eventually at least every `a` with less than `(1 - c) / 2` of the probability below it, and at most every `a` with
more than that at or below it; likewise for the upper end. -/
theorem C140_percentile (h : Replicates P Z) {c : ℝ} (h0 : 0 < c) (h1 : c < 1) (a : ℝ) :
    ∀ᵐ ω ∂P, ∀ᶠ n in atTop, ∃ l u : ℝ, percentile (finVec (observedN Z n ω)) (.fin c) = .ok (.fin l, .fin u) ∧
      (P.real {ω | Z 0 ω < a} < (1 - c) / 2 → a ≤ l) ∧ ((1 - c) / 2 < P.real {ω | Z 0 ω ≤ a} → l ≤ a) ∧
      (P.real {ω | a < Z 0 ω} < (1 - c) / 2 → u ≤ a) ∧ ((1 - c) / 2 < P.real {ω | a ≤ Z 0 ω} → a ≤ u) := by
  have hα : 0 < (1 - c) / 2 := by linarith
  set α := (1 - c) / 2 with hαdef
  have hseq : Tendsto (fun n : ℕ => α * ((n : ℝ) - 1) / n) atTop (𝓝 α) := by
    have e : (fun n : ℕ => α - α / (n : ℝ)) =ᶠ[atTop] fun n : ℕ => α * ((n : ℝ) - 1) / n := by
      filter_upwards [eventually_gt_atTop 0] with n hn
      have : (n : ℝ) ≠ 0 := by positivity
      field_simp
    refine Tendsto.congr' e ?_
    simpa using (tendsto_const_div_atTop_nhds_zero_nat α).const_sub α
  have low : ∀ (s : ℕ → ℝ) (q : ℝ), Tendsto s atTop (𝓝 q) → q < α → ∀ᶠ n : ℕ in atTop, s n < α * ((n : ℝ) - 1) / n :=
    fun s q hs hq => hs.eventually_lt hseq hq
  have high : ∀ (s : ℕ → ℝ) (q : ℝ), Tendsto s atTop (𝓝 q) → α < q → ∀ᶠ n : ℕ in atTop, α * ((n : ℝ) - 1) / n < s n :=
    fun s q hs hq => hseq.eventually_lt hs hq
  filter_upwards [replicates_share_tendsto h (p := fun z => z < a) measurableSet_Iio, replicates_share_tendsto h (p := fun z => z ≤ a) measurableSet_Iic,
    replicates_share_tendsto h (p := fun z => a < z) measurableSet_Ioi, replicates_share_tendsto h (p := fun z => a ≤ z) measurableSet_Ici]
    with ω t1 t2 t3 t4
  have ev : ∀ {p q : Prop} {s : ℕ → Prop}, (p → ∀ᶠ n in atTop, s n) → ∀ᶠ n in atTop, p → s n := by
    intro p q s hs
    by_cases hp : p
    · exact (hs hp).mono fun _ hh _ => hh
    · exact Eventually.of_forall fun _ hh => absurd hh hp
  filter_upwards [ev (q := True) (low _ _ t1), ev (q := True) (high _ _ t2), ev (q := True) (low _ _ t3), ev (q := True) (high _ _ t4),
    eventually_gt_atTop 0] with n e1 e2 e3 e4 hn
  have hn' : (0 : ℝ) < n := by exact_mod_cast hn
  obtain ⟨l, u, hok, hp⟩ := percentile_share (zs := observedN Z n ω) (by rw [← List.length_pos_iff, observedN_length]; exact hn) h0 h1
  rw [observedN_length, ← hαdef] at hp
  obtain ⟨p1, p2, p3, p4⟩ := hp a
  refine ⟨l, u, hok, fun hh => ?_, fun hh => ?_, fun hh => ?_, fun hh => ?_⟩
  · by_contra hlt
    have := e1 hh
    rw [div_lt_div_iff_of_pos_right hn'] at this
    linarith [p1 (not_le.1 hlt)]
  · by_contra hlt
    have := e2 hh
    rw [div_lt_div_iff_of_pos_right hn'] at this
    linarith [p2 (not_le.1 hlt)]
  · by_contra hlt
    have := e3 hh
    rw [div_lt_div_iff_of_pos_right hn'] at this
    linarith [p4 (not_le.1 hlt)]
  · by_contra hlt
    have := e4 hh
    rw [div_lt_div_iff_of_pos_right hn'] at this
    linarith [p3 (not_le.1 hlt)]

/-! ### The bootstrap of the mean -/

section
variable {xs : List ℝ} {D : ℕ → Ω → (Fin xs.length → Fin xs.length)}

theorem stream_share {N : ℕ} {D : ℕ → Ω → (Fin N → Fin N)} (h : DrawStream P D) (i : ℕ) (p : (Fin N → Fin N) → Prop) :
    P.real {ω | p (D i ω)} = drawShare p := by
  classical
  have e : {ω | p (D i ω)} = ⋃ f ∈ Finset.univ.filter p, {ω | D i ω = f} := by
    ext ω
    simp
  rw [e, measureReal_biUnion_finset]
  · simp only [h.uniform i, Finset.sum_const, nsmul_eq_mul, drawShare]
    rw [mul_one_div]
  · intro f _ g _ hfg
    refine Set.disjoint_left.2 fun ω h1 h2 => hfg ?_
    simp only [mem_ofPred_eq] at h1 h2
    rw [← h1, h2]
  · exact fun f _ => h.meas i (measurableSet_singleton f)

theorem stream_replicates (h : DrawStream P D) : Replicates P fun i ω => resampleMean xs (D i ω) where
  meas i := (Measurable.of_discrete (f := resampleMean xs)).comp (h.meas i)
  indep := h.indep.comp (fun _ => resampleMean xs) fun _ => Measurable.of_discrete
  same i := by
    have e : ∀ j, P.map (fun ω => resampleMean xs (D j ω)) = (P.map (D j)).map (resampleMean xs) := fun j =>
      (Measure.map_map (g := resampleMean xs) Measurable.of_discrete (h.meas j)).symm
    rw [e, e]
    congr 1
    refine Measure.ext_of_singleton fun f => ?_
    rw [Measure.map_apply (h.meas i) (measurableSet_singleton f), Measure.map_apply (h.meas 0) (measurableSet_singleton f)]
    refine (ENNReal.toReal_eq_toReal_iff' (measure_ne_top _ _) (measure_ne_top _ _)).1 ?_
    exact (h.uniform i f).trans (h.uniform 0 f).symm

theorem resampled_stream (D : ℕ → Ω → (Fin xs.length → Fin xs.length)) (n : ℕ) (ω : Ω) :
    resampledMeans xs (drawRows D n ω) = observedN (fun i ω => resampleMean xs (D i ω)) n ω := by
  unfold resampledMeans drawRows observedN observed
  rw [List.map_ofFn]
  congr 1
  funext i
  simp only [Function.comp, zipWith_draw, resampleMean]

theorem drawRows_valid {N : ℕ} (D : ℕ → Ω → (Fin N → Fin N)) {n : ℕ} (hn : 1 ≤ n) (ω : Ω) : ValidDraws N n (drawRows D n ω) := by
  refine ⟨hn, by simp [drawRows], fun row hr => ?_⟩
  obtain ⟨i, rfl⟩ := List.mem_ofFn.1 hr
  exact drawCounts_isMultinomial _

theorem ideal_stream (h : DrawStream P D) : idealPValue P (fun ω => resampleMean xs (D 0 ω)) 0 = idealBootP xs := by
  unfold idealPValue idealBootP
  rw [stream_share h 0 fun f => resampleMean xs f ≤ 0, stream_share h 0 fun f => 0 ≤ resampleMean xs f]

/-- **C140, `boot_test`.**  With more and more replicates the p-value converges to that of the ideal bootstrap, which uses all `N ^ N` resamples. -/
theorem C140_boot_test (h : DrawStream P D) (h2 : 2 ≤ xs.length) :
    ∀ᵐ ω ∂P, ∃ p : ℕ → ℝ, (∀ n, 1 ≤ n → bootTest (finVec xs) n (drawRows D n ω) = .ok (.fin (p n))) ∧
      Tendsto p atTop (𝓝 (idealBootP xs)) := by
  filter_upwards [C140_significance (stream_replicates h) 0] with ω ⟨p, hp, hlim⟩
  rw [ideal_stream h] at hlim
  refine ⟨p, fun n hn => ?_, hlim⟩
  obtain ⟨e, q, l, u, -, -, -, -, -, hs, -, -, hb, -⟩ := C48_shared h2 (drawRows_valid D hn ω) (c := 1 / 2) (by norm_num) (by norm_num)
  rw [resampled_stream, hp n hn, Except.ok.injEq] at hs
  rw [hb, hs]

/-- **C140, noise of `boot_test`.**  With `n` replicates the p-value is off by more than `2 δ` with probability at most `3 exp (-2 n δ²)`. -/
theorem C140_boot_test_noise (h : DrawStream P D) (h2 : 2 ≤ xs.length) {n : ℕ} (hn : 1 ≤ n) {δ : ℝ} (hδ : 0 ≤ δ) :
    P.real {ω | ¬ ∃ p : ℝ, bootTest (finVec xs) n (drawRows D n ω) = .ok (.fin p) ∧ |p - idealBootP xs| ≤ 2 * δ} ≤
      3 * Real.exp (-2 * n * δ ^ 2) := by
  refine (measureReal_mono ?_ (measure_ne_top _ _)).trans (C140_significance_noise (stream_replicates h) hn 0 hδ)
  intro ω hω
  simp only [mem_ofPred_eq] at hω ⊢
  rintro ⟨p, hp, hd⟩
  rw [ideal_stream h] at hd
  obtain ⟨e, q, l, u, -, -, -, -, -, hs, -, -, hb, -⟩ := C48_shared h2 (drawRows_valid D hn ω) (c := 1 / 2) (by norm_num) (by norm_num)
  rw [resampled_stream, hp, Except.ok.injEq] at hs
  exact hω ⟨p, by rw [hb, hs], hd⟩

/-- **C140, running it again.**  Two runs with different random numbers differ by more than `4 δ` with probability at most `6 exp (-2 n δ²)`. -/
theorem C140_rerun (h : DrawStream P D) {D' : ℕ → Ω → (Fin xs.length → Fin xs.length)} (h' : DrawStream P D') (h2 : 2 ≤ xs.length)
    {n : ℕ} (hn : 1 ≤ n) {δ : ℝ} (hδ : 0 ≤ δ) :
    P.real {ω | ¬ ∃ p p' : ℝ, bootTest (finVec xs) n (drawRows D n ω) = .ok (.fin p) ∧ bootTest (finVec xs) n (drawRows D' n ω) = .ok (.fin p') ∧
      |p - p'| ≤ 4 * δ} ≤ 6 * Real.exp (-2 * n * δ ^ 2) := by
  have a := C140_boot_test_noise h h2 hn hδ
  have b := C140_boot_test_noise h' h2 hn hδ
  refine (measureReal_mono (s₂ := _ ∪ _) ?_ (measure_ne_top _ _)).trans ((measureReal_union_le _ _).trans ((add_le_add a b).trans (by linarith)))
  intro ω hω
  by_contra hcon
  simp only [mem_union, mem_ofPred_eq, not_or, not_not] at hcon hω
  obtain ⟨⟨p, hp, hd⟩, p', hp', hd'⟩ := hcon
  refine hω ⟨p, p', hp, hp', ?_⟩
  rw [abs_le] at *
  constructor <;> linarith [hd.1, hd.2, hd'.1, hd'.2]

/-- **C140, `boot_EB`.**  With more and more replicates the error bar settles on the smallest bar around the mean that leaves out at most
`(1 - c) / 2` of the `N ^ N` resamples on either side. -/
theorem C140_boot_EB (h : DrawStream P D) (h2 : 2 ≤ xs.length) {c : ℝ} (h0 : 0 < c) (h1 : c < 1) (a : ℝ) :
    ∀ᵐ ω ∂P, ∀ᶠ n in atTop, ∃ e : ℝ, bootEB (finVec xs) (.fin c) n (drawRows D n ω) = .ok (.fin e) ∧
      ((drawShare fun f => resampleMean xs f < avg xs - a) < (1 - c) / 2 → (drawShare fun f => avg xs + a < resampleMean xs f) < (1 - c) / 2 →
        e ≤ a) ∧
      ((1 - c) / 2 < (drawShare fun f => resampleMean xs f ≤ avg xs - a) ∨ (1 - c) / 2 < (drawShare fun f => avg xs + a ≤ resampleMean xs f) →
        a ≤ e) := by
  filter_upwards [C140_percentile (stream_replicates h) h0 h1 (avg xs - a), C140_percentile (stream_replicates h) h0 h1 (avg xs + a)]
    with ω e1 e2
  filter_upwards [e1, e2, eventually_gt_atTop 0] with n g1 g2 hn
  obtain ⟨l, u, hp, p1, p2, -, -⟩ := g1
  obtain ⟨l', u', hp', -, -, p3, p4⟩ := g2
  rw [hp, Except.ok.injEq, Prod.mk.injEq, Flt.fin.injEq, Flt.fin.injEq] at hp'
  obtain ⟨rfl, rfl⟩ := hp'
  obtain ⟨e, q, l'', u'', -, -, -, -, he, -, -, hb, -⟩ := C48_shared h2 (drawRows_valid D hn ω) h0 h1
  rw [resampled_stream] at he
  obtain ⟨e', l', u', he', hp', -, -, -, -, k1, k2, k3, -⟩ := C40_finite (xs := observedN (fun i ω => resampleMean xs (D i ω)) n ω)
    (by rw [← List.length_pos_iff, observedN_length]; exact hn) h0 h1 (avg xs)
  rw [he, Except.ok.injEq, Flt.fin.injEq] at he'
  rw [hp, Except.ok.injEq, Prod.mk.injEq, Flt.fin.injEq, Flt.fin.injEq] at hp'
  obtain ⟨rfl, rfl⟩ := hp'
  subst he'
  rw [stream_share h 0 fun f => resampleMean xs f < avg xs - a] at p1
  rw [stream_share h 0 fun f => resampleMean xs f ≤ avg xs - a] at p2
  rw [stream_share h 0 fun f => avg xs + a < resampleMean xs f] at p3
  rw [stream_share h 0 fun f => avg xs + a ≤ resampleMean xs f] at p4
  refine ⟨e, hb, fun s1 s2 => ?_, fun s => ?_⟩
  · have := p1 s1
    have := p3 s2
    rcases k3 with k3 | k3 <;> linarith
  · rcases s with s | s
    · linarith [p2 s]
    · linarith [p4 s]

end

/-- **C140, the table.**  With `method_EB='boot'` and the default of 1000 replicates: the p-value in the table differs from that of the ideal
bootstrap of the paired differences by more than `2 δ` with probability at most `3 exp (-2000 δ²)`. -/
theorem C140_table {T : Nat → RefDist} {tbl : LossTable} {refMethod metric method : Str} {pairwise : Bool} {c : Flt ℝ}
    {limits : List (Str × (Flt ℝ × Flt ℝ))} {lower upper : Flt ℝ} (hlim : LimitsOf limits metric lower upper)
    {xs rs : List ℝ} (hX : HasLoss tbl metric method (finVec xs)) (hY : HasLoss tbl metric refMethod (finVec rs)) (hmr : method ≠ refMethod)
    (h2 : 2 ≤ (List.zipWith (· - ·) xs rs).length)
    {D : ℕ → Ω → (Fin (List.zipWith (· - ·) xs rs).length → Fin (List.zipWith (· - ·) xs rs).length)} (h : DrawStream P D)
    {draws : Ω → Str → Str → Draws}
    (hd : ∀ ω, (if pairwise then (draws ω metric method).eb else (draws ω metric method).test) = drawRows D 1000 ω)
    {out : Ω → List (List (Flt ℝ × Flt ℝ × Flt ℝ))} (ho : ∀ ω, lossSummaryTable T tbl refMethod pairwise c .boot limits (draws ω) = .ok (out ω))
    {cell : Ω → Flt ℝ × Flt ℝ × Flt ℝ} (hc : ∀ ω, SummaryCell tbl (out ω) metric method (cell ω)) {δ : ℝ} (hδ : 0 ≤ δ) :
    P.real {ω | ¬ ∃ p : ℝ, (cell ω).2.2 = .fin p ∧ |p - idealBootP (List.zipWith (· - ·) xs rs)| ≤ 2 * δ} ≤ 3 * Real.exp (-2000 * δ ^ 2) := by
  have key := C140_boot_test_noise h h2 (n := 1000) (by norm_num) hδ
  have : (-2 * ((1000 : ℕ) : ℝ) * δ ^ 2) = -2000 * δ ^ 2 := by push_cast; ring
  rw [this] at key
  refine (measureReal_mono ?_ (measure_ne_top _ _)).trans key
  intro ω hω
  simp only [mem_ofPred_eq] at hω ⊢
  rintro ⟨p, hp, hq⟩
  refine hω ⟨p, ?_, hq⟩
  obtain ⟨loss, lossRef, lo, hi, k1, k2, k3, -, -, -, -, -, -, h10, h11⟩ := summaryCell_isCell (ho ω) (hc ω)
  obtain rfl := hasLoss_unique hX k1
  obtain rfl := hasLoss_unique hY k2
  obtain ⟨rfl, rfl⟩ := limitsOf_unique hlim k3
  have hd := hd ω
  cases pairwise with
  | true =>
    rw [if_pos rfl] at hd
    obtain ⟨m, hm'⟩ := h10 rfl hmr
    have := ((C49_agree T _ _ _ _ _ _ _ m (cell ω).2.1 (cell ω).2.2).1 hm').2
    rw [deltas_finVec, (C49_dispatch T _ _ _ _).2.2, hd, hp, Except.ok.injEq] at this
    exact this.symm
  | false =>
    rw [if_neg (by simp)] at hd
    have := (h11 rfl).2.2 hmr
    rw [deltas_finVec, (C49_dispatch T _ _ _ _).2.2, hd, hp, Except.ok.injEq] at this
    exact this.symm

end

end Mlp.Props
