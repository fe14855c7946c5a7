import Verif.Lemmas.TLaw
import Verif.Props.TableCoverage

/-! # C95: t intervals and t tests are exact for normal data -/

namespace Mlp.Props
open Mlp.Paper Mlp.Spec Mlp.Lemmas MeasureTheory ProbabilityTheory Set
open scoped NNReal ENNReal

variable {Ω : Type} [MeasurableSpace Ω] {P : Measure Ω} [IsProbabilityMeasure P]

/-- The data: independent, normal with the same mean and variance. -/
structure NormalSample (P : Measure Ω) {n : ℕ} (X : Fin n → Ω → ℝ) (m : ℝ) (v : ℝ≥0) : Prop where
  meas : ∀ i, Measurable (X i)
  indep : iIndepFun X P
  law : ∀ i, P.map (X i) = gaussianReal m v
  pos : v ≠ 0

/-- The t statistic of the mean relative to `m`. -/
noncomputable def tStat (m : ℝ) (xs : List ℝ) : ℝ := (avg xs - m) / stdErr xs

theorem tStat_eq {ν : ℕ} (hν : 1 ≤ ν) {X : Fin (ν + 1) → Ω → ℝ} {m : ℝ} {v : ℝ} (hv : 0 < v) (ω : Ω) :
    tStat m (observed X ω) = Real.sqrt ν * ((∑ i, (X i ω - m) / Real.sqrt v) / Real.sqrt ((ν + 1 : ℕ) : ℝ)) /
      Real.sqrt (∑ i, ((X i ω - m) / Real.sqrt v) ^ 2 -
        ((∑ i, (X i ω - m) / Real.sqrt v) / Real.sqrt ((ν + 1 : ℕ) : ℝ)) ^ 2) := by
  have hν' : (0 : ℝ) < ν := by exact_mod_cast hν
  have hs : 0 < Real.sqrt v := Real.sqrt_pos.2 hv
  have hn : (0 : ℝ) < ((ν + 1 : ℕ) : ℝ) := by positivity
  have hsn : 0 < Real.sqrt ((ν + 1 : ℕ) : ℝ) := Real.sqrt_pos.2 hn
  have hsν : 0 < Real.sqrt ν := Real.sqrt_pos.2 hν'
  have hss : Real.sqrt ((ν + 1 : ℕ) : ℝ) ^ 2 = ((ν + 1 : ℕ) : ℝ) := Real.sq_sqrt hn.le
  set S := ∑ i, (X i ω - m) with hS
  set Q := ∑ i, (X i ω - m) ^ 2 with hQ
  have hsq := observed_steiner (by omega) X ω m
  have havg : avg (observed X ω) - m = S / ((ν + 1 : ℕ) : ℝ) := by
    rw [observed_avg, hS, Finset.sum_sub_distrib]
    simp
    field_simp
  have hsd : sqDev (observed X ω) = Q - S ^ 2 / ((ν + 1 : ℕ) : ℝ) := by
    rw [havg] at hsq
    rw [hQ, hsq]
    field_simp
    ring
  have hW : ∑ i, ((X i ω - m) / Real.sqrt v) ^ 2 - ((∑ i, (X i ω - m) / Real.sqrt v) /
      Real.sqrt ((ν + 1 : ℕ) : ℝ)) ^ 2 = sqDev (observed X ω) / v := by
    rw [hsd]
    simp only [div_pow, ← Finset.sum_div, Real.sq_sqrt hv.le, hss]
    rw [← hS, ← hQ]
    field_simp
  rw [hW, ← Finset.sum_div, ← hS]
  unfold tStat stdErr
  rw [havg, observed_length, show ((ν + 1 : ℕ) : ℝ) - 1 = ν by push_cast; ring, Real.sqrt_div' _ hν'.le,
    Real.sqrt_div' _ hv.le]
  rcases eq_or_ne (Real.sqrt (sqDev (observed X ω))) 0 with h0 | h0
  · rw [h0]; simp
  · have e : S / ((ν + 1 : ℕ) : ℝ) = S / (Real.sqrt ((ν + 1 : ℕ) : ℝ) * Real.sqrt ((ν + 1 : ℕ) : ℝ)) := by
      rw [Real.mul_self_sqrt hn.le]
    rw [e]
    field_simp

theorem tStat_law {ν : ℕ} (hν : 1 ≤ ν) {X : Fin (ν + 1) → Ω → ℝ} {m : ℝ} {v : ℝ≥0} (h : NormalSample P X m v)
    {B : Set ℝ} (hB : MeasurableSet B) :
    P.real {ω | tStat m (observed X ω) ∈ B} = (∫ x in B, studentDensity ν x) / ∫ x, studentDensity ν x := by
  have hv : (0 : ℝ) < v := by exact_mod_cast pos_iff_ne_zero.2 h.pos
  have hZm : ∀ i, Measurable fun ω => (X i ω - m) / Real.sqrt v := fun i => ((h.meas i).sub_const m).div_const _
  have hZl : ∀ i, P.map (fun ω => (X i ω - m) / Real.sqrt v) = gaussianReal 0 1 := by
    intro i
    have e : (fun ω => (X i ω - m) / Real.sqrt v) = (fun x => x / Real.sqrt v) ∘ (fun x => x - m) ∘ X i := rfl
    rw [e, ← Measure.map_map (by fun_prop) (by have := h.meas i; fun_prop),
      ← Measure.map_map (by fun_prop) (h.meas i), h.law, gaussianReal_map_sub_const, gaussianReal_map_div_const]
    congr 1
    · simp
    · ext
      simp [hv.ne', Real.sq_sqrt hv.le]
  have hZi : iIndepFun (fun i ω => (X i ω - m) / Real.sqrt v) P :=
    h.indep.comp (fun _ x => (x - m) / Real.sqrt v) fun _ => by fun_prop
  have hmap := (iIndepFun_iff_map_fun_eq_pi_map fun i => (hZm i).aemeasurable).1 hZi
  simp_rw [hZl] at hmap
  have hset : MeasurableSet {x : Fin (ν + 1) → ℝ | Real.sqrt ν * ((∑ i, x i) / Real.sqrt ((ν + 1 : ℕ) : ℝ)) /
      Real.sqrt (∑ i, x i ^ 2 - ((∑ i, x i) / Real.sqrt ((ν + 1 : ℕ) : ℝ)) ^ 2) ∈ B} := by
    have : Measurable fun x : Fin (ν + 1) → ℝ => Real.sqrt ν * ((∑ i, x i) / Real.sqrt ((ν + 1 : ℕ) : ℝ)) /
      Real.sqrt (∑ i, x i ^ 2 - ((∑ i, x i) / Real.sqrt ((ν + 1 : ℕ) : ℝ)) ^ 2) := by fun_prop
    exact this hB
  have hl := TLaw.t_law' hν hB
  rw [← hmap, Measure.map_apply (measurable_pi_iff.2 hZm) hset] at hl
  have hnn : 0 ≤ (∫ x in B, studentDensity ν x) / ∫ x, studentDensity ν x :=
    div_nonneg (setIntegral_nonneg hB fun x _ => (studentDensity_pos hν x).le)
      (integral_nonneg fun x => (studentDensity_pos hν x).le)
  rw [← ENNReal.toReal_ofReal hnn, ← hl, measureReal_def]
  congr 2
  ext ω
  simp only [mem_ofPred_eq, mem_preimage]
  rw [tStat_eq hν hv]

/-- The probability that the statistic is within `q` of 0. -/
theorem tStat_within {ν : ℕ} (hν : 1 ≤ ν) {X : Fin (ν + 1) → Ω → ℝ} {m : ℝ} {v : ℝ≥0} (h : NormalSample P X m v)
    {q : ℝ} (hq : 0 ≤ q) : P.real {ω | |tStat m (observed X ω)| ≤ q} = 2 * (studentT ν).cdf q - 1 := by
  have hl := tStat_law hν h (B := Icc (-q) q) measurableSet_Icc
  have hi := studentDensity_integrable hν
  simp only [mem_Icc, ← abs_le] at hl
  rw [hl, integral_Icc_eq_integral_Ioc, ← intervalIntegral.integral_of_le (by linarith),
    ← intervalIntegral.integral_Iic_sub_Iic hi.integrableOn hi.integrableOn, sub_div]
  have := (studentT_isSymmetric hν).symm q
  have e : ∀ t, (∫ x in Iic t, studentDensity ν x) / ∫ x, studentDensity ν x = (studentT ν).cdf t := fun _ => rfl
  rw [e, e, this]
  ring

/-- The statistic is almost surely not 0. -/
theorem tStat_ne_zero {ν : ℕ} (hν : 1 ≤ ν) {X : Fin (ν + 1) → Ω → ℝ} {m : ℝ} {v : ℝ≥0} (h : NormalSample P X m v) :
    ∀ᵐ ω ∂P, tStat m (observed X ω) ≠ 0 := by
  have hl := tStat_law hν h (B := {0}) (measurableSet_singleton _)
  rw [ae_iff]
  simp only [mem_singleton_iff, Measure.restrict_singleton, Real.volume_singleton, zero_smul, integral_zero_measure,
    zero_div] at hl
  simpa [measureReal_eq_zero_iff] using hl

/-! ### The events are measurable -/

omit [IsProbabilityMeasure P] in
theorem measurable_avg {n : ℕ} {X : Fin n → Ω → ℝ} (h : ∀ i, Measurable (X i)) : Measurable fun ω => avg (observed X ω) := by
  simp only [observed_avg]
  fun_prop

omit [IsProbabilityMeasure P] in
theorem measurable_stdErr {n : ℕ} {X : Fin n → Ω → ℝ} (h : ∀ i, Measurable (X i)) : Measurable fun ω => stdErr (observed X ω) := by
  have := measurable_avg h
  simp only [stdErr, observed_length, observed_sqDev]
  fun_prop

/-- Whether the interval of `t_EB` contains a number is a measurable event. -/
theorem tEB_event {n : ℕ} (hn : 2 ≤ n) {X : Fin n → Ω → ℝ} (h : ∀ i, Measurable (X i)) (m : ℝ) {c : ℝ} (h0 : 0 < c) (h1 : c < 1) :
    MeasurableSet {ω | ∃ e : ℝ, tEB studentT (finVec (observed X ω)) (.fin c) = .ok (.fin e) ∧
      avg (observed X ω) - e ≤ m ∧ m ≤ avg (observed X ω) + e} := by
  have hset : {ω | ∃ e : ℝ, tEB studentT (finVec (observed X ω)) (.fin c) = .ok (.fin e) ∧
      avg (observed X ω) - e ≤ m ∧ m ≤ avg (observed X ω) + e} =
      {ω | |avg (observed X ω) - m| ≤ (studentT (n - 1)).ppf ((1 + c) / 2) * stdErr (observed X ω)} := by
    ext ω
    have hlen : (observed X ω).length = n := observed_length X ω
    obtain ⟨e, he, -, hev, -⟩ := C45_t_EB studentT (xs := observed X ω) (by omega)
      (by rw [hlen]; exact studentT_isSymmetric (by omega)) h0 h1
    rw [hlen] at hev
    simp only [mem_ofPred_eq, ← hev, abs_le]
    constructor
    · rintro ⟨e', he', ha, hb⟩
      rw [he] at he'
      cases he'
      constructor <;> linarith
    · rintro ⟨ha, hb⟩
      exact ⟨e, he, by linarith, by linarith⟩
  rw [hset]
  exact measurableSet_le ((measurable_avg h).sub_const m).abs ((measurable_stdErr h).const_mul _)

/-- Whether the p-value of `t_test` is at most `α` is a measurable event. -/
theorem tTest_event {n : ℕ} (hn : 2 ≤ n) {X : Fin n → Ω → ℝ} (h : ∀ i, Measurable (X i)) (α : ℝ) :
    MeasurableSet {ω | ∃ p : ℝ, tTest studentT (finVec (observed X ω)) = .ok (.fin p) ∧ p ≤ α} := by
  have hsym := studentT_isSymmetric (ν := n - 1) (by omega)
  have hset : {ω | ∃ p : ℝ, tTest studentT (finVec (observed X ω)) = .ok (.fin p) ∧ p ≤ α} =
      {ω | (if stdErr (observed X ω) = 0 then (if avg (observed X ω) = 0 then 1 else 0)
        else 2 * (1 - (studentT (n - 1)).cdf (|avg (observed X ω)| / stdErr (observed X ω)))) ≤ α} := by
    ext ω
    have hlen : (observed X ω).length = n := observed_length X ω
    obtain ⟨p, hp, -, -, hp1, hp2⟩ := C45_t_test studentT (xs := observed X ω) (by omega) (by rw [hlen]; exact hsym)
    rw [hlen] at hp1
    have e : p = if stdErr (observed X ω) = 0 then (if avg (observed X ω) = 0 then 1 else 0)
        else 2 * (1 - (studentT (n - 1)).cdf (|avg (observed X ω)| / stdErr (observed X ω))) := by
      split_ifs with a b
      · exact (hp2 ((stdErr_eq_zero (by omega)).1 a)).2 b
      · exact (hp2 ((stdErr_eq_zero (by omega)).1 a)).1 b
      · refine (hp1 ?_).1
        by_contra hc
        push Not at hc
        exact a ((stdErr_eq_zero (by omega)).2 hc)
    simp only [mem_ofPred_eq, ← e]
    constructor
    · rintro ⟨p', hp', hle⟩
      rw [hp] at hp'
      cases hp'
      exact hle
    · intro hle
      exact ⟨p, hp, hle⟩
  rw [hset]
  have ha := measurable_avg h
  have hs := measurable_stdErr h
  have hc : Measurable (studentT (n - 1)).cdf := hsym.strictMono.monotone.measurable
  exact measurableSet_le (Measurable.ite (hs (measurableSet_singleton 0)) (Measurable.ite (ha (measurableSet_singleton 0)) measurable_const measurable_const)
    (((hc.comp (ha.abs.div hs)).const_sub 1).const_mul 2)) measurable_const

/-- **C95, error bars.** For independent normal data with a common mean and variance and at least two points, the interval
of `t_EB` around the sample mean contains the true mean with probability exactly the confidence. -/
theorem C95_t_EB_exact {n : ℕ} (hn : 2 ≤ n) {X : Fin n → Ω → ℝ} {m : ℝ} {v : ℝ≥0} (h : NormalSample P X m v)
    {c : ℝ} (h0 : 0 < c) (h1 : c < 1) :
    IsProb P c {ω | ∃ e : ℝ, tEB studentT (finVec (observed X ω)) (.fin c) = .ok (.fin e) ∧
      avg (observed X ω) - e ≤ m ∧ m ≤ avg (observed X ω) + e} := by
  refine ⟨tEB_event hn h.meas m h0 h1, ?_⟩
  obtain ⟨ν, rfl⟩ : ∃ ν, n = ν + 1 := ⟨n - 1, by omega⟩
  have hν : 1 ≤ ν := by omega
  have hsym := studentT_isSymmetric hν
  have hq := hsym.ppf_pos (q := (1 + c) / 2) (by linarith) (by linarith)
  have hc : 2 * (studentT ν).cdf ((studentT ν).ppf ((1 + c) / 2)) - 1 = c := by
    rw [hsym.cdf_ppf _ (by linarith) (by linarith)]; ring
  refine Eq.trans (measureReal_congr ?_) ((tStat_within hν h hq.le).trans hc)
  filter_upwards [tStat_ne_zero hν h] with ω hω
  have hlen : (observed X ω).length = ν + 1 := observed_length X ω
  obtain ⟨e, he, -, hev, -⟩ := C45_t_EB studentT (xs := observed X ω) (by omega) (by rw [hlen]; exact hsym) h0 h1
  rw [hlen, Nat.add_sub_cancel] at hev
  have hs : 0 < stdErr (observed X ω) := by
    refine lt_of_le_of_ne (by unfold stdErr; positivity) fun hs => hω ?_
    unfold tStat
    rw [← hs, div_zero]
  refine propext ?_
  show (∃ e : ℝ, tEB studentT (finVec (observed X ω)) (.fin c) = .ok (.fin e) ∧
      avg (observed X ω) - e ≤ m ∧ m ≤ avg (observed X ω) + e) ↔ |tStat m (observed X ω)| ≤ _
  unfold tStat
  rw [abs_div, abs_of_pos hs, div_le_iff₀ hs, ← hev, abs_le]
  constructor
  · rintro ⟨e', he', ha, hb⟩
    rw [he] at he'
    cases he'
    constructor <;> linarith
  · rintro ⟨ha, hb⟩
    exact ⟨e, he, by linarith, by linarith⟩

/-- **C95, tests.** If the true mean is 0, the p-value of `t_test` is uniform on [0, 1]: it is at most `α` with probability
exactly `α`. -/
theorem C95_t_test_exact {n : ℕ} (hn : 2 ≤ n) {X : Fin n → Ω → ℝ} {v : ℝ≥0} (h : NormalSample P X 0 v)
    {α : ℝ} (h0 : 0 ≤ α) (h1 : α ≤ 1) :
    IsProb P α {ω | ∃ p : ℝ, tTest studentT (finVec (observed X ω)) = .ok (.fin p) ∧ p ≤ α} := by
  refine ⟨tTest_event hn h.meas α, ?_⟩
  obtain ⟨ν, rfl⟩ : ∃ ν, n = ν + 1 := ⟨n - 1, by omega⟩
  have hν : 1 ≤ ν := by omega
  have hsym := studentT_isSymmetric hν
  have key : ∀ᵐ ω ∂P, ∃ p : ℝ, tTest studentT (finVec (observed X ω)) = .ok (.fin p) ∧
      p = 2 * (1 - (studentT ν).cdf |tStat 0 (observed X ω)|) ∧ 0 < p ∧ p ≤ 1 := by
    filter_upwards [tStat_ne_zero hν h] with ω hω
    have hlen : (observed X ω).length = ν + 1 := observed_length X ω
    obtain ⟨p, hp, -, hp1, hpv, -⟩ := C45_t_test studentT (xs := observed X ω) (by omega) (by rw [hlen]; exact hsym)
    have hs : stdErr (observed X ω) ≠ 0 := fun hs => hω (by unfold tStat; rw [hs, div_zero])
    have hs' : 0 < stdErr (observed X ω) := lt_of_le_of_ne (by unfold stdErr; positivity) (Ne.symm hs)
    have hne : ∃ x ∈ observed X ω, x ≠ avg (observed X ω) := by
      by_contra hc
      push Not at hc
      exact hs ((stdErr_eq_zero (by omega)).2 hc)
    obtain ⟨hpv, hp0⟩ := hpv hne
    refine ⟨p, hp, ?_, hp0, hp1⟩
    rw [hpv, hlen, Nat.add_sub_cancel]
    unfold tStat
    rw [sub_zero, abs_div, abs_of_pos hs']
  rcases h0.lt_or_eq with h0 | rfl
  · rcases h1.lt_or_eq with h1 | rfl
    · have hq := hsym.ppf_pos (q := 1 - α / 2) (by linarith) (by linarith)
      have hcq := hsym.cdf_ppf (1 - α / 2) (by linarith) (by linarith)
      have hi := studentDensity_integrable hν
      set q := (studentT ν).ppf (1 - α / 2) with hqd
      have hcompl : P.real {ω | ¬ |tStat 0 (observed X ω)| < q} = α := by
        have hl := tStat_law hν h (B := (Ioo (-q) q)ᶜ) measurableSet_Ioo.compl
        have hl2 := tStat_law hν h (B := Icc (-q) q) measurableSet_Icc
        rw [integral_Icc_eq_integral_Ioo] at hl2
        rw [setIntegral_compl measurableSet_Ioo hi, sub_div, ← hl2] at hl
        simp only [mem_compl_iff, mem_Ioo, mem_Icc, ← abs_lt, ← abs_le] at hl
        rw [hl, tStat_within hν h hq.le, hcq, div_self]
        · ring
        · intro h0
          have := hsym.lt_one 0
          have h2 := hsym.cdf_zero
          unfold studentT ofDensity at h2
          simp only [h0, div_zero] at h2
          norm_num at h2
      refine Eq.trans (measureReal_congr ?_) hcompl
      filter_upwards [key] with ω ⟨p, hp, hpv, _, _⟩
      refine propext ?_
      show (∃ p : ℝ, tTest studentT (finVec (observed X ω)) = .ok (.fin p) ∧ p ≤ α) ↔
        ¬ |tStat 0 (observed X ω)| < _
      rw [not_lt, ← hsym.strictMono.le_iff_le, hcq]
      constructor
      · rintro ⟨p', hp', hle⟩
        rw [hp] at hp'
        cases hp'
        linarith
      · intro hle
        exact ⟨p, hp, by linarith⟩
    · rw [measureReal_congr (t := univ) (by
        filter_upwards [key] with ω ⟨p, hp, _, _, h1⟩
        refine propext ?_
        show (∃ p : ℝ, tTest studentT (finVec (observed X ω)) = .ok (.fin p) ∧ p ≤ 1) ↔ ω ∈ (univ : Set Ω)
        exact ⟨fun _ => mem_univ _, fun _ => ⟨p, hp, h1⟩⟩)]
      simp
  · rw [measureReal_congr (t := ∅) (by
      filter_upwards [key] with ω ⟨p, hp, _, h0, _⟩
      refine propext ?_
      show (∃ p : ℝ, tTest studentT (finVec (observed X ω)) = .ok (.fin p) ∧ p ≤ 0) ↔ ω ∈ (∅ : Set Ω)
      refine ⟨?_, fun h => absurd h (notMem_empty _)⟩
      rintro ⟨p', hp', hle⟩
      rw [hp] at hp'
      cases hp'
      exact absurd h0 (not_lt.2 hle))]
    simp

/-! ### The summary functions, without limits -/

/-- Without limits `get_mean_and_EB` passes on what `t_EB` returns. -/
theorem getMeanEB_t (T : Nat → RefDist) {xs : List ℝ} (hne : xs ≠ []) {c e0 : ℝ}
    (he : tEB T (finVec xs) (.fin c) = .ok (.fin e0)) (h0 : 0 ≤ e0) (counts : List (List Nat)) :
    getMeanEB T (finVec xs) (.fin c) (.fin 0) .ninf .pinf .t counts = .ok (.fin (avg xs), .fin e0) := by
  have hv : ValidLimits (.ninf) (.pinf : Flt ℝ) := by simp [ValidLimits]
  have hwi : Within .ninf .pinf xs := fun x _ => ⟨by simp, by simp⟩
  obtain ⟨ha1, ha2⟩ := avg_mem hne hwi
  have hin := (within_finVec hv.2.1 xs).2 hwi
  unfold getMeanEB
  rw [pyAssert_bind, if_pos hin]
  dsimp only
  rw [he, ok_bind, mean_finVec hne, clipChk_id (by simp) hv.1 hv.2.1 ha1 ha2, ok_bind,
    clipEB_value _ hv le_rfl ha1 ha2 (by simp [Flt.sub, Flt.neg, Flt.add])]
  have : (Flt.fin e0).clip (.fin 0) (Flt.fmax (Flt.pinf.sub (.fin (avg xs))) ((Flt.fin (avg xs)).sub .ninf)) = .fin e0 :=
    Flt.clip_id (by simp) (by simp) (by simp [Flt.sub, Flt.neg, Flt.add, Flt.fmax]) (by simpa using h0)
      (by simp [Flt.sub, Flt.neg, Flt.add, Flt.fmax])
  rw [this, ok_bind]
  rfl

theorem observed_ne_nil {n : ℕ} (hn : 1 ≤ n) (X : Fin n → Ω → ℝ) (ω : Ω) : observed X ω ≠ [] := fun h => by
  have := observed_length X ω
  rw [h] at this
  simp at this
  omega

/-- **C95, `get_mean_and_EB`.** For normal data and no limits, the mean and error bar with method `'t'` contain the true mean
with probability exactly the confidence. -/
theorem C95_mean_and_EB {n : ℕ} (hn : 2 ≤ n) {X : Fin n → Ω → ℝ} {m : ℝ} {v : ℝ≥0} (h : NormalSample P X m v)
    {c : ℝ} (h0 : 0 < c) (h1 : c < 1) (counts : Ω → List (List Nat)) :
    IsProb P c {ω | ∃ mu e : ℝ, getMeanEB studentT (finVec (observed X ω)) (.fin c) (.fin 0) .ninf .pinf .t (counts ω) =
      .ok (.fin mu, .fin e) ∧ mu - e ≤ m ∧ m ≤ mu + e} := by
  refine Eq.mpr (congrArg (IsProb P c) ?_) (C95_t_EB_exact hn h h0 h1)
  ext ω
  have hlen : (observed X ω).length = n := observed_length X ω
  obtain ⟨e, he, hpos, -, -⟩ := C45_t_EB studentT (xs := observed X ω) (by omega)
    (studentT_isSymmetric (by omega)) h0 h1
  simp only [mem_ofPred_eq, getMeanEB_t studentT (observed_ne_nil (by omega) X ω) he hpos, he]
  constructor
  · rintro ⟨mu, e', heq, hcov⟩
    injection heq with heq
    injection heq with h1 h2
    injection h1 with h1
    exact ⟨e', by rw [h2], h1 ▸ hcov⟩
  · rintro ⟨e', heq, hcov⟩
    injection heq with heq
    exact ⟨_, e', by rw [heq], hcov⟩

/-! ### The loss table -/

/-- What a cell for method `'t'` is if the losses are numbers and there are no limits. -/
theorem t_cell {n : ℕ} (hn : 1 ≤ n) {T : Nat → RefDist} {tbl : LossTable} {metric method refMethod : Str}
    {limits : List (Str × (Flt ℝ × Flt ℝ))} {X Y : Fin n → Ω → ℝ} {ω : Ω} (hlim : LimitsOf limits metric .ninf .pinf)
    (hX : HasLoss tbl metric method (finVec (observed X ω))) (hY : HasLoss tbl metric refMethod (finVec (observed Y ω)))
    {pairwise : Bool} {c : ℝ} {draws : Str → Str → Draws} {out : List (List (Flt ℝ × Flt ℝ × Flt ℝ))}
    (ho : lossSummaryTable T tbl refMethod pairwise (.fin c) .t limits draws = .ok out)
    {cell : Flt ℝ × Flt ℝ × Flt ℝ} (hc : SummaryCell tbl out metric method cell) :
    cell.1 = .fin (avg (observed X ω)) ∧
    (pairwise = true → method ≠ refMethod →
      ∃ m, getMeanEB T (finVec (observed (fun i ω => X i ω - Y i ω) ω)) (.fin c) (.fin 0) .ninf .pinf .t
          (draws metric method).eb = .ok (m, cell.2.1) ∧
        tTest T (finVec (observed (fun i ω => X i ω - Y i ω) ω)) = .ok cell.2.2) ∧
    (pairwise = false →
      getMeanEB T (finVec (observed X ω)) (.fin c) (.fin 0) .ninf .pinf .t (draws metric method).eb =
        .ok (.fin (avg (observed X ω)), cell.2.1) ∧
      (method ≠ refMethod → tTest T (finVec (observed (fun i ω => X i ω - Y i ω) ω)) = .ok cell.2.2)) := by
  obtain ⟨loss, lossRef, lo, hi, h1, h2, h3, -, -, -, -, h8, -, h10, h11⟩ := summaryCell_isCell ho hc
  obtain rfl := hasLoss_unique hX h1
  obtain rfl := hasLoss_unique hY h2
  obtain ⟨rfl, rfl⟩ := limitsOf_unique hlim h3
  rw [deltas_finVec, observed_sub] at h10 h11
  rw [mean_finVec (observed_ne_nil hn X ω)] at h8 h11
  have e1 : (Flt.pinf : Flt ℝ).sub .ninf = .pinf := rfl
  have e2 : (Flt.pinf : Flt ℝ).neg = .ninf := rfl
  simp only [e1, e2] at h10 h11
  refine ⟨h8, fun hp hm => ?_, fun hp => ⟨(h11 hp).1, (h11 hp).2.2⟩⟩
  obtain ⟨m, hm'⟩ := h10 hp hm
  have := (C49_agree T _ _ _ _ _ _ _ m cell.2.1 cell.2.2).1 hm'
  exact ⟨m, this.1, this.2⟩

section
variable {n : ℕ} {tbl : Ω → LossTable} {metric method refMethod : Str} {limits : List (Str × (Flt ℝ × Flt ℝ))}
  {X Y : Fin n → Ω → ℝ}

/-- **C96, error bars.** A metric without limits and normal losses of a method, independent between at least two rows:
without `pairwise_CI` the mean and error bar of the default method `'t'` contain the expected loss with probability exactly
the confidence. -/
theorem C96_error_bar (hn : 2 ≤ n) (hlim : LimitsOf limits metric .ninf .pinf)
    (hX : ∀ ω, HasLoss (tbl ω) metric method (finVec (observed X ω)))
    (hY : ∀ ω, HasLoss (tbl ω) metric refMethod (finVec (observed Y ω)))
    {m : ℝ} {v : ℝ≥0} (h : NormalSample P X m v) {c : ℝ} (h0 : 0 < c) (h1 : c < 1) {draws : Ω → Str → Str → Draws}
    {out : Ω → List (List (Flt ℝ × Flt ℝ × Flt ℝ))}
    (ho : ∀ ω, lossSummaryTable studentT (tbl ω) refMethod false (.fin c) .t limits (draws ω) = .ok (out ω))
    {cell : Ω → Flt ℝ × Flt ℝ × Flt ℝ} (hc : ∀ ω, SummaryCell (tbl ω) (out ω) metric method (cell ω)) :
    IsProb P c {ω | ∃ mu e : ℝ, (cell ω).1 = .fin mu ∧ (cell ω).2.1 = .fin e ∧ mu - e ≤ m ∧ m ≤ mu + e} := by
  refine Eq.mpr (congrArg (IsProb P c) ?_) (C95_mean_and_EB hn h h0 h1 fun ω => (draws ω metric method).eb)
  ext ω
  have hcell := t_cell (by omega) hlim (hX ω) (hY ω) (ho ω) (hc ω)
  simp only [mem_ofPred_eq, (hcell.2.2 rfl).1, hcell.1, Except.ok.injEq, Prod.mk.injEq, and_assoc]

/-- **C96, pairwise error bars.** With `pairwise_CI` and normal differences to the reference, the difference of the two means
and the error bar contain the true difference with probability exactly the confidence. -/
theorem C96_pairwise (hn : 2 ≤ n) (hne : method ≠ refMethod) (hlim : LimitsOf limits metric .ninf .pinf)
    (hX : ∀ ω, HasLoss (tbl ω) metric method (finVec (observed X ω)))
    (hY : ∀ ω, HasLoss (tbl ω) metric refMethod (finVec (observed Y ω)))
    {δ : ℝ} {v : ℝ≥0} (h : NormalSample P (fun i ω => X i ω - Y i ω) δ v) {c : ℝ} (h0 : 0 < c) (h1 : c < 1)
    {draws : Ω → Str → Str → Draws} {out : Ω → List (List (Flt ℝ × Flt ℝ × Flt ℝ))}
    (ho : ∀ ω, lossSummaryTable studentT (tbl ω) refMethod true (.fin c) .t limits (draws ω) = .ok (out ω))
    {cell cellRef : Ω → Flt ℝ × Flt ℝ × Flt ℝ} (hc : ∀ ω, SummaryCell (tbl ω) (out ω) metric method (cell ω))
    (hr : ∀ ω, SummaryCell (tbl ω) (out ω) metric refMethod (cellRef ω)) :
    IsProb P c {ω | ∃ mu muRef e : ℝ, (cell ω).1 = .fin mu ∧ (cellRef ω).1 = .fin muRef ∧ (cell ω).2.1 = .fin e ∧
      (mu - muRef) - e ≤ δ ∧ δ ≤ (mu - muRef) + e} := by
  refine Eq.mpr (congrArg (IsProb P c) ?_) (C95_mean_and_EB hn h h0 h1 fun ω => (draws ω metric method).eb)
  ext ω
  have hcell := t_cell (by omega) hlim (hX ω) (hY ω) (ho ω) (hc ω)
  have hcellR := (t_cell (by omega) hlim (hY ω) (hY ω) (ho ω) (hr ω)).1
  obtain ⟨m, h2, -⟩ := hcell.2.1 rfl hne
  have hlen : (observed (fun i ω => X i ω - Y i ω) ω).length = n := observed_length _ ω
  obtain ⟨e, he, hpos, -, -⟩ := C45_t_EB studentT (xs := observed (fun i ω => X i ω - Y i ω) ω) (by omega)
    (studentT_isSymmetric (by omega)) h0 h1
  have h3 := getMeanEB_t studentT (observed_ne_nil (by omega) _ ω) he hpos (draws ω metric method).eb
  rw [h2] at h3
  injection h3 with h3
  injection h3 with h31 h32
  have hmu : avg (observed (fun i ω => X i ω - Y i ω) ω) = avg (observed X ω) - avg (observed Y ω) := by
    simp only [observed_avg, Finset.sum_sub_distrib, sub_div]
  simp only [mem_ofPred_eq, h2, h31, h32, hcell.1, hcellR, hmu, Except.ok.injEq, Prod.mk.injEq, Flt.fin.injEq]
  constructor
  · rintro ⟨_, _, _, rfl, rfl, rfl, h⟩
    exact ⟨_, _, ⟨rfl, rfl⟩, h⟩
  · rintro ⟨_, _, ⟨rfl, rfl⟩, h⟩
    exact ⟨_, _, _, rfl, rfl, rfl, h⟩

/-- **C96, p-values.** If the differences to the reference are normal with mean 0, then the p-value in the table is uniform:
at most `α` with probability exactly `α`, with and without `pairwise_CI`. -/
theorem C96_p_value (hn : 2 ≤ n) (hne : method ≠ refMethod) (hlim : LimitsOf limits metric .ninf .pinf)
    (hX : ∀ ω, HasLoss (tbl ω) metric method (finVec (observed X ω)))
    (hY : ∀ ω, HasLoss (tbl ω) metric refMethod (finVec (observed Y ω)))
    {v : ℝ≥0} (h : NormalSample P (fun i ω => X i ω - Y i ω) 0 v) (pairwise : Bool) (c : ℝ)
    {draws : Ω → Str → Str → Draws} {out : Ω → List (List (Flt ℝ × Flt ℝ × Flt ℝ))}
    (ho : ∀ ω, lossSummaryTable studentT (tbl ω) refMethod pairwise (.fin c) .t limits (draws ω) = .ok (out ω))
    {cell : Ω → Flt ℝ × Flt ℝ × Flt ℝ} (hc : ∀ ω, SummaryCell (tbl ω) (out ω) metric method (cell ω))
    {α : ℝ} (h0 : 0 ≤ α) (h1 : α ≤ 1) : IsProb P α {ω | ∃ p : ℝ, (cell ω).2.2 = .fin p ∧ p ≤ α} := by
  refine Eq.mpr (congrArg (IsProb P α) ?_) (C95_t_test_exact hn h h0 h1)
  ext ω
  have hcell := t_cell (by omega) hlim (hX ω) (hY ω) (ho ω) (hc ω)
  have ht : tTest studentT (finVec (observed (fun i ω => X i ω - Y i ω) ω)) = .ok (cell ω).2.2 := by
    cases pairwise with
    | true => obtain ⟨m, -, h3⟩ := hcell.2.1 rfl hne; exact h3
    | false => exact (hcell.2.2 rfl).2 hne
  simp only [mem_ofPred_eq, ht, Except.ok.injEq]

end

/-! ### A concrete case: standard normal numbers -/

theorem gauss_sample (n : ℕ) : NormalSample (Measure.pi fun _ : Fin n => gaussianReal 0 1) (fun i ω => ω i) 0 1 where
  meas i := measurable_pi_apply i
  indep := iIndepFun_pi (X := fun (_ : Fin n) (x : ℝ) => x) fun _ => measurable_id.aemeasurable
  law i := (measurePreserving_eval (fun _ : Fin n => gaussianReal 0 1) i).map_eq
  pos := one_ne_zero

/-- With ten normal numbers the hypotheses of C95 are met. -/
example : IsProb (Measure.pi fun _ : Fin 10 => gaussianReal 0 1) (95 / 100) {ω | ∃ e : ℝ,
      tEB studentT (finVec (observed (fun i (ω : Fin 10 → ℝ) => ω i) ω)) (.fin (95 / 100)) = .ok (.fin e) ∧
        avg (observed (fun i (ω : Fin 10 → ℝ) => ω i) ω) - e ≤ 0 ∧
        0 ≤ avg (observed (fun i (ω : Fin 10 → ℝ) => ω i) ω) + e} :=
  C95_t_EB_exact (by norm_num) (gauss_sample 10) (by norm_num) (by norm_num)

/-- A table with a method whose losses are standard normal and a reference with losses 0. -/
noncomputable def normalTable (ω : Fin 10 → ℝ) : LossTable :=
  ⟨["L".toList], ["A".toList, "B".toList], 10,
    [(("L".toList, "A".toList), finVec (observed (fun (_ : Fin 10) _ => 0) ω)),
     (("L".toList, "B".toList), finVec (observed (fun i (ω : Fin 10 → ℝ) => ω i) ω))]⟩

/-- C96 on this table. -/
example : ∃ cell : (Fin 10 → ℝ) → Flt ℝ × Flt ℝ × Flt ℝ,
    (∀ ω, ∃ cellRef, lossSummaryTable studentT (normalTable ω) "A".toList true (.fin (19 / 20)) .t
      [] (fun _ _ => ⟨[], []⟩) = .ok [[cellRef, cell ω]]) ∧
    IsProb (Measure.pi fun _ : Fin 10 => gaussianReal 0 1) (5 / 100) {ω | ∃ p : ℝ, (cell ω).2.2 = .fin p ∧ p ≤ 5 / 100} := by
  have hlim : LimitsOf ([] : List (Str × (Flt ℝ × Flt ℝ))) "L".toList .ninf .pinf := .default (by simp)
  have hA : ∀ ω, HasLoss (normalTable ω) "L".toList "A".toList (finVec (observed (fun (_ : Fin 10) _ => 0) ω)) :=
    fun ω => ⟨[], [(("L".toList, "B".toList), _)], rfl, by simp, by simp⟩
  have hB : ∀ ω, HasLoss (normalTable ω) "L".toList "B".toList
      (finVec (observed (fun i (ω : Fin 10 → ℝ) => ω i) ω)) :=
    fun ω => ⟨[(("L".toList, "A".toList), _)], [], rfl, by simp, by simp⟩
  have h : ∀ ω, ∃ a b, lossSummaryTable studentT (normalTable ω) "A".toList true (.fin (19 / 20)) .t
      [] (fun _ _ => ⟨[], []⟩) = .ok [[a, b]] := by
    intro ω
    have hs : ∃ out, lossSummaryTable studentT (normalTable ω) "A".toList true (.fin (19 / 20)) .t
        [] (fun _ _ => ⟨[], []⟩) = .ok out := by
      refine C52_success studentT true (by norm_num) (by norm_num) (by simp)
        (fun _ => studentT_isSymmetric (by simp [normalTable])) (by simp) (by simp [normalTable]) (by simp [normalTable])
        (by simp [normalTable]) ?_
      intro metric hm
      simp only [normalTable, List.mem_singleton] at hm
      subst hm
      refine ⟨.ninf, .pinf, hlim, by simp [ValidLimits], fun method hme => ?_⟩
      simp only [normalTable, List.mem_cons, List.not_mem_nil, or_false] at hme
      rcases hme with rfl | rfl
      · exact ⟨_, hA ω, observed_length _ ω, fun x hx => by simp⟩
      · exact ⟨_, hB ω, observed_length _ ω, fun x hx => by simp⟩
    obtain ⟨out, hout⟩ := hs
    have h := C51_cells hout
    simp only [normalTable] at h
    cases h with
    | cons h1 h2 =>
      cases h2
      cases h1 with
      | cons ha h3 =>
        cases h3 with
        | cons hb h4 =>
          cases h4
          exact ⟨_, _, hout⟩
  choose a b hab using h
  have hcb : ∀ ω, SummaryCell (normalTable ω) [[a ω, b ω]] "L".toList "B".toList (b ω) := fun ω =>
    ⟨0, 1, _, rfl, rfl, rfl, rfl⟩
  refine ⟨b, fun ω => ⟨a ω, hab ω⟩, ?_⟩
  refine C96_p_value (X := fun i (ω : Fin 10 → ℝ) => ω i) (Y := fun _ _ => 0) (v := 1) (by norm_num) (by simp) hlim hB hA ?_ true
    (19 / 20) hab hcb (by norm_num) (by norm_num)
  simpa only [sub_zero] using gauss_sample 10

end Mlp.Props
