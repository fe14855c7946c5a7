import Verif.Props.BootLimit
import Verif.Props.LossTable
import Mathlib.Probability.ProductMeasure
import Mathlib.Probability.Independence.InfinitePi
import Mathlib.Probability.UniformOn

/-! # C140: concrete cases -/

namespace Mlp.Props
open Mlp Mlp.Paper Mlp.Spec Mlp.Lemmas Mlp.Boot MeasureTheory ProbabilityTheory Set Filter
open scoped NNReal ENNReal Topology

/-- One bootstrap draw from `N` points. -/
noncomputable abbrev oneDraw (N : ℕ) : Measure (Fin N → Fin N) := uniformOn univ

instance (N : ℕ) [NeZero N] : IsProbabilityMeasure (oneDraw N) :=
  uniformOn_isProbabilityMeasure Set.finite_univ ⟨id, mem_univ _⟩

/-- Independent bootstrap draws exist. -/
theorem drawStream_exists (N : ℕ) [NeZero N] : DrawStream (Measure.infinitePi fun _ : ℕ => oneDraw N) (fun i ω => ω i) where
  meas i := measurable_pi_apply i
  indep := iIndepFun_infinitePi (P := fun _ : ℕ => oneDraw N) (X := fun (_ : ℕ) (s : Fin N → Fin N) => s) fun _ => measurable_id
  uniform i f := by
    have hp := measurePreserving_eval_infinitePi (fun _ : ℕ => oneDraw N) i
    have h1 := hp.measureReal_preimage (measurableSet_singleton f).nullMeasurableSet
    refine h1.trans ?_
    unfold Measure.real oneDraw
    rw [uniformOn_univ]
    simp [ENNReal.toReal_div]

theorem ex_draws (f : Fin [(3 : ℝ), -1].length → Fin [(3 : ℝ), -1].length) :
    (resampleMean [3, -1] f ≤ 0 ↔ f = fun _ => 1) ∧ (0 ≤ resampleMean [3, -1] f ↔ f ≠ fun _ => 1) := by
  change Fin 2 → Fin 2 at f
  have e : (f = fun _ => (1 : Fin 2)) ↔ f 0 = 1 ∧ f 1 = 1 := by
    rw [funext_iff, Fin.forall_fin_two]
  have hf : resampleMean [3, -1] f = ([(3 : ℝ), -1][f 0] + [(3 : ℝ), -1][f 1]) / 2 := by
    unfold resampleMean
    rw [show (∑ j : Fin [(3 : ℝ), -1].length, [(3 : ℝ), -1][f j]) = _ from Fin.sum_univ_two _]
    norm_num
  rw [hf]
  change (_ ↔ (f = fun _ => (1 : Fin 2))) ∧ (_ ↔ ¬ (f = fun _ => (1 : Fin 2)))
  rw [e]
  generalize f 0 = a
  generalize f 1 = b
  fin_cases a <;> fin_cases b <;> norm_num

/-- The ideal p-value of the loss differences 3 and -1 is 1/2. -/
theorem ex_ideal : idealBootP [3, -1] = 1 / 2 := by
  unfold idealBootP drawShare
  simp only [ex_draws]
  rw [Finset.filter_ne', Finset.card_erase_of_mem (Finset.mem_univ _)]
  rw [Finset.filter_eq', if_pos (Finset.mem_univ _)]
  rw [Finset.card_univ, Fintype.card_fun, Fintype.card_fin, Finset.card_singleton]
  norm_num

/-- `boot_test([3, -1])` converges to 1/2. -/
example : ∀ᵐ ω ∂(Measure.infinitePi fun _ : ℕ => oneDraw 2), ∃ p : ℕ → ℝ,
    (∀ n, 1 ≤ n → bootTest (finVec [3, -1]) n (drawRows (N := 2) (fun i ω => ω i) n ω) = .ok (.fin (p n))) ∧ Tendsto p atTop (𝓝 (1 / 2)) := by
  rw [← ex_ideal]
  exact C140_boot_test (xs := [3, -1]) (drawStream_exists 2) (by simp)

/-- With 1000 replicates `boot_test([3, -1])` is between 0.4 and 0.6 except with probability `3 exp(-5)`. -/
example : (Measure.infinitePi fun _ : ℕ => oneDraw 2).real {ω | ¬ ∃ p : ℝ,
    bootTest (finVec [3, -1]) 1000 (drawRows (N := 2) (fun i ω => ω i) 1000 ω) = .ok (.fin p) ∧ |p - 1 / 2| ≤ 1 / 10} ≤ 3 * Real.exp (-5) := by
  have := C140_boot_test_noise (xs := [3, -1]) (drawStream_exists 2) (by simp) (n := 1000) (by norm_num) (δ := 1 / 20) (by norm_num)
  rw [ex_ideal] at this
  norm_num at this ⊢
  exact this

/-- Two runs: one with the first and one with the second thousand draws of the same generator. -/
example : (Measure.infinitePi fun _ : ℕ => oneDraw 2).real {ω | ¬ ∃ p p' : ℝ,
    bootTest (finVec [3, -1]) 1000 (drawRows (N := 2) (fun i ω => ω i) 1000 ω) = .ok (.fin p) ∧
    bootTest (finVec [3, -1]) 1000 (drawRows (N := 2) (fun i ω => ω (i + 1000)) 1000 ω) = .ok (.fin p') ∧ |p - p'| ≤ 4 * (1 / 20)} ≤
      6 * Real.exp (-2 * (1000 : ℕ) * (1 / 20) ^ 2) := by
  refine C140_rerun (xs := [3, -1]) (drawStream_exists 2) (D' := fun i ω => ω (i + 1000)) ?_ (by simp) (by norm_num) (by norm_num)
  have h := drawStream_exists 2
  exact ⟨fun i => h.meas _, h.indep.precomp (g := fun i : ℕ => i + 1000) fun a b hab => by simpa using hab, fun i f => h.uniform _ f⟩

/-- The error bar around the mean 1 is eventually at most 2: all resamples have a mean between -1 and 3. -/
example : ∀ᵐ ω ∂(Measure.infinitePi fun _ : ℕ => oneDraw 2), ∀ᶠ n in atTop, ∃ e : ℝ,
    bootEB (finVec [3, -1]) (.fin (1 / 4)) n (drawRows (N := 2) (fun i ω => ω i) n ω) = .ok (.fin e) ∧ e ≤ 2 := by
  have key : ∀ p : (Fin 2 → Fin 2) → Prop, (∀ f, ¬ p f) → drawShare p = 0 := by
    intro p hp
    unfold drawShare
    simp [hp]
  have hb : ∀ f : Fin 2 → Fin 2, -1 ≤ resampleMean [3, -1] f ∧ resampleMean [3, -1] f ≤ 3 := by
    intro f
    have hf : resampleMean [3, -1] f = ([(3 : ℝ), -1][f 0] + [(3 : ℝ), -1][f 1]) / 2 := by
      unfold resampleMean
      rw [show (∑ j : Fin [(3 : ℝ), -1].length, [(3 : ℝ), -1][f j]) = _ from Fin.sum_univ_two _]
      norm_num
    rw [hf]
    generalize f 0 = a
    generalize f 1 = b
    fin_cases a <;> fin_cases b <;> norm_num
  filter_upwards [C140_boot_EB (xs := [3, -1]) (drawStream_exists 2) (by simp) (c := 1 / 4) (by norm_num) (by norm_num) 2] with ω hω
  refine hω.mono fun n ⟨e, h1, h2, _⟩ => ⟨e, h1, h2 ?_ ?_⟩
  · refine (key _ fun f => ?_).trans_lt (by norm_num)
    have := (hb f).1
    simp only [avg, List.sum_cons, List.sum_nil, List.length_cons, List.length_nil, not_lt]
    norm_num
    exact this
  · refine (key _ fun f => ?_).trans_lt (by norm_num)
    have := (hb f).2
    simp only [avg, List.sum_cons, List.sum_nil, List.length_cons, List.length_nil, not_lt]
    norm_num
    exact this

/-- Any stream of replicates, here the means of resamples of 3 and -1: the share test against the reference 2. -/
example : ∀ᵐ ω ∂(Measure.infinitePi fun _ : ℕ => oneDraw 2), ∃ p : ℕ → ℝ,
    (∀ n, 1 ≤ n → significance (finVec (observedN (fun i (ω : ℕ → Fin 2 → Fin 2) => resampleMean [3, -1] (ω i)) n ω)) (.scalar (.fin 2)) = .ok (.fin (p n))) ∧
    Tendsto p atTop (𝓝 (idealPValue (Measure.infinitePi fun _ : ℕ => oneDraw 2) (fun ω => resampleMean [3, -1] (ω 0)) 2)) :=
  C140_significance (stream_replicates (xs := [3, -1]) (drawStream_exists 2)) 2

/-- The number of points of the example table. -/
noncomputable abbrev exN : ℕ := (List.zipWith (· - ·) [(1 : ℝ), 1 / 2] [0, 1]).length

theorem exN_eq : exN = 2 := by simp [exN]

instance : NeZero exN := ⟨by rw [exN_eq]; norm_num⟩

/-- The first 1000 draws from these points. -/
noncomputable def exRows (ω : ℕ → Fin exN → Fin exN) : List (List ℕ) := drawRows (fun i (ω : ℕ → Fin exN → Fin exN) => ω i) 1000 ω

theorem exRows_valid (ω : ℕ → Fin exN → Fin exN) : ValidDraws 2 1000 (exRows ω) := by
  rw [← exN_eq]
  exact drawRows_valid (fun i (ω : ℕ → Fin exN → Fin exN) => ω i) (n := 1000) (by norm_num) ω

theorem exBoot_success (pw : Bool) (ω : ℕ → Fin exN → Fin exN) : ∃ out, lossSummaryTable studentT exTable "A".toList pw (.fin (19 / 20))
    .boot [("L".toList, (Flt.fin 0, Flt.fin 2))] (fun _ _ => ⟨exRows ω, exRows ω⟩) =
      .ok out := by
  apply C52_success studentT pw (by norm_num) (by norm_num) (by simp)
  · intro _; exact studentT_isSymmetric le_rfl
  · intro _ _ _
    have e : exTable.nrows = 2 := rfl
    dsimp only
    rw [e]
    have hv := exRows_valid ω
    exact And.intro hv hv
  · simp [exTable]
  · simp [exTable]
  · simp [exTable]
  · intro metric hm
    simp only [exTable, List.mem_singleton] at hm
    subst hm
    refine ⟨.fin 0, .fin 2, exTable_limits, ⟨by simp, by simp, by simp, by simp, by simp⟩, ?_⟩
    intro method hm
    simp only [exTable, List.mem_cons, List.not_mem_nil, or_false] at hm
    rcases hm with rfl | rfl
    · exact ⟨_, exTable_A, rfl, by intro x hx; fin_cases hx <;> simp⟩
    · exact ⟨_, exTable_B, rfl, by intro x hx; fin_cases hx <;> first | (simp; done) | (simp; norm_num)⟩

/-- The example table with `method_EB='boot'`: the p-value of B against A is within 1/10 of the ideal one except with probability `3 exp(-5)`. -/
example (pw : Bool) {out : (ℕ → Fin exN → Fin exN) → List (List (Flt ℝ × Flt ℝ × Flt ℝ))}
    (ho : ∀ ω, lossSummaryTable studentT exTable "A".toList pw (.fin (19 / 20)) .boot [("L".toList, (Flt.fin 0, Flt.fin 2))]
      (fun _ _ => ⟨exRows ω, exRows ω⟩) = .ok (out ω))
    {cell : (ℕ → Fin exN → Fin exN) → Flt ℝ × Flt ℝ × Flt ℝ} (hc : ∀ ω, SummaryCell exTable (out ω) "L".toList "B".toList (cell ω)) :
    (Measure.infinitePi fun _ : ℕ => oneDraw exN).real
      {ω | ¬ ∃ p : ℝ, (cell ω).2.2 = .fin p ∧ |p - idealBootP (List.zipWith (· - ·) [1, 1 / 2] [0, 1])| ≤ 2 * (1 / 20)} ≤
      3 * Real.exp (-2000 * (1 / 20) ^ 2) :=
  C140_table exTable_limits exTable_B exTable_A (by decide) (by simp) (h := drawStream_exists exN) (draws := fun ω _ _ => ⟨exRows ω, exRows ω⟩)
    (D := fun i (ω : ℕ → Fin exN → Fin exN) => ω i) (fun ω => by
      have e := exRows.eq_1 ω
      rw [← e]
      simp only [ite_self]) ho hc (by norm_num)

end Mlp.Props
