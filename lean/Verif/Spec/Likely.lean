import Mathlib.MeasureTheory.Measure.Real
import Mathlib.MeasureTheory.Measure.Typeclasses.Probability

/-! # Probabilities of events

The events in the theorems about random data are described by what a program returns, and nothing is assumed about how the program's
arguments depend on the outcome, so an event need not be measurable.  In Mathlib the measure of such a set is its outer measure, and "the outer
measure is at least 95%" says little.  (An upper bound on the outer measure is a strong statement, and is used for errors.)  The theorems therefore use the
notions of this file. -/

namespace Mlp.Spec
open MeasureTheory Filter Topology

variable {Ω : Type} [MeasurableSpace Ω]

/-- The event `A` has probability at least `c`: it contains a measurable event of probability at least `c`. -/
def Likely (P : Measure Ω) (c : ℝ) (A : Set Ω) : Prop := ∃ B, MeasurableSet B ∧ B ⊆ A ∧ c ≤ P.real B

/-- The event `A` is measurable and has probability `c`. -/
def IsProb (P : Measure Ω) (c : ℝ) (A : Set Ω) : Prop := MeasurableSet A ∧ P.real A = c

/-- The events `A n` are measurable from some `n` on, and their probability tends to `c`. -/
def ProbTendsto (P : Measure Ω) (A : ℕ → Set Ω) (c : ℝ) : Prop :=
  (∀ᶠ n in atTop, MeasurableSet (A n)) ∧ Tendsto (fun n => P.real (A n)) atTop (𝓝 c)

variable {P : Measure Ω} {c : ℝ} {A B : Set Ω}

theorem Likely.mono (h : Likely P c A) (hAB : A ⊆ B) : Likely P c B := by
  obtain ⟨C, hC, hCA, hc⟩ := h
  exact ⟨C, hC, hCA.trans hAB, hc⟩

theorem Likely.weaken (h : Likely P c A) {d : ℝ} (hd : d ≤ c) : Likely P d A := by
  obtain ⟨C, hC, hCA, hc⟩ := h
  exact ⟨C, hC, hCA, hd.trans hc⟩

/-- For a measurable event this is the usual notion. -/
theorem likely_iff (hA : MeasurableSet A) [IsFiniteMeasure P] : Likely P c A ↔ c ≤ P.real A :=
  ⟨fun ⟨_, _, hB, hc⟩ => hc.trans (measureReal_mono hB), fun h => ⟨A, hA, subset_rfl, h⟩⟩

theorem IsProb.likely (h : IsProb P c A) : Likely P c A := ⟨A, h.1, subset_rfl, h.2.ge⟩

theorem Likely.le [IsFiniteMeasure P] (h : Likely P c A) : c ≤ P.real A := by
  obtain ⟨C, -, hCA, hc⟩ := h
  exact hc.trans (measureReal_mono hCA)

theorem ProbTendsto.congr {A B : ℕ → Set Ω} (h : ProbTendsto P A c) (hAB : ∀ᶠ n in atTop, A n = B n) : ProbTendsto P B c := by
  refine ⟨?_, h.2.congr' ?_⟩
  · filter_upwards [h.1, hAB] with n h1 h2
    rwa [← h2]
  · filter_upwards [hAB] with n h2
    rw [h2]

variable [IsProbabilityMeasure P]

theorem Likely.of_all (hc : c ≤ 1) (h : ∀ ω, ω ∈ A) : Likely P c A :=
  ⟨Set.univ, MeasurableSet.univ, fun ω _ => h ω, by rwa [probReal_univ]⟩

/-- From "fails with outer measure at most `1 - c`" to "holds with probability at least `c`". -/
theorem Likely.of_compl (h : P.real B ≤ 1 - c) (hBA : ∀ ω, ω ∉ B → ω ∈ A) : Likely P c A := by
  refine ⟨(toMeasurable P B)ᶜ, (measurableSet_toMeasurable P B).compl, fun ω hω => hBA ω fun hB => hω (subset_toMeasurable P B hB), ?_⟩
  rw [probReal_compl_eq_one_sub (measurableSet_toMeasurable P B), measureReal_def, measure_toMeasurable, ← measureReal_def]
  linarith

/-- The event fails with outer measure at most `1 - c`. -/
theorem Likely.fail (h : Likely P c A) : P.real Aᶜ ≤ 1 - c := by
  obtain ⟨C, hC, hCA, hc⟩ := h
  refine (measureReal_mono (Set.compl_subset_compl.2 hCA)).trans ?_
  rw [probReal_compl_eq_one_sub hC]
  linarith

/-- If each of finitely many events fails with probability at most `a i`, they all hold with probability at least one minus the sum. -/
theorem Likely.all {ι : Type} {s : Finset ι} {A : ι → Set Ω} {a : ι → ℝ} (h : ∀ i ∈ s, Likely P (1 - a i) (A i)) :
    Likely P (1 - ∑ i ∈ s, a i) {ω | ∀ i ∈ s, ω ∈ A i} := by
  refine .of_compl (B := ⋃ i ∈ s, (A i)ᶜ) ?_ fun ω hω i hi => ?_
  · refine (measureReal_biUnion_finset_le s _).trans ?_
    rw [sub_sub_cancel]
    exact Finset.sum_le_sum fun i hi => (h i hi).fail.trans (by linarith)
  · by_contra hn
    exact hω (Set.mem_biUnion hi hn)

theorem ProbTendsto.eventually_likely {A : ℕ → Set Ω} (h : ProbTendsto P A c) {d : ℝ} (hd : d < c) : ∀ᶠ n in atTop, Likely P d (A n) := by
  filter_upwards [h.1, h.2.eventually_const_le hd] with n h1 h2
  exact ⟨A n, h1, subset_rfl, h2⟩

end Mlp.Spec
