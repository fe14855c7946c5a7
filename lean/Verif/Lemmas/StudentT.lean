import Verif.Spec.Stats
import Mathlib.Analysis.SpecialFunctions.JapaneseBracket
import Mathlib.MeasureTheory.Integral.IntegralEqImproper
import Mathlib.MeasureTheory.Integral.IntervalIntegral.Basic
import Mathlib.MeasureTheory.Integral.IntervalIntegral.FundThmCalculus
import Mathlib.MeasureTheory.Measure.Lebesgue.Integral
import Mathlib.MeasureTheory.Group.Integral

/-!
# Student's t distribution is a symmetric reference distribution

The theorems about the t-test assume `IsSymmetric`.  Here the assumption is discharged for the
distribution with the Student density.
-/

namespace Mlp.Lemmas
open Mlp.Paper Mlp.Spec MeasureTheory Set Filter

/-- The distribution with density proportional to `f`. -/
noncomputable def ofDensity (f : ℝ → ℝ) : RefDist where
  cdf t := (∫ x in Iic t, f x) / ∫ x, f x
  ppf := Function.invFun fun t => (∫ x in Iic t, f x) / ∫ x, f x

/-- A continuous, positive, even and integrable density gives a symmetric distribution. -/
theorem ofDensity_isSymmetric {f : ℝ → ℝ} (hc : Continuous f) (hp : ∀ x, 0 < f x)
    (he : ∀ x, f (-x) = f x) (hi : Integrable f) : IsSymmetric (ofDensity f) := by
  have hsub : ∀ a b : ℝ, (∫ x in Iic b, f x) - ∫ x in Iic a, f x = ∫ x in a..b, f x := fun a b =>
    intervalIntegral.integral_Iic_sub_Iic hi.integrableOn hi.integrableOn
  have hpos : ∀ a b : ℝ, a < b → 0 < ∫ x in a..b, f x := fun a b h =>
    intervalIntegral.intervalIntegral_pos_of_pos (hc.intervalIntegrable a b) hp h
  have hadd : ∀ a : ℝ, (∫ x in Iic a, f x) + ∫ x in Ioi a, f x = ∫ x, f x := fun a =>
    intervalIntegral.integral_Iic_add_Ioi hi.integrableOn hi.integrableOn
  have hneg : ∀ a : ℝ, (∫ x in Iic (-a), f x) = ∫ x in Ioi a, f x := by
    intro a
    have := integral_comp_neg_Iic (-a) f
    rw [neg_neg] at this
    rw [← this]
    simp only [he]
  have hge : ∀ a : ℝ, 0 ≤ ∫ x in Iic a, f x := fun a =>
    setIntegral_nonneg measurableSet_Iic fun x _ => (hp x).le
  have hgt : ∀ a : ℝ, 0 < ∫ x in Iic a, f x := by
    intro a
    have h1 := hsub (a - 1) a
    have h2 := hpos (a - 1) a (by linarith)
    have h3 := hge (a - 1)
    linarith
  have hZ : 0 < ∫ x, f x := by
    rw [← hadd 0, ← hneg 0, neg_zero]
    have := hgt 0
    linarith
  have hmono : StrictMono fun t => (∫ x in Iic t, f x) / ∫ x, f x := by
    intro a b h
    have h1 := hsub a b
    have h2 := hpos a b h
    exact div_lt_div_of_pos_right (by linarith) hZ
  have hsymm : ∀ t : ℝ, (∫ x in Iic (-t), f x) / (∫ x, f x) = 1 - (∫ x in Iic t, f x) / ∫ x, f x := by
    intro t
    rw [hneg, eq_sub_iff_add_eq, ← add_div, add_comm, hadd, div_self hZ.ne']
  have hcont : Continuous fun t => (∫ x in Iic t, f x) / ∫ x, f x := by
    apply Continuous.div_const
    have e : (fun t => ∫ x in Iic t, f x) = fun t => (∫ x in Iic (0 : ℝ), f x) + ∫ x in (0 : ℝ)..t, f x := by
      funext t
      rw [← hsub 0 t]; ring
    rw [e]
    exact continuous_const.add (intervalIntegral.continuous_primitive (fun a b => hc.intervalIntegrable a b) 0)
  have htop : Tendsto (fun t => (∫ x in Iic t, f x) / ∫ x, f x) atTop (nhds 1) := by
    have h := (aecover_Iic (μ := volume) (tendsto_id (α := ℝ) (x := atTop))).integral_tendsto_of_countably_generated hi
    have h2 := h.div_const (∫ x, f x)
    rw [div_self hZ.ne'] at h2
    exact h2
  have hsurj : ∀ q : ℝ, 0 < q → q < 1 → ∃ t, (∫ x in Iic t, f x) / (∫ x, f x) = q := by
    intro q h0 h1
    have hup : ∀ q : ℝ, q < 1 → ∃ t, q ≤ (∫ x in Iic t, f x) / ∫ x, f x := by
      intro q h1
      exact ((htop.eventually (eventually_gt_nhds h1)).exists).imp fun t h => le_of_lt h
    obtain ⟨b, hb⟩ := hup q h1
    obtain ⟨a, ha⟩ := hup (1 - q) (by linarith)
    have := mem_range_of_exists_le_of_exists_ge hcont (c := q) ⟨-a, by rw [hsymm]; linarith⟩ ⟨b, hb⟩
    exact this
  refine ⟨hmono, fun t => ?_, hsymm, fun q h0 h1 => Function.invFun_eq (hsurj q h0 h1)⟩
  show (∫ x in Iic t, f x) / (∫ x, f x) < 1
  rw [div_lt_one hZ, ← hadd t, ← hneg t]
  have := hgt (-t)
  linarith

/-- The Student density with `ν` degrees of freedom, without its constant. -/
noncomputable def studentDensity (ν : ℕ) (x : ℝ) : ℝ := (1 + x ^ 2 / ν) ^ (-((ν : ℝ) + 1) / 2)

/-- Student's t distribution with `ν` degrees of freedom. -/
noncomputable def studentT (ν : ℕ) : RefDist := ofDensity (studentDensity ν)

theorem studentDensity_pos {ν : ℕ} (h : 1 ≤ ν) (x : ℝ) : 0 < studentDensity ν x := by
  have hν : (0 : ℝ) < ν := by exact_mod_cast h
  unfold studentDensity
  exact Real.rpow_pos_of_pos (by positivity) _

theorem studentDensity_integrable {ν : ℕ} (h : 1 ≤ ν) : Integrable (studentDensity ν) := by
  have hν : (0 : ℝ) < ν := by exact_mod_cast h
  have hr : ((Module.finrank ℝ ℝ : ℕ) : ℝ) < (ν : ℝ) + 1 := by
    rw [Module.finrank_self]; push_cast; linarith
  have h1 := integrable_rpow_neg_one_add_norm_sq (E := ℝ) (μ := volume) hr
  have hs : Real.sqrt ν ≠ 0 := (Real.sqrt_pos.2 hν).ne'
  have h2 := h1.comp_div hs
  convert h2 using 1
  funext x
  unfold studentDensity
  rw [Real.norm_eq_abs, sq_abs, div_pow, Real.sq_sqrt hν.le]

/-- Student's t distribution has the properties assumed of a reference distribution. -/
theorem studentT_isSymmetric {ν : ℕ} (h : 1 ≤ ν) : IsSymmetric (studentT ν) := by
  have hν : (0 : ℝ) < ν := by exact_mod_cast h
  have hb : ∀ x : ℝ, 0 < 1 + x ^ 2 / ν := fun x => by positivity
  refine ofDensity_isSymmetric ?_ (studentDensity_pos h) ?_ (studentDensity_integrable h)
  · unfold studentDensity
    apply Continuous.rpow_const
    · fun_prop
    · intro x; exact Or.inl (hb x).ne'
  · intro x; unfold studentDensity; rw [neg_sq]

end Mlp.Lemmas
