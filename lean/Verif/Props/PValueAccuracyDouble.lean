import Verif.Props.PValueAccuracy
import Verif.Props.PrintedCoverageDouble

/-! # C138 in double precision -/

namespace Mlp.Props
open Mlp Mlp.Sciprint Mlp.Paper Mlp.PaperR Mlp.PerfR Mlp.BootR Mlp.Boot Mlp.Spec Mlp.Lemmas Mlp.Round MeasureTheory ProbabilityTheory

/-- Correctly rounded roots are accurate. -/
theorem C138_double_roots : AccurateRoots (1 / 2 ^ 53) doubleLib := by
  intro a b c ha hb hc r₁ r₂ hr z hz e
  obtain ⟨s₁, s₂, hs, h1, h2, e2, -⟩ := bern_root ha hb (m := -c) (by linarith)
  rw [neg_neg] at hs
  simp only [doubleLib, hs, Option.map_some, Option.some.injEq, Prod.mk.injEq] at hr
  obtain ⟨rfl, rfl⟩ := hr
  have hz2 : z = s₂ := by
    by_contra hne
    have k : (z - s₂) * (a * (z + s₂) + b) = 0 := by linarith [show (z - s₂) * (a * (z + s₂) + b) = a * z ^ 2 + b * z - (a * s₂ ^ 2 + b * s₂) by ring]
    rcases mul_eq_zero.1 k with k | k
    · exact hne (sub_eq_zero.1 k)
    · have h3 : 0 ≤ a * (z + s₂) := by positivity
      have h4 : a * (z + s₂) = 0 := by linarith
      rcases mul_eq_zero.1 h4 with h5 | h5
      · exact ha.ne' h5
      · exact hne (by linarith)
  have hm : max (binary64 s₁) (binary64 s₂) = binary64 s₂ :=
    max_eq_right (binary64_floatRounding.mono (h1.trans h2))
  rw [hm, hz2]
  have := binary64_relError (K := ℝ) s₂
  rw [abs_of_nonneg h2] at this
  refine this.trans (mul_le_mul_of_nonneg_left ?_ (by positivity))
  have : 0 ≤ b / a := by positivity
  linarith

/-- C138: the p-value of four numbers in double precision. -/
example : ∃ p pR : ℝ, bernsteinTest (finVec [1 / 2, -1 / 4, 1, 3 / 10]) (.fin (-1)) (.fin 1) = .ok (.fin p) ∧
    bernsteinTestR doubleLib (finVec [1 / 2, -1 / 4, 1, 3 / 10]) (.fin (-1)) (.fin 1) = .ok (.fin pR) ∧ 0 < p ∧ p ≤ 1 ∧
    p ≤ Real.exp (((4 : ℕ) : ℝ) * (11 * (((4 : ℕ) : ℝ) * (1 / 2 ^ 53)) + 2 * (1 / 2 ^ 53))) * pR ∧
    pR ≤ Real.exp (((4 : ℕ) : ℝ) * (11 * (((4 : ℕ) : ℝ) * (1 / 2 ^ 53)) + 2 * (1 / 2 ^ 53))) * p := by
  have hw : ∀ x ∈ [1 / 2, -1 / 4, 1, 3 / 10], (-1 : ℝ) ≤ x ∧ x ≤ 1 := by
    intro x hx
    simp only [List.mem_cons, List.not_mem_nil, or_false] at hx
    rcases hx with rfl | rfl | rfl | rfl <;> norm_num
  exact C138_bernstein_test doubleLib_good doubleLib_accurate C138_double_roots (by norm_num) (by norm_num) (xs := [1 / 2, -1 / 4, 1, 3 / 10])
    (by norm_num) hw ((avgAbs_le_sym (by simp) hw).trans (by norm_num)) (by norm_num)

/-- C138: the p-value in the coin table, whatever the tosses. -/
example (pw : Bool) (ω : Fin 10 → Bool) : ∃ out outR, ∃ cell cellR : Flt ℝ × Flt ℝ × Flt ℝ,
    SummaryCell (coinTable ω) out "L".toList "B".toList cell ∧ SummaryCell (coinTable ω) outR "L".toList "B".toList cellR ∧
    lossSummaryTable studentT (coinTable ω) "A".toList pw (.fin (19 / 20)) .bernstein [("L".toList, (Flt.fin (-1), Flt.fin 1))]
      (fun _ _ => ⟨[], []⟩) = .ok out ∧
    lossSummaryTableR doubleLib (coinTable ω) "A".toList pw (.fin (19 / 20)) .bernstein [("L".toList, (Flt.fin (-1), Flt.fin 1))]
      (fun _ _ => ⟨[], []⟩) = .ok outR ∧
    ∃ p pR : ℝ, cell.2.2 = .fin p ∧ cellR.2.2 = .fin pR ∧ 0 < p ∧ p ≤ 1 ∧
      p ≤ Real.exp (((10 : ℕ) : ℝ) * (11 * (((10 : ℕ) : ℝ) * (1 / 2 ^ 53)) + 2 * (1 / 2 ^ 53))) * pR ∧
      pR ≤ Real.exp (((10 : ℕ) : ℝ) * (11 * (((10 : ℕ) : ℝ) * (1 / 2 ^ 53)) + 2 * (1 / 2 ^ 53))) * p := by
  obtain ⟨out, hout⟩ := coinTable_success pw ω
  have hcell : ∃ a b, out = [[a, b]] := by
    have h := C51_cells hout
    simp only [coinTable] at h
    cases h with
    | cons h1 h2 =>
      cases h2
      cases h1 with
      | cons ha h3 =>
        cases h3 with
        | cons hb h4 =>
          cases h4
          exact ⟨_, _, rfl⟩
  obtain ⟨a, b, rfl⟩ := hcell
  obtain ⟨aR, bR, hab⟩ := coinTable_double_cells pw
  have hc : SummaryCell (coinTable ω) [[a, b]] "L".toList "B".toList b := ⟨0, 1, _, rfl, rfl, rfl, rfl⟩
  have hcR : SummaryCell (coinTable ω) [[aR ω, bR ω]] "L".toList "B".toList (bR ω) := ⟨0, 1, _, rfl, rfl, rfl, rfl⟩
  refine ⟨_, _, b, bR ω, hc, hcR, hout, hab ω, ?_⟩
  have := C138_table doubleLib_good doubleLib_accurate C138_double_roots (by norm_num) (by norm_num) hc hcR (coin_losses.meth ω) (coin_losses.ref ω)
    (by rw [observed_length, observed_length]) (by rw [observed_length]; norm_num) (observed_ne_nil (by norm_num) _ ω) (by simp) hout (hab ω)
    coin_losses.limits
  rw [observed_length] at this
  exact this

theorem coin_factor : (1 / 20 : ℝ) * Real.exp (((10 : ℕ) : ℝ) * (11 * (((10 : ℕ) : ℝ) * (1 / 2 ^ 53)) + 2 * (1 / 2 ^ 53))) ≤ 1 / 20 + 1 / 10 ^ 13 := by
  have h := Real.exp_bound_div_one_sub_of_interval (x := ((10 : ℕ) : ℝ) * (11 * (((10 : ℕ) : ℝ) * (1 / 2 ^ 53)) + 2 * (1 / 2 ^ 53)))
    (by positivity) (by norm_num)
  refine (mul_le_mul_of_nonneg_left h (by norm_num)).trans ?_
  norm_num

/-- C138 on the coin table in double precision, where both methods have the same expected loss: p-values of at most 5% come up with probability
at most 5%, as numbers and as text, and every text has a p-value. -/
example (pw : Bool) : ∃ a b : (Fin 10 → Bool) → Flt ℝ × Flt ℝ × Flt ℝ,
    (∀ ω, lossSummaryTableR doubleLib (coinTable ω) "A".toList pw (.fin (19 / 20)) .bernstein [("L".toList, (Flt.fin (-1), Flt.fin 1))]
      (fun _ _ => ⟨[], []⟩) = .ok [[a ω, b ω]]) ∧
    (∀ ω, ∃ (p : ℝ) (s : Bool) (v : ℚ), (b ω).2.2 = .fin p ∧ ShowsP (coinTable ω) [[a ω, b ω]] "L".toList "B".toList (s, v) ∧ p ≤ v) ∧
    (Measure.pi fun _ : Fin 10 => fairCoin).real {ω | ∃ p : ℝ, (b ω).2.2 = .fin p ∧ p ≤ 1 / 20} ≤ 1 / 20 + 1 / 10 ^ 13 ∧
    (Measure.pi fun _ : Fin 10 => fairCoin).real {ω | ∃ s v, ShowsP (coinTable ω) [[a ω, b ω]] "L".toList "B".toList (s, v) ∧ (v : ℝ) ≤ 1 / 20} ≤
      1 / 20 + 1 / 10 ^ 13 := by
  obtain ⟨a, b, hab⟩ := coinTable_double_cells pw
  have hc : ∀ ω, SummaryCell (coinTable ω) [[a ω, b ω]] "L".toList "B".toList (b ω) := fun ω => ⟨0, 1, _, rfl, rfl, rfl, rfl⟩
  refine ⟨a, b, hab, fun ω => ?_,
    (C138_false_alarm doubleLib_good doubleLib_accurate C138_double_roots (by norm_num) (by norm_num) coin_losses (by simp) (by norm_num) hab hc
      (by norm_num)).trans coin_factor,
    (C138_printed doubleLib_good doubleLib_accurate C138_double_roots (by norm_num) (by norm_num) coin_losses (by simp) (by norm_num) hab hc
      (by norm_num)).trans coin_factor⟩
  have f2 := summaryCellR_test (by simp) (hab ω) (hc ω) coin_losses.limits (coin_losses.meth ω) (coin_losses.ref ω) (by simp)
  rw [observed_sub] at f2
  simp only [Flt.sub_fin, Flt.neg_fin, rF, getTestR] at f2
  obtain ⟨p, pR, -, e2, -⟩ := pair_test doubleLib_good doubleLib_accurate C138_double_roots (by norm_num) (by norm_num)
    (observed_ne_nil (by norm_num) _ ω) (observed_within coin_losses.boundD ω) (by rw [observed_length]; norm_num)
  rw [e2, Except.ok.injEq] at f2
  obtain ⟨t, ht, hp⟩ := C137_prints binary64_floatRounding.toMonoRounding binary64_dyadic (hab ω) (fun metric hm method hme => by
    simp only [coinTable, List.mem_cons, List.not_mem_nil, or_false] at hm hme
    subst hm
    rcases hme with rfl | rfl
    · exact ⟨_, observed_ne_nil (by norm_num) _ ω, coin_losses.ref ω⟩
    · exact ⟨_, observed_ne_nil (by norm_num) _ ω, coin_losses.meth ω⟩) (coin_ratio pw (hab ω))
  obtain ⟨st, text, hst, -⟩ := hp _ sortsByAbs_insertionSort (fun _ => none) { shiftMod := some 3 } 3 rfl (by norm_num) (fun _ => none) true true
  obtain ⟨s, v, hpr⟩ := C138_shown ht hst (hc ω) f2.symm
  have hs : ShowsP (coinTable ω) [[a ω, b ω]] "L".toList "B".toList (s, v) := ⟨_, _, _, _, _, _, t, st, ht, hst, hpr⟩
  refine ⟨pR, s, v, f2.symm, hs, ?_⟩
  have := C138_cell (hc ω) f2.symm hs
  cases s with
  | true => exact (this.1 rfl).1.le
  | false => exact (this.2 rfl).1

end Mlp.Props
