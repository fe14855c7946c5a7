import Verif.Props.TTestAccuracy
import Verif.Props.PValueAccuracyDouble

/-! # C139 in double precision -/

namespace Mlp.Props
open Mlp Mlp.Sciprint Mlp.Paper Mlp.PaperR Mlp.PerfR Mlp.BootR Mlp.Boot Mlp.Spec Mlp.Lemmas Mlp.Round MeasureTheory ProbabilityTheory
open scoped NNReal

/-- A correctly rounded `ss.t.sf` is accurate. -/
theorem C139_double_sf {n : Nat} (h : 2 ≤ n) : AccurateSf (1 / 2 ^ 53) doubleLib n := by
  intro t ht
  have hm : max (n - 1) 1 = n - 1 := max_eq_left (by omega)
  have hsym := studentT_isSymmetric (ν := n - 1) (by omega)
  refine ⟨binary64 (1 - (studentT (n - 1)).cdf t), ?_, ?_⟩
  · simp only [doubleLib, hm, RefDist.sf, rF]
  · have h1 := hsym.lt_one t
    have h2 := hsym.lt_one (-t)
    rw [hsym.symm] at h2
    refine (binary64_relError (K := ℝ) _).trans ?_
    rw [abs_of_pos (by linarith)]
    nlinarith

/-- C139: the p-value of three numbers in double precision. -/
example : ∃ p pR : ℝ, tTest studentT (finVec [1, 2, 6]) = .ok (.fin p) ∧ tTestR doubleLib (finVec [1, 2, 6]) = .ok (.fin pR) ∧
    (0 ≤ p ∧ p ≤ 1) ∧ (0 ≤ pR ∧ pR ≤ 1) ∧
    stdErr [1, 2, 6] * |pR - p| ≤ 26 * (((3 : ℕ) : ℝ) * (1 / 2 ^ 53)) * (stdErr [1, 2, 6] + avgAbs [1, 2, 6]) + 3 * (1 / 2 ^ 53) * stdErr [1, 2, 6] :=
  C139_t_test doubleLib_good doubleLib_accurate (xs := [1, 2, 6]) (by norm_num) (C139_double_sf (by simp))

theorem stdErr_126 : 0 < stdErr [1, 2, 6] := by
  have h1 : sqDev [1, 2, 6] = 14 := by norm_num [sqDev, avg]
  unfold stdErr
  rw [h1]
  simp only [List.length_cons, List.length_nil]
  positivity

/-- C139: the same in terms of the t statistic, for the floats nearest to 1, 2 and 6. -/
example : ∃ p pR : ℝ, tTest studentT (finVec [1, 2, 6]) = .ok (.fin p) ∧ tTestR doubleLib (finVec ([1, 2, 6].map doubleLib.rnd)) = .ok (.fin pR) ∧
    p = 2 * (1 - (studentT 2).cdf (|avg [1, 2, 6]| / stdErr [1, 2, 6])) ∧
    |pR - p| ≤ 26 * (((3 : ℕ) : ℝ) * (1 / 2 ^ 53)) * (1 + Real.sqrt ((3 : ℕ) : ℝ) + |avg [1, 2, 6]| / stdErr [1, 2, 6]) + 3 * (1 / 2 ^ 53) :=
  C139_t_stat doubleLib_good doubleLib_accurate (xs := [1, 2, 6]) (fun x _ => doubleLib_accurate.rnd x) (by norm_num) (C139_double_sf (by simp))
    (by simp) stdErr_126

/-- C139: the p-values of a table in double precision. -/
example {out outR : List (List (Flt ℝ × Flt ℝ × Flt ℝ))} {cell cellR : Flt ℝ × Flt ℝ × Flt ℝ}
    (hc : SummaryCell exTable out "L".toList "B".toList cell) (hcR : SummaryCell exTable outR "L".toList "B".toList cellR)
    (ho : lossSummaryTable studentT exTable "A".toList true (.fin (19 / 20)) .t [] (fun _ _ => ⟨[], []⟩) = .ok out)
    (hoR : lossSummaryTableR doubleLib exTable "A".toList true (.fin (19 / 20)) .t [] (fun _ _ => ⟨[], []⟩) = .ok outR) :
    ∃ p pR : ℝ, cell.2.2 = .fin p ∧ cellR.2.2 = .fin pR ∧ (0 ≤ p ∧ p ≤ 1) ∧ (0 ≤ pR ∧ pR ≤ 1) ∧
      stdErr [1 - 0, 1 / 2 - 1] * |pR - p| ≤ 26 * (((2 : ℕ) : ℝ) * (1 / 2 ^ 53)) * (stdErr [1 - 0, 1 / 2 - 1] + avgAbs [1 - 0, 1 / 2 - 1]) +
        3 * (1 / 2 ^ 53) * stdErr [1 - 0, 1 / 2 - 1] :=
  C139_table doubleLib_good doubleLib_accurate (xs := [1, 1 / 2]) (rs := [0, 1]) hc hcR exTable_B exTable_A rfl (by norm_num)
    (C139_double_sf (by simp)) (by simp) ho hoR (.default (by simp))

/-- The losses of the reference of `normalTable`. -/
theorem normalTable_ref : ∀ ω, HasLoss (normalTable ω) "L".toList "A".toList (finVec (observed (fun (_ : Fin 10) _ => 0) ω)) :=
  fun ω => ⟨[], [(("L".toList, "B".toList), _)], rfl, by simp, by simp⟩

/-- The losses of the method of `normalTable`. -/
theorem normalTable_meth : ∀ ω, HasLoss (normalTable ω) "L".toList "B".toList (finVec (observed (fun i (ω : Fin 10 → ℝ) => ω i) ω)) :=
  fun ω => ⟨[(("L".toList, "A".toList), _)], [], rfl, by simp, by simp⟩

/-- The table is returned in double precision, whatever the normal numbers. -/
theorem normalTable_success (pw : Bool) : ∀ ω, ∃ a b, lossSummaryTableR doubleLib (normalTable ω) "A".toList pw (.fin (19 / 20)) .t
    [] (fun _ _ => ⟨[], []⟩) = .ok [[a, b]] := by
  intro ω
  have hyp : ∀ metric ∈ (normalTable ω).metrics, ∃ lower upper : Flt ℝ, LimitsOf [] metric lower upper ∧ ValidLimits lower upper ∧
      GridLimit doubleLib.rnd (normalTable ω).nrows lower ∧ GridLimit doubleLib.rnd (normalTable ω).nrows upper ∧ ∀ method ∈ (normalTable ω).methods, ∃ xs : List ℝ, HasLoss (normalTable ω) metric method (finVec xs) ∧
        xs.length = (normalTable ω).nrows ∧ Within lower upper xs := by
    intro metric hm
    simp only [normalTable, List.mem_singleton] at hm
    subst hm
    refine ⟨.ninf, .pinf, roundedNormal_limits, by simp [ValidLimits], by simp [GridLimit], by simp [GridLimit], fun method hme => ?_⟩
    simp only [normalTable, List.mem_cons, List.not_mem_nil, or_false] at hme
    rcases hme with rfl | rfl
    · exact ⟨_, normalTable_ref ω, observed_length _ ω, fun x hx => by simp⟩
    · exact ⟨_, normalTable_meth ω, observed_length _ ω, fun x hx => by simp⟩
  have : ∃ out, lossSummaryTableR doubleLib (normalTable ω) "A".toList pw (.fin (19 / 20)) .t [] (fun _ _ => ⟨[], []⟩) = .ok out := by
    cases pw with
    | true =>
      obtain ⟨out, h, -⟩ := C108_table doubleLib_good (u := 1 / 2 ^ 53) (by norm_num) binary64_relError binary64_halves (by norm_num)
        (tbl := normalTable ω) (refMethod := "A".toList) (c := 19 / 20) (by norm_num) (by norm_num) (methodEB := .t) (by simp)
        (limits := []) (draws := fun _ _ => ⟨[], []⟩) (by intro h; cases h) (by simp [normalTable])
        (by simp [normalTable]) (by norm_num [normalTable]) (by simp [normalTable]) (fun metric hm => by
          obtain ⟨lo, hi, h1, h2, -, -, h3⟩ := hyp metric hm
          exact ⟨lo, hi, h1, h2, h3⟩)
      exact ⟨out, h⟩
    | false =>
      obtain ⟨out, h, -⟩ := C109_table_grid doubleLib_good (u := 1 / 2 ^ 53) (by norm_num) binary64_relError binary64_halves (by norm_num)
        (tbl := normalTable ω) (refMethod := "A".toList) (c := 19 / 20) (by norm_num) (by norm_num) (methodEB := .t) (by simp)
        (limits := []) (draws := fun _ _ => ⟨[], []⟩) (by intro h; cases h) (by simp [normalTable])
        (by simp [normalTable]) (by norm_num [normalTable]) (by simp [normalTable]) hyp
      exact ⟨out, h⟩
  obtain ⟨out, ho⟩ := this
  obtain ⟨a, b, rfl⟩ := two_cells rfl rfl ho
  exact ⟨a, b, ho⟩

theorem ten_bound : (1 / 20 : ℝ) + 26 * (((10 : ℕ) : ℝ) * (1 / 2 ^ 53)) * (1 + Real.sqrt ((10 : ℕ) : ℝ) + 12 / 5 / (1 / 20)) + 3 * (1 / 2 ^ 53) ≤
    1 / 20 + 1 / 10 ^ 11 := by
  have : Real.sqrt ((10 : ℕ) : ℝ) ≤ 4 := by
    rw [Real.sqrt_le_left (by norm_num)]
    norm_num
  generalize Real.sqrt ((10 : ℕ) : ℝ) = r at this ⊢
  norm_num
  linarith

/-- C139: ten standard normal numbers, rounded to double precision.  The p-value is at most 5% with probability at most 5%, up to `1e-11`. -/
example : (Measure.pi fun _ : Fin 10 => gaussianReal 0 1).real
    {ω | ∃ p : ℝ, tTestR doubleLib (finVec ((observed (fun i (ω : Fin 10 → ℝ) => ω i) ω).map doubleLib.rnd)) = .ok (.fin p) ∧ p ≤ 1 / 20} ≤
      1 / 20 + 1 / 10 ^ 11 :=
  (C139_false_alarm doubleLib_good doubleLib_accurate (by norm_num) (by norm_num) (C139_double_sf (by norm_num)) (gauss_sample 10)
    (by norm_num)).trans ten_bound

/-- C139 on the table of these numbers and a reference with losses 0. -/
example (pw : Bool) : ∃ a b : (Fin 10 → ℝ) → Flt ℝ × Flt ℝ × Flt ℝ,
    (∀ ω, lossSummaryTableR doubleLib (normalTable ω) "A".toList pw (.fin (19 / 20)) .t [] (fun _ _ => ⟨[], []⟩) = .ok [[a ω, b ω]]) ∧
    (Measure.pi fun _ : Fin 10 => gaussianReal 0 1).real {ω | ∃ p : ℝ, (b ω).2.2 = .fin p ∧ p ≤ 1 / 20} ≤ 1 / 20 + 1 / 10 ^ 11 ∧
    (Measure.pi fun _ : Fin 10 => gaussianReal 0 1).real
      {ω | ∃ s w, ShowsP (normalTable ω) [[a ω, b ω]] "L".toList "B".toList (s, w) ∧ (w : ℝ) ≤ 1 / 20} ≤ 1 / 20 + 1 / 10 ^ 11 := by
  choose a b hab using normalTable_success pw
  have hc : ∀ ω, SummaryCell (normalTable ω) [[a ω, b ω]] "L".toList "B".toList (b ω) := fun ω => ⟨0, 1, _, rfl, rfl, rfl, rfl⟩
  have hs : NormalSample (Measure.pi fun _ : Fin 10 => gaussianReal 0 1) (fun i (ω : Fin 10 → ℝ) => ω i - 0) 0 1 := by
    simpa only [sub_zero] using gauss_sample 10
  exact ⟨a, b, hab,
    (C139_table_false_alarm doubleLib_good doubleLib_accurate (by norm_num) (by norm_num) (C139_double_sf (by norm_num)) roundedNormal_limits (by simp)
      normalTable_meth normalTable_ref hs hab hc (by norm_num)).trans ten_bound,
    (C139_printed doubleLib_good doubleLib_accurate (by norm_num) (by norm_num) (C139_double_sf (by norm_num)) roundedNormal_limits (by simp)
      normalTable_meth normalTable_ref hs hab hc (by norm_num)).trans ten_bound⟩

end Mlp.Props
