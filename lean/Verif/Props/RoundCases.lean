import Verif.Props.BootRound
import Verif.Props.TableDouble
import Verif.Props.LossAccuracyDouble
import Verif.Props.BenchRound
import Verif.Props.RegrBenchRound
import Verif.Props.RegrNoiseRound
import Verif.Props.BenchAccuracyTable

/-!
# Further concrete cases for the properties C107 to C109, C111, C120 to C122 and C125

Each `example` meets all hypotheses of the theorem it names.
-/

namespace Mlp.Props
open Mlp.PerfR Mlp.Perf Mlp.BootR Mlp.Boot Mlp.Util Mlp.Spec Mlp.Lemmas Mlp.CurveR Mlp.Classif Mlp.Frame Mlp.Round Mlp.Paper Mlp.PaperR Mlp.LossR Mlp.Regr

/-! ### C107: five bootstrap replicates in double precision -/

theorem five_noNaN : NoNaN (finVec [3, 1, 2, 5, (4 : ℚ)]) := by simp [NoNaN, finVec]

example := C107_nested (rnd := (binary64 : ℚ → ℚ)) binary64_floatRounding.toMonoRounding binary64_halves (by norm_num) (boot := finVec [3, 1, 2, 5, 4])
  (by simp [finVec]) (by norm_num [finVec]) (c₁ := 1 / 4) (c₂ := 1 / 2) (by norm_num) (L₁ := .fin 2) (U₁ := .fin 4) (L₂ := .fin 2)
  (U₂ := .fin 4) (by decide +kernel) (by decide +kernel)
example := C107_basic (rnd := (binary64 : ℚ → ℚ)) binary64_floatRounding.toMonoRounding binary64_halves (by norm_num) (xs := [3, 1, 2, 5, 4])
  (by simp) (by norm_num) (c := 1 / 2) (by norm_num) (by norm_num) 3
example := C107_paired (rnd := (binary64 : ℚ → ℚ)) binary64_floatRounding.toMonoRounding (boot := finVec [3, 1, 2, 5, 4]) (r := finVec [1, 1, 3, 4, 4])
  (by simp [finVec]) (by simp [finVec]) five_noNaN (by simp [NoNaN, finVec])
example := C107_positions (rnd := (binary64 : ℚ → ℚ)) binary64_floatRounding binary64_halves (by norm_num) (u := 1 / 2 ^ 53)
  (by norm_num) (by norm_num) binary64_relError (boot := finVec [3, 1, 2, 5, 4]) (by simp [finVec]) (by norm_num [finVec]) five_noNaN
  (c := 1 / 3) (by norm_num) (by norm_num)
example := C107_exact (rnd := (binary64 : ℚ → ℚ)) binary64_floatRounding binary64_halves (by norm_num) (u := 1 / 2 ^ 53)
  (by norm_num) (by norm_num) binary64_relError (boot := finVec [3, 1, 2, 5, 4]) (by simp [finVec]) (by norm_num [finVec]) five_noNaN
  (c := 1 / 3) (by norm_num) (by norm_num) (k := 1) (by norm_num [finVec]) (by norm_num [finVec])
example := C107_coherent (rnd := (binary64 : ℚ → ℚ)) binary64_floatRounding binary64_halves (by norm_num) (u := 1 / 2 ^ 53)
  (by norm_num) binary64_relError (boot := finVec [3, 1, 2, 5, 4]) (by simp [finVec]) (by norm_num [finVec])
  (c := 1 / 2) (by norm_num [finVec]) (LB := .fin 2) (UB := .fin 4) (r := .fin 9) (by decide +kernel) (by simp) (by simp; norm_num)

/-! ### C108, C109: two samples within the limits 0 and 2, in double precision -/

theorem zeroTwo : ValidLimits (Flt.fin (0 : ℝ)) (.fin 2) ∧ Within (Flt.fin (0 : ℝ)) (.fin 2) [1, 1 / 2] ∧
    Within (Flt.fin (0 : ℝ)) (.fin 2) [2, 0] := by
  refine ⟨⟨by simp, by simp, by simp⟩, ?_, ?_⟩
  · intro x hx
    simp only [List.mem_cons, List.not_mem_nil, or_false] at hx
    rcases hx with rfl | rfl <;> norm_num
  · intro x hx
    simp only [List.mem_cons, List.not_mem_nil, or_false] at hx
    rcases hx with rfl | rfl <;> norm_num

example := C108_mean_and_EB doubleLib_good (u := 1 / 2 ^ 53) (by norm_num) binary64_relError binary64_halves (by norm_num) (xs := [1, 1 / 2])
  (by simp) (by norm_num) zeroTwo.1 zeroTwo.2.1 (c := 19 / 20) (by norm_num) (by norm_num) .t (by simp) [] (by simp) (b := 0) le_rfl
  binary64_floatRounding.zero (by
    rw [Flt.sub_fin, rF, mul_zero, Flt.fin_le_fin]
    exact binary64_floatRounding.nonneg (by norm_num))
example := C108_test doubleLib_good (u := 1 / 2 ^ 53) (by norm_num) binary64_relError binary64_halves (by norm_num) (xs := [1, 1 / 2])
  (by norm_num) zeroTwo.1 zeroTwo.2.1 .bernstein (by simp) [] (by simp)
example := C108_combined doubleLib_good (u := 1 / 2 ^ 53) (by norm_num) binary64_relError binary64_halves (by norm_num) (xs := [1, 1 / 2])
  (by simp) (by norm_num) zeroTwo.1 zeroTwo.2.1 (c := 19 / 20) (by norm_num) (by norm_num) .t (by simp) [] (by simp) (b := 0) le_rfl
  binary64_floatRounding.zero (by
    rw [Flt.sub_fin, rF, mul_zero, Flt.fin_le_fin]
    exact binary64_floatRounding.nonneg (by norm_num))
example := C108_cell doubleLib_good (u := 1 / 2 ^ 53) (by norm_num) binary64_relError binary64_halves (by norm_num) (xs := [1, 1 / 2])
  (rs := [2, 0]) (by simp) rfl (by norm_num) zeroTwo.1 zeroTwo.2.1 zeroTwo.2.2 (c := 19 / 20) (by norm_num) (by norm_num) .t (by simp) ⟨[], []⟩
  (by simp)
example := C109_cell doubleLib_good (u := 1 / 2 ^ 53) (by norm_num) binary64_relError binary64_halves (by norm_num) (xs := [1, 1 / 2])
  (rs := [2, 0]) (by simp) rfl (by norm_num) zeroTwo.1 zeroTwo.2.1 zeroTwo.2.2 (c := 19 / 20) (by norm_num) (by norm_num) .t (by simp) ⟨[], []⟩
  (by simp) false
example := C109_at_most (L := doubleLib) doubleLib_good (xs := [1, 1 / 2, 0]) (by simp) (h := 1)
  (fun k hk => by rw [mul_one]; exact binary64_nat (K := ℝ) (n := 3) (by norm_num) k hk) (by norm_num)
example := C109_at_least (L := doubleLib) doubleLib_good (xs := [1, 3 / 2, 7]) (by simp) (l := 1)
  (fun k hk => by rw [mul_one]; exact binary64_nat (K := ℝ) (n := 3) (by norm_num) k hk) (by norm_num)

/-! ### C120, C125: the rows of the examples in `LossDouble` -/

example (rescale : Bool) := C120_brier_certain doubleLib_good doubleLib_expLog sureRows_input sureRows_certain rescale
example := C120_normalize_certain doubleLib_good doubleLib_expLog (p := sureRows) (by simp [sureRows]) sureRows_certain
example (rescale : Bool) := C120_sphere_certain doubleLib_good doubleLib_expLog sureRows_input sureRows_certain rescale
example := C120_hard (L := doubleLib) (dotR := doubleDot) threeRows_input (fun r hr => atMostZero_logProbs (threeRows_zero r hr)) (m := 2)
  (by norm_num) (M := [[0, 2], [1, 0], [1, 1]]) (by simp [threeRows]) (by simp)
example := C120_zero_one (L := doubleLib) (dotR := doubleDot) threeRows_input (fun r hr => atMostZero_logProbs (threeRows_zero r hr))
example := C120_zero_one_certain (L := doubleLib) doubleLib_expLog sureRows_input sureRows_certain (g := (1 + 1 / 2 ^ 53) ^ 3 - 1) (by norm_num)
  (doubleDot_error 3)
example := C125_logsumexp doubleLib_good doubleLib_expLog doubleLib_accurate (r := [.fin (-1 / 2), .fin (-2), .ninf])
  (threeRows_proper _ (by simp [threeRows])) (by norm_num)
example := C125_normalize doubleLib_good doubleLib_expLog doubleLib_accurate (p := threeRows) (by simp [threeRows])
  (fun r hr => ⟨threeRows_proper r hr, threeRows_input.rows r hr⟩) (by norm_num [threeRows])
example (rescale : Bool) := C125_brier doubleLib_good doubleLib_expLog doubleLib_accurate threeRows_input threeRows_zero
  (by norm_num [threeRows]) rescale
example := C125_sphere doubleLib_good doubleLib_expLog doubleLib_accurate threeRows_input threeRows_proper threeRows_float
  (by norm_num [threeRows]) (fun r hr => by
    have := log_norm_bound (probs_nonneg r) (by rw [probs_length, threeRows_input.rows r hr]; simp [threeRows]) (threeRows_sum r hr).1
      (threeRows_sum r hr).2
    calc 1 / 2 ^ 53 * |Real.log (norm2 (probs r))| ≤ 1 / 2 ^ 53 * 63 := by gcongr
      _ ≤ 1 / 50 := by norm_num)

/-! ### C121: the methods of the example in `BenchRound` -/

theorem four_float : (binary64 : ℝ → ℝ) (-4) = -4 := by
  have := binary64_exact (K := ℝ) (-4) 0 (by norm_num); simpa using this

/-- The predictions of the two methods; the following theorems are about their table. -/
theorem benchPredictions : ∃ t, getPredLogProbR doubleLib exampleTrain exampleY exampleTest 2 benchMethods (.fin (-4)) = .ok t ∧ t.nrows = 2 ∧
    t.labels.length = 2 ∧ GoodTable t ∧ FloatPreds binary64 t ∧ t.methods.Nodup ∧ "noise".toList ∈ t.methods := by
  obtain ⟨t, h1, h2, h3, h4, -, h5, h6, -⟩ := C121_predictions doubleLib_good doubleLib_expLog (exampleGood (.fin (-4)) (by norm_num))
    (fun x hx => by cases hx; exact four_float)
    (methods := benchMethods) (by simp only [benchMethods, List.map_cons, List.map_nil]; decide) (by simp [benchMethods]) benchMethods_good
  refine ⟨t, h1, h2, by rw [h3]; rfl, h5, h6, h4.nodup_iff.2 (by simp only [benchMethods, List.map_cons, List.map_nil]; decide),
    h4.mem_iff.2 (by simp [benchMethods])⟩

example : ∃ t tbl, getPredLogProbR doubleLib exampleTrain exampleY exampleTest 2 benchMethods (.fin (-4)) = .ok t ∧
    lossTableR doubleLib t ⟨'i', [0, 1]⟩ (stdClassLossR doubleLib doubleDot) false = .ok tbl ∧ tbl.nrows = 2 := by
  obtain ⟨t, h1, h2, h3, h4, h5, h6, -⟩ := benchPredictions
  obtain ⟨tbl, h7, h8, -⟩ := C121_loss_table (dotR := doubleDot) doubleLib_good doubleLib_expLog h4 h6 h5 (y := ⟨'i', [0, 1]⟩)
    ⟨Or.inr rfl, by rw [h2]; rfl, by rw [h3]; simp⟩ (binary64_nat (by rw [h3]; norm_num))
  exact ⟨t, tbl, h1, h7, h8.trans h2⟩

/-! ### C122 -/

theorem twoThirds : RegrInput (realArr [2, 5]) (realArr [1 / 3, 5]) (realArr [3, 1]) 2 ∧ (realArr [2, 5]).Ok ∧ (realArr [1 / 3, 5]).Ok ∧
    (realArr [3, 1]).Ok :=
  ⟨realArr_input (by simp) rfl rfl (by simp), realArr_ok _, realArr_ok _, realArr_ok _⟩

example := C122_abs doubleLib_good binary64_relError twoThirds.1 twoThirds.2.1 twoThirds.2.2.1 twoThirds.2.2.2
example := C122_square doubleLib_good (u := 1 / 2 ^ 53) (by norm_num) binary64_relError twoThirds.1 twoThirds.2.1 twoThirds.2.2.1 twoThirds.2.2.2
example := C122_square_abs doubleLib twoThirds.1 twoThirds.2.1 twoThirds.2.2.1 twoThirds.2.2.2
example := C122_reject (L := doubleLib) (y := realArr [2, 5]) (mu := realArr [1, 5]) (std := realArr [0, 1]) (by
  rintro ⟨n, h⟩
  exact absurd (h.positive (.fin 0) (by simp [realArr, finVec])) (by simp))
example := C122_noise_accident (D := Unit) exampleTrain exampleTest (rest := [1]) (ys := [1, 2]) (by simp) rfl
example := C122_log (L := doubleLib) (u := 1 / 2 ^ 53) (by norm_num) binary64_relError (g := 1 / 10 ^ 15) (by norm_num) normLogCR_double
  twoThirds.1 twoThirds.2.1 twoThirds.2.2.1 twoThirds.2.2.2 (fun s _ => by
    refine (binary64_relError (Real.log s)).trans ?_
    gcongr
    norm_num)
example := C122_noise_degenerate (L := doubleLib) doubleLib_good (D := Unit) exampleTrain exampleTest (xs := [1, 2, 4]) (by simp) (rest := [1])
  (ys := [1, 2]) (by simp) rfl (C122_noise_predict doubleLib_good exampleTrain exampleTest (xs := [1, 2, 4]) (by simp) (n := 2) (rest := [1]) rfl)

end Mlp.Props
