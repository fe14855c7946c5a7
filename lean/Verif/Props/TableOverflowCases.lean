import Verif.Props.TableOverflow
import Verif.Props.TableIeeeCases
import Verif.Props.CurveIeeeTheorems

/-! # Concrete cases for C129 -/

namespace Mlp.Props
open Mlp.Paper Mlp.PaperR Mlp.PerfR Mlp.BootR Mlp.Boot Mlp.Spec Mlp.Lemmas Mlp.Round

noncomputable section

/-- A library for doubles in which an operation that overflows gives 0: sums from left to right, other functions correctly rounded,
quantiles cut off at `2 ^ 100`. -/
def overflowLib : Lib ℝ where
  rnd := ieeeOrZero
  sum := sumBy leftOrder ieeeOrZero
  sqrt x := ieeeRound (Real.sqrt x)
  log x := ieeeRound (Real.log x)
  exp x := ieeeRound (Real.exp x)
  roots a b c := (quadRoots a b c).map fun r => (ieeeRound r.1, ieeeRound r.2)
  tInterval n c := (max (-2 ^ 100) (min (2 ^ 100) (ieeeLib.tInterval n c).1), max (-2 ^ 100) (min (2 ^ 100) (ieeeLib.tInterval n c).2))
  tSf := ieeeLib.tSf

end

theorem sqrt_factor {x : ℝ} (h : ieeeRound x = x) (h0 : 0 < x) :
    Real.sqrt x / 2 ≤ ieeeRound (Real.sqrt x) ∧ ieeeRound (Real.sqrt x) ≤ 2 * Real.sqrt x := by
  have h1 : ((2 : ℝ) ^ 1022)⁻¹ ≤ Real.sqrt x := by
    refine Real.le_sqrt_of_sq_le (le_trans ?_ (float_ge h h0))
    rw [← inv_pow, ← pow_mul, ← inv_pow]
    exact pow_le_pow_of_le_one (by norm_num) (by norm_num) (by norm_num)
  have hs := Real.sqrt_nonneg x
  have h2 := binary64_relError (K := ℝ) (Real.sqrt x)
  rw [ieeeRound_big (by rwa [abs_of_nonneg hs])]
  rw [abs_of_nonneg hs, _root_.abs_le] at h2
  norm_num at h2
  constructor <;> linarith [h2.1, h2.2]

theorem overflowLib_ieee : IeeeLib overflowLib leftOrder where
  rnd := ieeeOrZero_follows
  is_order := leftOrder_isOrder
  sum _ := rfl
  sqrt_zero := ieeeLib_sign.sqrt_zero
  sqrt_nonneg := ieeeLib_sign.sqrt_nonneg
  sqrt_le x h h0 := by
    rcases h0.eq_or_lt with rfl | h0
    · simp [overflowLib, ieeeRound_monoRounding.zero]
    · have h1 := sqrt_factor h h0
      have h2 := Real.mul_self_sqrt h0.le
      have h3 := Real.sqrt_nonneg x
      change ieeeRound (Real.sqrt x) * ieeeRound (Real.sqrt x) ≤ 4 * x
      nlinarith [mul_self_le_mul_self (by linarith [h1.1]) h1.2]
  sqrt_ge x h h0 := by
    rcases h0.eq_or_lt with rfl | h0
    · simp [overflowLib, ieeeRound_monoRounding.zero]
    · have h1 := sqrt_factor h h0
      have h2 := Real.mul_self_sqrt h0.le
      have h3 := Real.sqrt_nonneg x
      change x ≤ 4 * (ieeeRound (Real.sqrt x) * ieeeRound (Real.sqrt x))
      nlinarith [mul_self_le_mul_self (by linarith) h1.1]
  log_ge := ieeeLib_sign.log_pos
  log_le x h := by
    have h1 : Real.log x ≤ x / 2 := by
      have e : Real.log x = Real.log (x / 2) + Real.log 2 := by
        rw [← Real.log_mul (by linarith) (by norm_num)]
        congr 1
        ring
      have := Real.log_le_sub_one_of_pos (show 0 < x / 2 by linarith)
      linarith [Real.log_two_lt_d9]
    have h2 := half_le_log h
    have h3 := (_root_.abs_le.1 (ieeeRound_error (Real.log x))).2
    rw [abs_of_nonneg (by linarith)] at h3
    have h4 : (1 : ℝ) / 2 ^ 1022 ≤ 1 / 2 ^ 2 := one_div_le_one_div_of_le (by positivity) (pow_le_of (by norm_num))
    change ieeeRound (Real.log x) ≤ x
    have h5 : (1 : ℝ) / 2 ^ 53 * Real.log x ≤ 1 / 4 * Real.log x := mul_le_mul_of_nonneg_right (by norm_num) (by linarith)
    generalize (1 : ℝ) / 2 ^ 1022 = t at *
    norm_num at h4
    linarith
  exp_nonneg := ieeeLib_sign.exp_nonneg
  exp_le x h := by
    have := ieeeRound_mono (Real.exp_le_one_iff.2 h)
    rwa [show ieeeRound (1 : ℝ) = 1 by simpa using ieeeRound_pow 0] at this
  roots a b c h := by
    obtain ⟨a1, a2, b1, b2, c1, c2⟩ := h
    have a0 : 0 < a := lt_of_lt_of_le (by positivity) a1
    have hac : a * -c ≤ 2 ^ 240 * 2 ^ 240 := mul_le_mul a2 c2 (by linarith) (by positivity)
    have hbb : b ^ 2 ≤ 2 ^ 240 * 2 ^ 240 := by rw [sq]; exact mul_le_mul b2 b2 b1 (by positivity)
    have hD : b ^ 2 - 4 * a * c ≤ (2 ^ 242) ^ 2 := by
      have e : ((2 : ℝ) ^ 242) ^ 2 = 16 * (2 ^ 240 * 2 ^ 240) := by ring
      rw [e]
      nlinarith
    have hDb : b ^ 2 ≤ b ^ 2 - 4 * a * c := by nlinarith
    have hs : b ≤ Real.sqrt (b ^ 2 - 4 * a * c) := Real.le_sqrt_of_sq_le hDb
    have hs2 : Real.sqrt (b ^ 2 - 4 * a * c) ≤ 2 ^ 242 := (Real.sqrt_le_left (by positivity)).2 hD
    have hb3 : b ≤ 2 ^ 242 := le_pow b2 (by norm_num)
    have h0 : ¬ (b ^ 2 - 4 * a * c < 0) := by nlinarith [sq_nonneg b]
    have big : ∀ y : ℝ, |y| ≤ 2 ^ 243 → |ieeeRound (y / (2 * a))| ≤ 2 ^ 500 := by
      intro y hy
      refine ieee_bound (e := 500) ?_
      rw [abs_div, abs_of_pos (by linarith : (0 : ℝ) < 2 * a), div_le_iff₀ (by linarith)]
      have e : (2 : ℝ) ^ 243 ≤ 2 ^ 500 * (1 / 2 ^ 240) := by
        rw [show 500 = 260 + 240 by norm_num, pow_add, mul_assoc, mul_one_div_cancel (by positivity), mul_one]
        exact pow_le_of (by norm_num)
      exact hy.trans (e.trans (mul_le_mul_of_nonneg_left (by linarith) (by positivity)))
    have e243 : (2 : ℝ) ^ 243 = 2 * 2 ^ 242 := by ring
    refine ⟨_, _, by simp only [overflowLib, quadRoots, if_neg h0, Option.map_some]; rfl, .inl ?_, .inr ?_, big _ ?_, big _ ?_⟩
    · have h := ieeeRound_mono (show (-b - Real.sqrt (b ^ 2 - 4 * a * c)) / (2 * a) ≤ 0 from
        div_nonpos_of_nonpos_of_nonneg (by linarith) (by linarith))
      rwa [ieeeRound_monoRounding.zero] at h
    · exact ieeeRound_monoRounding.nonneg (div_nonneg (by linarith) (by linarith))
    · rw [e243, _root_.abs_le]
      constructor <;> linarith
    · rw [e243, _root_.abs_le]
      constructor <;> linarith
  tInterval n c h0 h1 := max_le_max le_rfl (min_le_min le_rfl (ieeeLib_sign.tInterval n c h0 h1))
  tInterval_le n c _ _ _ := by
    have key : ∀ y : ℝ, |max (-2 ^ 100) (min (2 ^ 100) y)| ≤ 2 ^ 100 := by
      intro y
      rw [_root_.abs_le]
      exact ⟨le_max_left _ _, max_le (by have : (0 : ℝ) < 2 ^ 100 := by positivity
                                         linarith) (min_le_left _ _)⟩
    exact ⟨key _, key _⟩
  tSf := ieeeLib_sign.tSf
  tSf_inf := ieeeLib_sign.tSf_inf
  tSf_nan := ieeeLib_sign.tSf_nan

/-- The overflow of this library differs from that of a library without largest exponent. -/
example : overflowLib.rnd (2 ^ 1024) ≠ ieeeRound (2 ^ 1024) := by
  have h : ieee64 ((2 : ℝ) ^ 1024) = .pinf := by
    unfold ieee64
    simp only [ieeeRound_pow]
    rw [if_neg, if_pos (by positivity)]
    rw [abs_of_pos (by positivity)]
    exact lt_irrefl _
  simp only [overflowLib, ieeeOrZero, h, ieeeRound_pow]
  positivity

/-- Losses as large as the theorems allow, and moderate ones. -/
noncomputable def hugeTable : LossTable :=
  ⟨["L".toList], ["A".toList, "B".toList], 2, [(("L".toList, "A".toList), finVec [2 ^ 200, -2 ^ 200]), (("L".toList, "B".toList), finVec [2, 0])]⟩

theorem hugeTable_A : HasLoss hugeTable "L".toList "A".toList (finVec [2 ^ 200, -2 ^ 200]) := ⟨[], _, rfl, by simp, by simp⟩
theorem hugeTable_B : HasLoss hugeTable "L".toList "B".toList (finVec [2, 0]) :=
  ⟨[(("L".toList, "A".toList), finVec [2 ^ 200, -2 ^ 200])], [], rfl, by simp, by simp⟩

theorem hugeTable_hyp : ∀ metric ∈ hugeTable.metrics, ∃ lower upper : Flt ℝ, LimitsOf [] metric lower upper ∧
    ValidLimits lower upper ∧ ModerateLimits lower upper ∧
    (∀ l, lower = .fin l → ∃ v : ℤ, l = v ∧ hugeTable.nrows * |v| ≤ 2 ^ 53) ∧
    (∀ h, upper = .fin h → ∃ v : ℤ, h = v ∧ hugeTable.nrows * |v| ≤ 2 ^ 53) ∧
      ∀ method ∈ hugeTable.methods, ∃ xs : List ℝ, HasLoss hugeTable metric method (finVec xs) ∧ xs.length = hugeTable.nrows ∧
        Within lower upper xs ∧ ∀ x ∈ xs, ieeeRound x = x ∧ |x| ≤ 2 ^ 200 := by
  intro metric hm
  simp only [hugeTable, List.mem_singleton] at hm
  subst hm
  refine ⟨.ninf, .pinf, .default (by simp), ⟨by simp, by simp, by simp, by simp, by simp⟩,
    ⟨by simp, by simp, by simp⟩, by simp, by simp, fun method hm => ?_⟩
  have hp : |(2 : ℝ) ^ 200| ≤ 2 ^ 200 := by rw [abs_of_pos (by positivity)]
  simp only [hugeTable, List.mem_cons, List.not_mem_nil, or_false] at hm
  rcases hm with rfl | rfl
  · refine ⟨_, hugeTable_A, rfl, fun x _ => ⟨by simp, by simp⟩, fun x hx => ?_⟩
    simp only [List.mem_cons, List.not_mem_nil, or_false] at hx
    rcases hx with rfl | rfl
    · exact ⟨ieeeRound_pow 200, hp⟩
    · exact ⟨by rw [ieeeRound_neg, ieeeRound_pow], by rwa [abs_neg]⟩
  · refine ⟨_, hugeTable_B, rfl, fun x _ => ⟨by simp, by simp⟩, fun x hx => ?_⟩
    have h2 : (2 : ℝ) ≤ 2 ^ 200 := by simpa using pow_le_of (K := ℝ) (show 1 ≤ 200 by norm_num)
    simp only [List.mem_cons, List.not_mem_nil, or_false] at hx
    rcases hx with rfl | rfl
    · exact ⟨one_two_float.1, by rwa [abs_of_pos (by norm_num)]⟩
    · exact ⟨one_two_float.2.2, by rw [abs_zero]; positivity⟩

theorem hugeTable_hyp' : ∀ metric ∈ hugeTable.metrics, ∃ lower upper : Flt ℝ, LimitsOf [] metric lower upper ∧
    ValidLimits lower upper ∧ ModerateLimits lower upper ∧ ∀ method ∈ hugeTable.methods, ∃ xs : List ℝ,
      HasLoss hugeTable metric method (finVec xs) ∧ xs.length = hugeTable.nrows ∧ Within lower upper xs ∧ ∀ x ∈ xs, |x| ≤ 2 ^ 200 := by
  intro metric hm
  obtain ⟨l, u, a, b, c, -, -, d⟩ := hugeTable_hyp metric hm
  refine ⟨l, u, a, b, c, fun method hmeth => ?_⟩
  obtain ⟨xs, d1, d2, d3, d4⟩ := d method hmeth
  exact ⟨xs, d1, d2, d3, fun x hx => (d4 x hx).2⟩

/-- The table with errors from the t distribution is produced with and without `pairwise_CI`, and is the one of the library without
largest exponent. -/
example (pw : Bool) : ∃ out, lossSummaryTableR overflowLib hugeTable "B".toList pw (.fin (15 / 16)) .t [] (fun _ _ => ⟨[], []⟩) =
    .ok out := by
  cases pw with
  | true =>
    obtain ⟨out, h, -⟩ := C129_paired overflowLib_ieee (tbl := hugeTable) (refMethod := "B".toList) one_two_float.2.1
      (by norm_num) (by norm_num) (methodEB := .t) (by simp) (limits := []) (draws := fun _ _ => ⟨[], []⟩) (by simp)
      (by simp [hugeTable]) (by simp [hugeTable]) (by simp [hugeTable]) (by simp [hugeTable]) hugeTable_hyp'
    exact ⟨out, h⟩
  | false =>
    obtain ⟨out, h, -⟩ := C129_integers overflowLib_ieee (tbl := hugeTable) (refMethod := "B".toList) one_two_float.2.1
      (by norm_num) (by norm_num) (methodEB := .t) (by simp) (limits := []) (draws := fun _ _ => ⟨[], []⟩) (by simp)
      (by simp [hugeTable]) (by simp [hugeTable]) (by simp [hugeTable]) (by simp [hugeTable])
      (fun metric hm => by
        obtain ⟨l, u, a, b, -, c, d, e⟩ := hugeTable_hyp metric hm
        exact ⟨l, u, a, b, c, d, e⟩)
    exact ⟨out, h⟩

example := C129_unpaired overflowLib_ieee (tbl := hugeTable) (refMethod := "B".toList) one_two_float.2.1
  (by norm_num) (by norm_num) (methodEB := .t) (by simp) (limits := []) (draws := fun _ _ => ⟨[], []⟩) (by simp)
  (by simp [hugeTable]) (by simp [hugeTable]) (by simp [hugeTable]) (by simp [hugeTable])
  (fun metric hm => by
    obtain ⟨l, u, a, b, c, -, -, e⟩ := hugeTable_hyp metric hm
    exact ⟨l, u, a, b, c, e⟩)

/-- Whether an overflow gives 0 or a number beyond the largest double makes no difference. -/
example (pw : Bool) : lossSummaryTableR { overflowLib with rnd := ieeeRound, sum := sumBy leftOrder ieeeRound } hugeTable
      "B".toList pw (.fin (15 / 16)) .bernstein [] (fun _ _ => ⟨[], []⟩) =
    lossSummaryTableR overflowLib hugeTable "B".toList pw (.fin (15 / 16)) .bernstein [] (fun _ _ => ⟨[], []⟩) :=
  C129_no_overflow overflowLib_ieee ieeeRound_follows one_two_float.2.1 (by norm_num) (by norm_num) (by simp)
    (by simp [hugeTable]) (moderate_limits hugeTable_hyp') (moderate_losses hugeTable_hyp')

example := C129_mean overflowLib_ieee (xs := [2 ^ 900, -2 ^ 900]) (by simp) (by simp) (by
  intro x hx
  have hp : |(2 : ℝ) ^ 900| ≤ 2 ^ 900 := by rw [abs_of_pos (by positivity)]
  simp only [List.mem_cons, List.not_mem_nil, or_false] at hx
  rcases hx with rfl | rfl
  · exact ⟨ieeeRound_pow 900, hp⟩
  · exact ⟨by rw [ieeeRound_neg, ieeeRound_pow], by rwa [abs_neg]⟩)

end Mlp.Props
