import Verif.Lemmas.Ieee
import Verif.Spec.FloatLib
import Verif.Props.TableDouble
import Verif.Props.IeeeNearest

/-! # Rounding of IEEE double precision has gradual underflow -/

namespace Mlp.Props
open Mlp.Round Mlp.Spec Mlp.Lemmas

section
variable {K : Type} [Field K] [LinearOrder K] [IsStrictOrderedRing K] [FloorRing K]

theorem ieeeRound_small {x : K} (h : |x| < (2 ^ 1022)⁻¹) : ieeeRound x = roundEven (x * 2 ^ 1074) * (2 ^ 1074)⁻¹ := by
  unfold ieeeRound; rw [if_pos h]

theorem ieeeRound_big {x : K} (h : (2 ^ 1022)⁻¹ ≤ |x|) : ieeeRound x = binary64 x := by
  unfold ieeeRound; rw [if_neg (not_lt.2 h)]

theorem ieeeRound_neg (x : K) : ieeeRound (-x) = -ieeeRound x := by
  unfold ieeeRound
  rw [abs_neg]
  split_ifs
  · rw [neg_mul, roundEven_neg]; push_cast; ring
  · exact binary64_floatRounding.neg x

theorem ieeeRound_grid {x : K} {m : Int} (hm : x * 2 ^ 1074 = m) (h : |m| ≤ 2 ^ 53) : ieeeRound x = x := by
  have hx : x = (m : K) * 2 ^ (-(1074 : Int)) := by
    rw [zpow_neg, ← hm]
    norm_cast
    rw [mul_assoc, mul_inv_cancel₀ (by positivity), mul_one]
  have hb : binary64 x = x := by rw [hx, binary64_exact m _ h]
  have hr : InRange x := by
    refine ⟨?_, .inr ⟨m, hm⟩⟩
    have : |x| * 2 ^ 1074 ≤ 2 ^ 53 := by
      rw [← abs_of_pos (a := (2 : K) ^ 1074) (by positivity), ← abs_mul, hm, ← Int.cast_abs]
      exact_mod_cast h
    have h1 : |x| ≤ |x| * 2 ^ 1074 := le_mul_of_one_le_right (abs_nonneg _) (one_le_pow₀ (by norm_num))
    exact (h1.trans this).trans (pow_le_of (by norm_num))
  rw [ieeeRound_inRange hr, hb]

/-- The smallest normal number. -/
theorem binary64_tiny : binary64 ((2 ^ 1022)⁻¹ : K) = (2 ^ 1022)⁻¹ := by
  have e : ((2 : K) ^ 1022)⁻¹ = ((1 : Int) : K) * 2 ^ (-(1022 : Int)) := by
    rw [zpow_neg, Int.cast_one, one_mul]
    norm_cast
  rw [e, binary64_exact 1 _ (by norm_num)]

theorem tiny_grid : ((2 ^ 1022)⁻¹ : K) * 2 ^ 1074 = 2 ^ 52 := by
  rw [inv_mul_eq_div, div_eq_iff (by positivity), ← pow_add]

theorem ieeeRound_tiny : ieeeRound ((2 ^ 1022)⁻¹ : K) = (2 ^ 1022)⁻¹ := by
  rw [ieeeRound_big (by rw [abs_of_pos (by positivity)]), binary64_tiny]

theorem grid_div {x : K} (k : Int) (h : x = k * (2 ^ 1074)⁻¹) : x * 2 ^ 1074 = k := by
  rw [h, mul_assoc, inv_mul_cancel₀ (by positivity), mul_one]

theorem small_grid {x : K} (h : |x| ≤ (2 ^ 1022)⁻¹) : |roundEven (x * 2 ^ 1074)| ≤ 2 ^ 52 := by
  rw [_root_.abs_le] at h
  have e : (2 : K) ^ 52 = ((2 ^ 52 : Int) : K) := by norm_num
  rw [_root_.abs_le]
  constructor
  · have h1 : -(2 : K) ^ 52 ≤ x * 2 ^ 1074 := by
      rw [← tiny_grid, ← neg_mul]
      exact mul_le_mul_of_nonneg_right h.1 (by positivity)
    have := roundEven_mono h1
    rwa [e, roundEven_neg, roundEven_int] at this
  · have h1 : x * 2 ^ 1074 ≤ (2 : K) ^ 52 := by
      rw [← tiny_grid]
      exact mul_le_mul_of_nonneg_right h.2 (by positivity)
    have := roundEven_mono h1
    rwa [e, roundEven_int] at this

theorem ieeeRound_small_le {x : K} (h : |x| < (2 ^ 1022)⁻¹) : |ieeeRound x| ≤ (2 ^ 1022)⁻¹ := by
  rw [ieeeRound_small h, abs_mul, abs_of_pos (a := ((2 : K) ^ 1074)⁻¹) (by positivity), mul_inv_le_iff₀ (by positivity), tiny_grid,
    ← Int.cast_abs]
  exact_mod_cast small_grid h.le

theorem ieeeRound_mono : Monotone (ieeeRound : K → K) := by
  have pos : ∀ {x y : K}, 0 ≤ x → x ≤ y → ieeeRound x ≤ ieeeRound y := by
    intro x y h0 h
    by_cases h1 : |y| < (2 ^ 1022)⁻¹
    · have h2 : |x| < (2 ^ 1022)⁻¹ := by
        rw [abs_of_nonneg h0]; rw [abs_of_nonneg (h0.trans h)] at h1
        linarith
      rw [ieeeRound_small h1, ieeeRound_small h2]
      refine mul_le_mul_of_nonneg_right ?_ (by positivity)
      exact_mod_cast roundEven_mono (mul_le_mul_of_nonneg_right h (by positivity))
    · have h1 := not_lt.1 h1
      by_cases h2 : |x| < (2 ^ 1022)⁻¹
      · refine (le_abs_self _).trans ((ieeeRound_small_le h2).trans ?_)
        rw [ieeeRound_big h1, ← binary64_tiny]
        refine binary64_floatRounding.mono ?_
        rwa [abs_of_nonneg (h0.trans h)] at h1
      · rw [ieeeRound_big h1, ieeeRound_big (not_lt.1 h2)]
        exact binary64_floatRounding.mono h
  have z : ieeeRound (0 : K) = 0 := ieeeRound_grid (m := 0) (by simp) (by norm_num)
  intro x y h
  rcases le_total 0 x with h0 | h0
  · exact pos h0 h
  · rcases le_total y 0 with h1 | h1
    · have := pos (x := -y) (y := -x) (by linarith) (by linarith)
      rw [ieeeRound_neg, ieeeRound_neg] at this
      linarith
    · have a := pos le_rfl h1
      have b := pos (x := 0) (y := -x) le_rfl (by linarith)
      rw [ieeeRound_neg, z] at b
      rw [z] at a
      linarith

theorem binary64_big {x : K} (h : (2 ^ 1022)⁻¹ ≤ |x|) : (2 ^ 1022)⁻¹ ≤ |binary64 x| := by
  have hr := binary64_floatRounding (K := K)
  rcases le_total 0 x with h0 | h0
  · rw [abs_of_nonneg h0] at h
    have := hr.mono h
    rw [binary64_tiny] at this
    exact this.trans (le_abs_self _)
  · rw [abs_of_nonpos h0] at h
    have := hr.mono h
    rw [binary64_tiny, hr.neg] at this
    exact this.trans (neg_le_abs _)

theorem ieeeRound_idem (x : K) : ieeeRound (ieeeRound x) = ieeeRound x := by
  by_cases h : |x| < (2 ^ 1022)⁻¹
  · rw [ieeeRound_small h]
    refine ieeeRound_grid (grid_div _ rfl) ((small_grid h.le).trans (by norm_num))
  · have h := not_lt.1 h
    rw [ieeeRound_big h, ieeeRound_big (binary64_big h)]
    exact binary64_floatRounding.idem x

/-- The floats are multiples of the smallest one. -/
theorem float_grid {x : K} (h : ieeeRound x = x) : ∃ m : Int, x * 2 ^ 1074 = m := by
  by_cases h1 : |x| < (2 ^ 1022)⁻¹
  · rw [ieeeRound_small h1] at h
    exact ⟨_, grid_div _ h.symm⟩
  · have h1 := not_lt.1 h1
    rw [ieeeRound_big h1] at h
    obtain ⟨e, he⟩ : ∃ e : Nat, |x| ≤ 2 ^ e := by
      obtain ⟨n, hn⟩ := exists_nat_ge |x|
      exact ⟨n, hn.trans (by exact_mod_cast Nat.lt_two_pow_self.le)⟩
    have := (dyadic_rnd_of_ge (j := 1022) (e := e) h1 he).1
    rwa [h] at this

theorem grid_small {x : K} {m : Int} (hm : x * 2 ^ 1074 = m) (h : |x| ≤ 2 * (2 ^ 1022)⁻¹) : |m| ≤ 2 ^ 53 := by
  have : |(m : K)| ≤ 2 ^ 53 := by
    rw [← hm, abs_mul, abs_of_pos (a := (2 : K) ^ 1074) (by positivity)]
    calc |x| * 2 ^ 1074 ≤ 2 * (2 ^ 1022)⁻¹ * 2 ^ 1074 := mul_le_mul_of_nonneg_right h (by positivity)
      _ = 2 ^ 53 := by rw [mul_assoc, tiny_grid, ← pow_succ']
  rw [← Int.cast_abs] at this
  exact_mod_cast this

theorem ieeeRound_error (x : K) : |ieeeRound x - x| ≤ 1 / 2 ^ 53 * |x| + 1 / 2 ^ 1022 := by
  by_cases h : |x| < (2 ^ 1022)⁻¹
  · have h1 := roundEven_near (x * 2 ^ 1074)
    have e : ieeeRound x - x = (roundEven (x * 2 ^ 1074) - x * 2 ^ 1074) * (2 ^ 1074)⁻¹ := by
      rw [ieeeRound_small h, sub_mul, mul_assoc x, mul_inv_cancel₀ (by positivity), mul_one]
    rw [e, abs_mul, abs_of_pos (a := ((2 : K) ^ 1074)⁻¹) (by positivity)]
    have h2 : |(roundEven (x * 2 ^ 1074) : K) - x * 2 ^ 1074| * (2 ^ 1074)⁻¹ ≤ 1 / 2 * (2 ^ 1074)⁻¹ :=
      mul_le_mul_of_nonneg_right h1 (by positivity)
    have h3 : ((2 : K) ^ 1074)⁻¹ ≤ (2 ^ 1022)⁻¹ := inv_anti₀ (by positivity) (pow_le_of (by norm_num))
    have h4 : (0 : K) < (2 ^ 1074)⁻¹ := by positivity
    have h5 : 0 ≤ 1 / 2 ^ 53 * |x| := mul_nonneg (by positivity) (abs_nonneg x)
    rw [one_div (2 ^ 1022)]
    linarith
  · rw [ieeeRound_big (not_lt.1 h)]
    have := binary64_relError (K := K) x
    have h4 : (0 : K) < 1 / 2 ^ 1022 := by positivity
    linarith

theorem ieeeRound_halves : HalvesExact (ieeeRound : K → K) (2 ^ 52) := by
  intro k hk
  rw [← binary64_halves k hk]
  have h2 : ((k : K) / 2) ≤ 2 ^ 52 := by
    have : (k : K) ≤ 2 * 2 ^ 52 := by exact_mod_cast hk
    linarith
  rw [binary64_halves k hk, ieeeRound_inRange, binary64_halves k hk]
  refine ⟨?_, ?_⟩
  · rw [abs_of_nonneg (by positivity)]
    exact h2.trans (pow_le_of (by norm_num))
  · right
    refine ⟨k * 2 ^ 1073, ?_⟩
    push_cast
    rw [show (1074 : Nat) = 1073 + 1 by norm_num, pow_succ]
    ring

theorem ieeeRound_monoRounding : MonoRounding (ieeeRound : K → K) where
  mono := ieeeRound_mono
  zero := ieeeRound_grid (m := 0) (by simp) (by norm_num)
  one := by simpa using ieeeRound_halves (K := K) 2 (by norm_num)
  neg := ieeeRound_neg
  idem := ieeeRound_idem

end

/-- Rounding to doubles has gradual underflow. -/
theorem ieeeRound_gradual : GradualRounding (1 / 2 ^ 53) (1 / 2 ^ 1022) (fun x => ieeeRound x = x) (ieeeRound : ℝ → ℝ) where
  toMonoRounding := ieeeRound_monoRounding
  unit_nonneg := by positivity
  tiny_nonneg := by positivity
  tiny_le := by
    rw [div_div, one_div, one_div]
    refine inv_anti₀ (by positivity) ?_
    have : (10 : ℝ) ^ 101 ≤ 2 ^ 969 := by
      calc (10 : ℝ) ^ 101 ≤ (2 ^ 4) ^ 101 := pow_le_pow_left₀ (by norm_num) (by norm_num) _
        _ = 2 ^ 404 := by rw [← pow_mul]
        _ ≤ 2 ^ 969 := pow_le_of (by norm_num)
    calc (2 : ℝ) ^ 53 * 10 ^ 101 ≤ 2 ^ 53 * 2 ^ 969 := mul_le_mul_of_nonneg_left this (by positivity)
      _ = 2 ^ 1022 := by rw [← pow_add]
  error := ieeeRound_error
  add_error x y hx hy := by
    obtain ⟨a, ha⟩ := float_grid hx
    obtain ⟨b, hb⟩ := float_grid hy
    have hm : (x + y) * 2 ^ 1074 = ((a + b : Int) : ℝ) := by rw [add_mul, ha, hb]; push_cast; rfl
    by_cases h : |x + y| < (2 ^ 1022)⁻¹
    · have hle : |x + y| ≤ 2 * (2 ^ 1022)⁻¹ := by
        have : (0 : ℝ) < (2 ^ 1022)⁻¹ := by positivity
        linarith
      rw [ieeeRound_grid hm (grid_small hm hle), sub_self, abs_zero]
      positivity
    · rw [ieeeRound_big (not_lt.1 h)]
      exact binary64_relError _
  sub_small x y hx hy h := by
    obtain ⟨a, ha⟩ := float_grid hx
    obtain ⟨b, hb⟩ := float_grid hy
    have hm : (x - y) * 2 ^ 1074 = ((a - b : Int) : ℝ) := by rw [sub_mul, ha, hb]; push_cast; rfl
    rw [one_div] at h
    exact ieeeRound_grid hm (grid_small hm h)
  double x h := by
    rw [one_div] at h
    have h2 : (2 ^ 1022)⁻¹ ≤ |2 * x| := by
      rw [abs_mul, abs_of_pos (a := (2 : ℝ)) (by norm_num)]
      have := abs_nonneg x
      linarith
    rw [ieeeRound_big h.le, ieeeRound_big h2, binary64_double]
  double_float x hx := by
    obtain ⟨a, ha⟩ := float_grid hx
    have hm : (2 * x) * 2 ^ 1074 = ((2 * a : Int) : ℝ) := by rw [mul_assoc, ha]; push_cast; rfl
    by_cases h : |x| < (2 ^ 1022)⁻¹
    · refine ieeeRound_grid hm (grid_small hm ?_)
      rw [abs_mul, abs_of_pos (a := (2 : ℝ)) (by norm_num)]
      linarith
    · have h := not_lt.1 h
      have h2 : (2 ^ 1022)⁻¹ ≤ |2 * x| := by
        rw [abs_mul, abs_of_pos (a := (2 : ℝ)) (by norm_num)]
        have := abs_nonneg x
        linarith
      rw [ieeeRound_big h2, binary64_double]
      rw [ieeeRound_big h] at hx
      rw [hx]
  float := ieeeRound_idem

end Mlp.Props
