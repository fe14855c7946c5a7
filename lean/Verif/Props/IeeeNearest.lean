import Verif.Lemmas.Ieee
import Verif.Spec.Double

/-! # Property C127: what the doubles are and how operations round to them -/

set_option linter.unusedSectionVars false

namespace Mlp.Props
open Mlp.Spec Mlp.Lemmas Mlp.Round

section
variable {K : Type} [Field K] [LinearOrder K] [IsStrictOrderedRing K] [FloorRing K] {x y : K}

theorem roundEven_neg (x : K) : roundEven (-x) = -roundEven x := by
  by_cases hx : x = (⌊x⌋ : K)
  · rw [hx, ← Int.cast_neg, roundEven_int, roundEven_int]
  · have h1 := Int.floor_le x
    have h2 := Int.lt_floor_add_one x
    have h3 : (⌊x⌋ : K) < x := lt_of_le_of_ne h1 (Ne.symm hx)
    have hf : ⌊-x⌋ = -⌊x⌋ - 1 := by
      rw [Int.floor_eq_iff]
      push_cast
      constructor <;> linarith
    unfold roundEven
    rw [hf]
    push_cast
    split_ifs <;> first | omega | (exfalso; linarith)

theorem roundEven_abs (x : K) : |roundEven x| = roundEven |x| := by
  have hn : ∀ z : K, 0 ≤ z → 0 ≤ roundEven z := fun z hz => by
    have := roundEven_mono hz
    have h0 := roundEven_int (K := K) 0
    rw [Int.cast_zero] at h0
    rwa [h0] at this
  rcases le_total 0 x with h | h
  · rw [abs_of_nonneg h, abs_of_nonneg (hn x h)]
  · rw [abs_of_nonpos h, roundEven_neg, abs_of_nonpos]
    have := hn (-x) (by linarith)
    rw [roundEven_neg] at this
    omega

/-- The nearest integer is the nearest integer. -/
theorem roundEven_nearest (x : K) (n : Int) : |x - roundEven x| ≤ |x - n| ∧
    (n ≠ roundEven x → |x - n| = |x - roundEven x| → Even (roundEven x)) := by
  have h1 := roundEven_near x
  by_cases hn : n = roundEven x
  · rw [hn]
    exact ⟨le_rfl, fun h => absurd rfl h⟩
  · have h2 : (1 : K) ≤ |(n : K) - roundEven x| := by
      rw [← Int.cast_sub, ← Int.cast_abs]
      exact_mod_cast Int.one_le_abs (sub_ne_zero.2 hn)
    have h3 : |(n : K) - roundEven x| ≤ |x - n| + |x - roundEven x| := by
      have := abs_sub_le (n : K) x (roundEven x)
      rwa [abs_sub_comm (n : K) x] at this
    rw [abs_sub_comm] at h1
    refine ⟨by linarith, fun _ h => roundEven_tie x ?_⟩
    rw [abs_sub_comm]
    exact le_antisymm h1 (by linarith)

/-- The exponent of the last place of the double next to `x`. -/
def lastPlace (x : K) : Int := max (Int.log 2 |x| - 52) (-1074)

theorem log_abs (hx : x ≠ 0) : (2 : K) ^ Int.log 2 |x| ≤ |x| ∧ |x| < (2 : K) ^ (Int.log 2 |x| + 1) := log_bounds (abs_pos.2 hx)

theorem zpow_lt_iff {a b : Int} : (2 : K) ^ a < 2 ^ b ↔ a < b := zpow_lt_zpow_iff_right₀ (by norm_num)

theorem zpow_le_iff {a b : Int} : (2 : K) ^ a ≤ 2 ^ b ↔ a ≤ b := zpow_le_zpow_iff_right₀ (by norm_num)

theorem ieeeRound_eq (hx : x ≠ 0) : ieeeRound x = roundEven (x / 2 ^ lastPlace x) * 2 ^ lastPlace x := by
  obtain ⟨h1, h2⟩ := log_abs hx
  have e0 : ((2 : K) ^ 1022)⁻¹ = 2 ^ (-1022 : Int) := by rw [zpow_neg]; norm_cast
  unfold ieeeRound
  split_ifs with h
  · have hl : Int.log 2 |x| < -1022 := zpow_lt_iff.1 (by rw [← e0]; exact h1.trans_lt h)
    have e1 : lastPlace x = -1074 := max_eq_right (by omega)
    have e2 : ((2 : K) ^ 1074)⁻¹ = 2 ^ (-1074 : Int) := by rw [zpow_neg]; norm_cast
    rw [e1, ← e2, div_inv_eq_mul]
  · have hl : -1022 < Int.log 2 |x| + 1 := zpow_lt_iff.1 (by rw [← e0]; exact (not_lt.1 h).trans_lt h2)
    have e1 : lastPlace x = Int.log 2 |x| - 52 := max_eq_left (by omega)
    have e2 : Int.log 2 |x| - 52 = Int.log 2 |x| - (53 : Nat) + 1 := by push_cast; ring
    rw [e1, e2]
    unfold binary64 rn
    rcases lt_or_gt_of_ne hx with h0 | h0
    · rw [if_neg (not_lt.2 h0.le), if_pos h0, abs_of_neg h0]
      unfold rnPos ulp
      rw [neg_div, roundEven_neg]
      push_cast
      ring
    · rw [if_pos h0, abs_of_pos h0]
      rfl

/-- The integer to which `x` is rounded has 53 bits or the exponent is the smallest. -/
theorem mantissa_bounds (hx : x ≠ 0) : |roundEven (x / 2 ^ lastPlace x)| ≤ 2 ^ 53 ∧
    (lastPlace x = -1074 ∨ -1074 ≤ lastPlace x ∧ 2 ^ 52 ≤ |roundEven (x / 2 ^ lastPlace x)|) := by
  obtain ⟨h1, h2⟩ := log_abs hx
  have hu : (0 : K) < 2 ^ lastPlace x := by positivity
  rw [roundEven_abs, abs_div, abs_of_pos hu]
  constructor
  · rw [← roundEven_int (K := K) (2 ^ 53)]
    refine roundEven_mono ?_
    rw [div_le_iff₀ hu]
    refine h2.le.trans ?_
    rw [Int.cast_pow, Int.cast_ofNat, ← zpow_natCast, ← zpow_add₀ (by norm_num), zpow_le_iff]
    have := le_max_left (Int.log 2 |x| - 52) (-1074)
    unfold lastPlace
    push_cast
    omega
  · rcases max_choice (Int.log 2 |x| - 52) (-1074) with h | h
    · refine Or.inr ⟨le_max_right _ _, ?_⟩
      rw [← roundEven_int (K := K) (2 ^ 52)]
      refine roundEven_mono ?_
      rw [le_div_iff₀ hu]
      refine le_trans ?_ h1
      rw [Int.cast_pow, Int.cast_ofNat, ← zpow_natCast, ← zpow_add₀ (by norm_num), zpow_le_iff]
      unfold lastPlace
      rw [h]
      push_cast
      omega
    · exact Or.inl h

/-- The rounded number in the form of a double, whose integer is even if the one above is. -/
theorem ieeeRound_form (hx : x ≠ 0) : ∃ m e : Int, |m| < 2 ^ 53 ∧ (e = -1074 ∨ -1074 ≤ e ∧ 2 ^ 52 ≤ |m|) ∧
    ieeeRound x = m * 2 ^ e ∧ (Even (roundEven (x / 2 ^ lastPlace x)) → Even m) := by
  obtain ⟨h1, h2⟩ := mantissa_bounds hx
  rw [ieeeRound_eq hx]
  rcases h1.lt_or_eq with h | h
  · exact ⟨_, _, h, h2, rfl, id⟩
  · have hp : (2 : K) ^ (lastPlace x + 1) = 2 ^ lastPlace x * 2 := by rw [zpow_add₀ (by norm_num), zpow_one]
    rcases abs_choice (roundEven (x / 2 ^ lastPlace x)) with e | e
    · refine ⟨2 ^ 52, lastPlace x + 1, by norm_num, Or.inr ⟨by omega, by norm_num⟩, ?_, fun _ => by decide⟩
      rw [← e, h, hp]
      push_cast
      ring
    · refine ⟨-2 ^ 52, lastPlace x + 1, by norm_num, Or.inr ⟨by omega, by norm_num⟩, ?_, fun _ => by decide⟩
      have e' : roundEven (x / 2 ^ lastPlace x) = -2 ^ 53 := by omega
      rw [e', hp]
      push_cast
      ring

theorem ieee64_fin_iff : ieee64 x = .fin y ↔ ieeeRound x = y ∧ |y| < 2 ^ 1024 := by
  unfold ieee64
  constructor
  · intro h
    split_ifs at h with h1
    rw [Flt.fin.injEq] at h
    exact ⟨h, h ▸ h1⟩
  · rintro ⟨rfl, h⟩
    rw [if_pos h]

theorem ieeeRound_zero : ieeeRound (0 : K) = 0 := by
  unfold ieeeRound
  have := roundEven_int (K := K) 0
  rw [Int.cast_zero] at this
  rw [if_pos (by rw [abs_zero]; positivity), zero_mul, this, Int.cast_zero, zero_mul]

/-- A number in the form of a double is a multiple of the last place of every number that is not larger in magnitude. -/
theorem double_multiple {m e : Int} (hm : |m| < 2 ^ 53) (he : -1074 ≤ e) (h : (2 : K) ^ Int.log 2 |x| ≤ |(m : K) * 2 ^ e|) :
    ∃ n : Int, (m : K) * 2 ^ e = n * 2 ^ lastPlace x := by
  rcases le_or_gt (lastPlace x) e with hl | hl
  · obtain ⟨i, hi⟩ := Int.eq_ofNat_of_zero_le (a := e - lastPlace x) (by omega)
    refine ⟨m * 2 ^ i, ?_⟩
    rw [show e = (i : Int) + lastPlace x by omega, zpow_add₀ (by norm_num), zpow_natCast]
    push_cast
    ring
  · exfalso
    have h2 : |(m : K) * 2 ^ e| < 2 ^ (53 + e) := by
      rw [abs_mul, abs_of_pos (a := (2 : K) ^ e) (by positivity), zpow_add₀ (by norm_num)]
      refine mul_lt_mul_of_pos_right ?_ (by positivity)
      rw [← Int.cast_abs]
      exact_mod_cast hm
    have h3 := zpow_lt_iff.1 (h.trans_lt h2)
    rcases max_choice (Int.log 2 |x| - 52) (-1074) with h4 | h4 <;> unfold lastPlace at hl <;> omega

/-- Rounding to the nearest double. -/
theorem ieeeRound_nearest (hx : x ≠ 0) {m e : Int} (hm : |m| < 2 ^ 53) (he : -1074 ≤ e) :
    |x - ieeeRound x| ≤ |x - m * 2 ^ e| ∧
      ((m : K) * 2 ^ e ≠ ieeeRound x → |x - m * 2 ^ e| = |x - ieeeRound x| → Even (roundEven (x / 2 ^ lastPlace x))) := by
  obtain ⟨l1, l2⟩ := log_abs hx
  have hu : (0 : K) < 2 ^ lastPlace x := by positivity
  have scale : ∀ n : Int, |x - n * 2 ^ lastPlace x| = |x / 2 ^ lastPlace x - n| * 2 ^ lastPlace x := by
    intro n
    rw [← abs_of_pos hu, ← abs_mul, abs_of_pos hu, sub_mul, div_mul_cancel₀ _ hu.ne']
  have key : ∀ n : Int, |x - ieeeRound x| ≤ |x - n * 2 ^ lastPlace x| := by
    intro n
    rw [ieeeRound_eq hx, scale, scale]
    exact mul_le_mul_of_nonneg_right (roundEven_nearest _ n).1 hu.le
  by_cases hmul : ∃ n : Int, (m : K) * 2 ^ e = n * 2 ^ lastPlace x
  · obtain ⟨n, hn⟩ := hmul
    rw [hn]
    refine ⟨key n, fun h1 h2 => (roundEven_nearest (x / 2 ^ lastPlace x) n).2 ?_ ?_⟩
    · rintro rfl
      exact h1 (ieeeRound_eq hx).symm
    · rw [ieeeRound_eq hx, scale, scale] at h2
      exact mul_right_cancel₀ hu.ne' h2
  · have h : |(m : K) * 2 ^ e| < (2 : K) ^ Int.log 2 |x| := by
      by_contra hc
      exact hmul (double_multiple hm he (not_lt.1 hc))
    have hm0 : m ≠ 0 := by
      rintro rfl
      exact hmul ⟨0, by simp⟩
    have h3 : (2 : K) ^ e ≤ |(m : K) * 2 ^ e| := by
      rw [abs_mul, abs_of_pos (a := (2 : K) ^ e) (by positivity)]
      refine le_mul_of_one_le_left (by positivity) ?_
      rw [← Int.cast_abs]
      exact_mod_cast Int.one_le_abs hm0
    have h4 := zpow_lt_iff.1 (h3.trans_lt h)
    have h1 : |x| - |(m : K) * 2 ^ e| ≤ |x - m * 2 ^ e| := abs_sub_abs_le_abs_sub _ _
    have hw : ∃ n : Int, |x - n * 2 ^ lastPlace x| = |x| - 2 ^ Int.log 2 |x| := by
      obtain ⟨n, hn⟩ := double_multiple (K := K) (x := x) (m := 1) (e := Int.log 2 |x|) (by norm_num) (by omega)
        (by rw [Int.cast_one, one_mul, abs_of_pos (a := (2 : K) ^ _) (by positivity)])
      rw [Int.cast_one, one_mul] at hn
      rcases le_total 0 x with h0 | h0
      · refine ⟨n, ?_⟩
        rw [← hn, abs_of_nonneg (by rw [abs_of_nonneg h0] at l1 ⊢; linarith), abs_of_nonneg h0]
      · refine ⟨-n, ?_⟩
        rw [Int.cast_neg, neg_mul, ← hn, abs_of_nonpos (by rw [abs_of_nonpos h0] at l1 ⊢; linarith), abs_of_nonpos h0]
        ring
    obtain ⟨n, hn⟩ := hw
    have := key n
    have hlt : |x - ieeeRound x| < |x - m * 2 ^ e| := by linarith
    exact ⟨hlt.le, fun _ h2 => absurd h2 hlt.ne'⟩

/-! ## The specification -/

/-- **C127, the doubles.** -/
theorem C127_doubles : IsDouble x ↔ IsBinary64 x := by
  unfold IsDouble
  rw [ieee64_fin_iff]
  by_cases hx : x = 0
  · subst hx
    rw [ieeeRound_zero, abs_zero]
    exact ⟨fun _ => ⟨0, 0, by norm_num, by norm_num, by norm_num, by simp⟩, fun _ => ⟨rfl, by positivity⟩⟩
  constructor
  · rintro ⟨h1, h2⟩
    obtain ⟨m, e, hm, he, h3, -⟩ := ieeeRound_form hx
    rw [h1] at h3
    refine ⟨m, e, hm, by omega, ?_, h3⟩
    rcases he with he | ⟨-, he⟩
    · omega
    · have h4 : (2 : K) ^ (52 + e) ≤ |x| := by
        rw [h3, abs_mul, abs_of_pos (a := (2 : K) ^ e) (by positivity), zpow_add₀ (by norm_num)]
        refine mul_le_mul_of_nonneg_right ?_ (by positivity)
        rw [← Int.cast_abs]
        exact_mod_cast he
      have h5 : (2 : K) ^ (52 + e) < 2 ^ (1024 : Int) := h4.trans_lt (by exact_mod_cast h2)
      have := zpow_lt_iff.1 h5
      omega
  · rintro ⟨m, e, hm, he, he', rfl⟩
    constructor
    · have := (ieeeRound_nearest hx hm he).1
      rw [sub_self, abs_zero] at this
      have := abs_nonpos_iff.1 this
      linarith
    · rw [abs_mul, abs_of_pos (a := (2 : K) ^ e) (by positivity)]
      have h1 : ((|m| : Int) : K) < 2 ^ 53 := by exact_mod_cast hm
      rw [← Int.cast_abs]
      calc ((|m| : Int) : K) * 2 ^ e < 2 ^ 53 * 2 ^ e := mul_lt_mul_of_pos_right h1 (by positivity)
        _ = (2 : K) ^ (53 + e) := by rw [zpow_add₀ (by norm_num)]; norm_cast
        _ ≤ 2 ^ (1024 : Int) := zpow_le_iff.2 (by omega)
        _ = 2 ^ 1024 := zpow_natCast 2 1024

/-- **C127, rounding.**  The result of an operation, if it is finite, is a double, no double is nearer to the exact result, and if
another double is as near then the last bit of the result is 0. -/
theorem C127_nearest (h : ieee64 x = .fin y) : IsBinary64 y ∧
    ∀ z, IsBinary64 z → |x - y| ≤ |x - z| ∧ (z ≠ y → |x - z| = |x - y| → LastBitZero y) := by
  obtain ⟨h1, h2⟩ := ieee64_fin_iff.1 h
  by_cases hx : x = 0
  · subst hx
    rw [ieeeRound_zero] at h1
    subst h1
    refine ⟨⟨0, 0, by norm_num, by norm_num, by norm_num, by simp⟩, fun z _ => ⟨by simp, fun h3 h4 => ?_⟩⟩
    simp at h4
    exact absurd h4 h3
  · obtain ⟨m, e, hm, he, h3, h4⟩ := ieeeRound_form hx
    rw [h1] at h3
    refine ⟨?_, ?_⟩
    · by_cases hy : y = 0
      · exact ⟨0, 0, by norm_num, by norm_num, by norm_num, by simp [hy]⟩
      refine ⟨m, e, hm, by omega, ?_, h3⟩
      rcases he with he | ⟨-, he⟩
      · omega
      · have h4 : (2 : K) ^ (52 + e) ≤ |y| := by
          rw [h3, abs_mul, abs_of_pos (a := (2 : K) ^ e) (by positivity), zpow_add₀ (by norm_num)]
          refine mul_le_mul_of_nonneg_right ?_ (by positivity)
          rw [← Int.cast_abs]
          exact_mod_cast he
        have h5 : (2 : K) ^ (52 + e) < 2 ^ (1024 : Int) := h4.trans_lt (by exact_mod_cast h2)
        have := zpow_lt_iff.1 h5
        omega
    · rintro z ⟨m', e', hm', he', -, rfl⟩
      have := ieeeRound_nearest hx hm' he'
      rw [h1] at this
      exact ⟨this.1, fun a b => ⟨m, e, h4 (this.2 a b), hm, he, h3⟩⟩

theorem abs_even_absurd {m e : Int} (hm : |m| < 2 ^ 53) (he : e = -1074 ∨ -1074 ≤ e ∧ 2 ^ 52 ≤ |m|) (hev : Even m)
    (h : |(m : K) * 2 ^ e| = 2 ^ 1024 - 2 ^ 971) : False := by
  rw [abs_mul, abs_of_pos (a := (2 : K) ^ e) (by positivity), ← Int.cast_abs] at h
  have hA : (0 : K) < 2 ^ (971 : Int) := by positivity
  have e1 : (2 : K) ^ 971 = 2 ^ (971 : Int) := (zpow_natCast 2 971).symm
  have e2 : (2 : K) ^ 1024 = 9007199254740992 * 2 ^ (971 : Int) := by
    rw [← e1, show 1024 = 53 + 971 by norm_num, pow_add]; norm_num
  rw [e1, e2] at h
  have hlo : (971 : Int) ≤ e := by
    by_contra hc
    have h1 : (2 : K) ^ e ≤ 2 ^ (970 : Int) := zpow_le_iff.2 (by omega)
    have h2 : ((|m| : Int) : K) ≤ 9007199254740992 := by exact_mod_cast hm.le
    have h3 : ((|m| : Int) : K) * 2 ^ e ≤ 9007199254740992 * 2 ^ (970 : Int) := mul_le_mul h2 h1 (by positivity) (by norm_num)
    have h4 : (2 : K) ^ (971 : Int) = 2 ^ (970 : Int) * 2 := by
      rw [show (971 : Int) = 970 + 1 by norm_num, zpow_add₀ (by norm_num), zpow_one]
    have h5 : (0 : K) < 2 ^ (970 : Int) := by positivity
    rw [h, h4] at h3
    generalize (2 : K) ^ (970 : Int) = A at h3 h5
    linarith
  obtain ⟨i, rfl⟩ : ∃ i : Nat, e = 971 + i := ⟨(e - 971).toNat, by omega⟩
  rw [zpow_add₀ (by norm_num), zpow_natCast] at h
  have h6 : ((|m| : Int) : K) * 2 ^ i = 9007199254740991 := by
    have : (((|m| : Int) : K) * 2 ^ i - 9007199254740991) * 2 ^ (971 : Int) = 0 := by linear_combination h
    rcases mul_eq_zero.1 this with h7 | h7
    · exact sub_eq_zero.1 h7
    · exact absurd h7 hA.ne'
  have h7 : |m| * 2 ^ i = 9007199254740991 := by exact_mod_cast h6
  have h8 : Even (|m| * 2 ^ i) := ((even_abs).2 hev).mul_right _
  rw [h7] at h8
  exact absurd h8 (by decide)

theorem ieeeRound_overflow (hx : x ≠ 0) : |ieeeRound x| < 2 ^ 1024 ↔ |x| < 2 ^ 1024 - 2 ^ 970 := by
  have hA : (0 : K) < 2 ^ 970 := by positivity
  have e1 : (2 : K) ^ 971 = 2 * 2 ^ 970 := by rw [show 971 = 970 + 1 by norm_num, pow_succ]; ring
  have e2 : (2 : K) ^ 1024 = 18014398509481984 * 2 ^ 970 := by rw [show 1024 = 54 + 970 by norm_num, pow_add]; norm_num
  obtain ⟨s, hs, hsx⟩ : ∃ s : Int, (s = 1 ∨ s = -1) ∧ ∀ d : K, |x - s * d| = |(|x|) - d| := by
    rcases le_total 0 x with h | h
    · exact ⟨1, Or.inl rfl, fun d => by rw [abs_of_nonneg h]; simp⟩
    · refine ⟨-1, Or.inr rfl, fun d => ?_⟩
      rw [abs_of_nonpos h, ← abs_neg]
      congr 1
      push_cast
      ring
  have near : ∀ n e : Int, 0 ≤ n → n < 2 ^ 53 → -1074 ≤ e → |x - ieeeRound x| ≤ |(|x|) - n * 2 ^ e| ∧
      ((s : K) * (n * 2 ^ e) ≠ ieeeRound x → |(|x|) - n * 2 ^ e| = |x - ieeeRound x| → Even (roundEven (x / 2 ^ lastPlace x))) := by
    intro n e h0 hn he
    have := ieeeRound_nearest hx (m := s * n) (e := e) (by rcases hs with rfl | rfl <;> simp [abs_of_nonneg h0] <;> omega) he
    rw [Int.cast_mul, mul_assoc, hsx] at this
    exact this
  have d1 : ((9007199254740991 : Int) : K) * 2 ^ (971 : Int) = 2 ^ 1024 - 2 ^ 971 := by
    rw [show (971 : Int) = ((971 : Nat) : Int) from rfl, zpow_natCast, e1, e2]
    push_cast
    ring
  have d2 : ((4503599627370496 : Int) : K) * 2 ^ (972 : Int) = 2 ^ 1024 := by
    rw [show (972 : Int) = ((972 : Nat) : Int) from rfl, zpow_natCast, show 972 = 970 + 2 by norm_num, pow_add, e2]
    push_cast
    ring
  have n1 := near 9007199254740991 971 (by norm_num) (by norm_num) (by norm_num)
  have n2 := near 4503599627370496 972 (by norm_num) (by norm_num) (by norm_num)
  rw [d1] at n1
  rw [d2] at n2
  have hD : |ieeeRound x| < 2 ^ 1024 → |ieeeRound x| ≤ 2 ^ 1024 - 2 ^ 971 := by
    intro h
    obtain ⟨m, e, hm, he, hf, -⟩ := ieeeRound_form hx
    rw [hf, abs_mul, abs_of_pos (a := (2 : K) ^ e) (by positivity), ← Int.cast_abs] at h ⊢
    have hle : e ≤ 971 := by
      rcases he with he | ⟨-, he⟩
      · omega
      · by_contra hc
        have h1 : (2 : K) ^ (972 : Int) ≤ 2 ^ e := zpow_le_iff.2 (by omega)
        have h2 : ((4503599627370496 : Int) : K) ≤ ((|m| : Int) : K) := by exact_mod_cast he
        refine absurd h (not_lt.2 ?_)
        rw [← d2]
        exact mul_le_mul h2 h1 (by positivity) (by positivity)
    rw [← d1]
    refine mul_le_mul ?_ (zpow_le_iff.2 hle) (by positivity) (by norm_num)
    have : |m| ≤ 9007199254740991 := by omega
    exact_mod_cast this
  have hodd : |ieeeRound x| = 2 ^ 1024 - 2 ^ 971 → ¬ Even (roundEven (x / 2 ^ lastPlace x)) := by
    intro h hev
    obtain ⟨m, e, hm, he, hf, hev'⟩ := ieeeRound_form hx
    exact abs_even_absurd hm he (hev' hev) (by rw [← hf, h])
  have hne : |ieeeRound x| < 2 ^ 1024 → (s : K) * 2 ^ 1024 ≠ ieeeRound x := by
    intro h h2
    rw [← h2, abs_mul, abs_of_pos (a := (2 : K) ^ 1024) (by positivity)] at h
    rcases hs with rfl | rfl <;> simp at h
  clear d1 d2 near hsx
  generalize (2 : K) ^ 1024 = T at *
  generalize (2 : K) ^ 971 = B at *
  generalize (2 : K) ^ 970 = A at *
  constructor
  · intro h
    by_contra hc
    rw [not_lt] at hc
    have t1 : |x| - |ieeeRound x| ≤ |x - ieeeRound x| := abs_sub_abs_le_abs_sub _ _
    have t2 := t1.trans n2.1
    rcases le_total T |x| with h1 | h1
    · rw [abs_of_nonneg (a := |x| - T) (by linarith)] at t2
      linarith
    · rw [abs_of_nonpos (a := |x| - T) (by linarith)] at t2
      have hy : |ieeeRound x| = T - B := le_antisymm (hD h) (by linarith)
      refine hodd hy (n2.2 (hne h) (le_antisymm ?_ n2.1))
      rw [abs_of_nonpos (a := |x| - T) (by linarith)]
      linarith
  · intro h
    by_contra hc
    rw [not_lt] at hc
    have t1 : |ieeeRound x| - |x| ≤ |x - ieeeRound x| := by rw [abs_sub_comm]; exact abs_sub_abs_le_abs_sub _ _
    have t2 := t1.trans n1.1
    rcases le_total (T - B) |x| with h1 | h1
    · rw [abs_of_nonneg (a := |x| - (T - B)) (by linarith)] at t2
      linarith
    · rw [abs_of_nonpos (a := |x| - (T - B)) (by linarith)] at t2
      linarith

/-- **C127, overflow.**  An operation overflows when the exact result is at least half a unit in the last place beyond the largest double. -/
theorem C127_overflow : (ieee64 x = .pinf ↔ 2 ^ 1024 - 2 ^ 970 ≤ x) ∧ (ieee64 x = .ninf ↔ x ≤ -(2 ^ 1024 - 2 ^ 970)) ∧
    ieee64 x ≠ .nan := by
  have hM : (0 : K) < 2 ^ 1024 - 2 ^ 970 := sub_pos.2 (pow_lt_pow_right₀ (by norm_num) (by norm_num))
  have hmag : |ieeeRound x| < 2 ^ 1024 ↔ |x| < 2 ^ 1024 - 2 ^ 970 := by
    by_cases hx : x = 0
    · subst hx
      rw [ieeeRound_zero, abs_zero]
      exact ⟨fun _ => hM, fun _ => by positivity⟩
    exact ieeeRound_overflow hx
  refine ⟨?_, ?_, ?_⟩
  · unfold ieee64
    split_ifs with h1 h2 <;> rw [hmag] at h1
    · simp only [reduceCtorEq, false_iff, not_le]
      exact (le_abs_self x).trans_lt h1
    · simp only [true_iff]
      rw [abs_of_pos h2] at h1
      exact not_lt.1 h1
    · simp only [reduceCtorEq, false_iff, not_le]
      exact (not_lt.1 h2).trans_lt hM
  · unfold ieee64
    split_ifs with h1 h2 <;> rw [hmag] at h1
    · simp only [reduceCtorEq, false_iff, not_le]
      exact (abs_lt.1 h1).1
    · simp only [reduceCtorEq, false_iff, not_le]
      exact (neg_lt_zero.2 hM).trans h2
    · simp only [true_iff]
      rw [abs_of_nonpos (not_lt.1 h2)] at h1
      exact le_neg.2 (not_lt.1 h1)
  · unfold ieee64
    split_ifs <;> simp

end
end Mlp.Props
