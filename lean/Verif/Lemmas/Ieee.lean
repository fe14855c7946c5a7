import Verif.Model.Ieee
import Verif.Spec.Ieee
import Verif.Lemmas.Binary64
import Verif.Lemmas.PyLemmas
import Mathlib.Tactic.Ring

/-! # Where IEEE double precision is rounding to 53 bits -/

namespace Mlp.Lemmas
open Mlp.Round Mlp.Spec

section
variable {K : Type} [Field K] [LinearOrder K] [IsStrictOrderedRing K] [FloorRing K]

theorem binary64_pow (e : Nat) : binary64 ((2 : K) ^ e) = 2 ^ e := by
  have := binary64_exact (K := K) 1 e (by norm_num)
  simpa using this

theorem binary64_abs_le {x : K} {e : Nat} (h : |x| ≤ 2 ^ e) : |binary64 x| ≤ 2 ^ e := by
  have hr := binary64_floatRounding (K := K)
  rw [abs_le] at h ⊢
  constructor
  · have := hr.mono h.1
    rwa [hr.neg, binary64_pow] at this
  · have := hr.mono h.2
    rwa [binary64_pow] at this

/-- Where IEEE arithmetic agrees with rounding to 53 bits. -/
def InRange (x : K) : Prop := |x| ≤ 2 ^ 1023 ∧ ((2 ^ 1022)⁻¹ ≤ |x| ∨ ∃ m : Int, x * 2 ^ 1074 = m)

theorem two_pow_lt : (2 : K) ^ 1023 < 2 ^ 1024 := by
  exact pow_lt_pow_right₀ (by norm_num) (by norm_num)

/-- A multiple of the smallest double, below the normal range, is not rounded. -/
theorem ieeeRound_inRange {x : K} (h : InRange x) : ieeeRound x = binary64 x := by
  unfold ieeeRound
  split_ifs with h1
  · rcases h.2 with h2 | ⟨m, hm⟩
    · exact absurd h1 (not_lt.2 h2)
    · rw [hm, roundEven_int]
      have hx : x = (m : K) * 2 ^ (-(1074 : Int)) := by
        rw [zpow_neg, ← hm]
        norm_cast
        rw [mul_assoc, mul_inv_cancel₀ (by positivity), mul_one]
      have hm2 : |m| ≤ 2 ^ 53 := by
        have h3 : |(m : K)| < 2 ^ 52 := by
          rw [← hm, abs_mul, abs_of_pos (a := (2 : K) ^ 1074) (by positivity)]
          calc |x| * 2 ^ 1074 < (2 ^ 1022)⁻¹ * 2 ^ 1074 := mul_lt_mul_of_pos_right h1 (by positivity)
            _ = 2 ^ 52 := by
              rw [inv_mul_eq_div, div_eq_iff (by positivity), ← pow_add]
        have h4 : |m| < 2 ^ 52 := by exact_mod_cast h3
        omega
      rw [hx, binary64_exact m _ hm2, zpow_neg]
      norm_cast
  · rfl

theorem ieee64_inRange {x : K} (h : InRange x) : ieee64 x = .fin (binary64 x) := by
  unfold ieee64
  rw [ieeeRound_inRange h, if_pos (lt_of_le_of_lt (binary64_abs_le h.1) two_pow_lt)]

theorem _root_.Mlp.Round.FollowsIeee.eq {rnd : K → K} (hi : FollowsIeee rnd) {x : K} (h : InRange x) : rnd x = binary64 x :=
  hi x _ (ieee64_inRange h)

theorem pow_le_of {a b : Nat} (h : a ≤ b) : (2 : K) ^ a ≤ 2 ^ b := pow_le_pow_right₀ (by norm_num) h

end
end Mlp.Lemmas

namespace Mlp.Spec
open Mlp.Round Mlp.Lemmas

section
variable {K : Type} [Field K] [LinearOrder K] [IsStrictOrderedRing K] [FloorRing K] {k k' e e' : Nat} {x y : K}

theorem OnGrid.mono (h : OnGrid k e x) (hk : k ≤ k') (he : e ≤ e') : OnGrid k' e' x := by
  obtain ⟨⟨m, hm⟩, hb⟩ := h
  refine ⟨⟨m * 2 ^ (k' - k), ?_⟩, hb.trans (pow_le_of he)⟩
  push_cast
  rw [← hm, mul_assoc, ← pow_add]
  congr 2
  omega

theorem OnGrid.bound (h : OnGrid k e x) (hb : |x| ≤ 2 ^ e') : OnGrid k e' x := ⟨h.1, hb⟩

theorem OnGrid.zero : OnGrid k e (0 : K) := ⟨⟨0, by simp⟩, by simp⟩

theorem OnGrid.one : OnGrid k e (1 : K) := ⟨⟨2 ^ k, by push_cast; ring⟩, by rw [abs_one]; exact one_le_pow₀ (by norm_num)⟩

theorem OnGrid.neg (h : OnGrid k e x) : OnGrid k e (-x) := by
  obtain ⟨⟨m, hm⟩, hb⟩ := h
  exact ⟨⟨-m, by push_cast; rw [← hm]; ring⟩, by rwa [abs_neg]⟩

theorem OnGrid.abs (h : OnGrid k e x) : OnGrid k e |x| := by
  rcases abs_choice x with e1 | e1 <;> rw [e1]
  · exact h
  · exact h.neg

theorem OnGrid.add (hx : OnGrid k e x) (hy : OnGrid k e y) : OnGrid k (e + 1) (x + y) := by
  obtain ⟨⟨m, hm⟩, hb⟩ := hx
  obtain ⟨⟨n, hn⟩, hc⟩ := hy
  refine ⟨⟨m + n, by push_cast; rw [← hm, ← hn]; ring⟩, ?_⟩
  rw [pow_succ]
  linarith [abs_add_le x y]

theorem OnGrid.sub (hx : OnGrid k e x) (hy : OnGrid k e y) : OnGrid k (e + 1) (x - y) := by
  rw [sub_eq_add_neg]
  exact hx.add hy.neg

theorem OnGrid.mul (hx : OnGrid k e x) (hy : OnGrid k' e' y) : OnGrid (k + k') (e + e') (x * y) := by
  obtain ⟨⟨m, hm⟩, hb⟩ := hx
  obtain ⟨⟨n, hn⟩, hc⟩ := hy
  refine ⟨⟨m * n, by push_cast; rw [← hm, ← hn]; ring⟩, ?_⟩
  rw [abs_mul, pow_add]
  exact mul_le_mul hb hc (abs_nonneg _) (by positivity)

theorem OnGrid.ge (hx : OnGrid k e x) (h0 : x ≠ 0) : (2 ^ k)⁻¹ ≤ |x| := by
  obtain ⟨⟨m, hm⟩, -⟩ := hx
  have hm0 : m ≠ 0 := by
    rintro rfl
    rw [Int.cast_zero] at hm
    rcases mul_eq_zero.1 hm with h | h
    · exact h0 h
    · exact absurd h (by positivity)
  have h1 : (1 : K) ≤ |(m : K)| := by exact_mod_cast Int.one_le_abs hm0
  rw [← hm, abs_mul, abs_of_pos (a := (2 : K) ^ k) (by positivity)] at h1
  rwa [inv_le_iff_one_le_mul₀ (by positivity)]

theorem OnGrid.inRange (hx : OnGrid k e x) (hk : k ≤ 1074) (he : e ≤ 1023) : InRange x := by
  obtain ⟨⟨m, hm⟩, hb⟩ := hx.mono hk he
  exact ⟨hb, Or.inr ⟨m, hm⟩⟩

/-- A rounded number is a multiple of its unit in the last place. -/
theorem dyadic_rnPos {x : K} {j : Nat} (hx : 0 < x) (h : (2 ^ j)⁻¹ ≤ x) : ∃ m : Int, rnPos 53 x * 2 ^ (j + 52) = m := by
  have hl : -(j : Int) ≤ Int.log 2 x := by
    have h2 := (log_bounds hx).2
    by_contra hc
    have h3 : (2 : K) ^ (Int.log 2 x + 1) ≤ (2 : K) ^ (-(j : Int)) := zpow_le_zpow_right₀ (by norm_num) (by omega)
    rw [zpow_neg, zpow_natCast] at h3
    linarith
  obtain ⟨i, hi⟩ := Int.eq_ofNat_of_zero_le (a := Int.log 2 x - (53 : Nat) + 1 + (j + 52 : Nat)) (by push_cast; omega)
  refine ⟨roundEven (x / ulp 53 x) * 2 ^ i, ?_⟩
  unfold rnPos ulp
  rw [mul_assoc, ← zpow_natCast (2 : K) (j + 52), ← zpow_add₀ (by norm_num), hi]
  push_cast
  norm_cast

theorem dyadic_rnPos_keep {x : K} {j : Nat} (hx : 0 < x) (h : ∃ m : Int, x * 2 ^ j = m) : ∃ m : Int, rnPos 53 x * 2 ^ j = m := by
  obtain ⟨m, hm⟩ := h
  rcases le_total (-(j : Int)) (Int.log 2 x - (53 : Nat) + 1) with hl | hl
  · obtain ⟨i, hi⟩ := Int.eq_ofNat_of_zero_le (a := Int.log 2 x - (53 : Nat) + 1 + j) (by omega)
    refine ⟨roundEven (x / ulp 53 x) * 2 ^ i, ?_⟩
    unfold rnPos ulp
    rw [mul_assoc, ← zpow_natCast (2 : K) j, ← zpow_add₀ (by norm_num), hi]
    push_cast
    norm_cast
  · obtain ⟨i, hi⟩ := Int.eq_ofNat_of_zero_le (a := -(j : Int) - (Int.log 2 x - (53 : Nat) + 1)) (by omega)
    have hq : x / ulp 53 x = ((m * 2 ^ i : Int) : K) := by
      have hx' : x = m * (2 : K) ^ (-(j : Int)) := by
        rw [zpow_neg, zpow_natCast, ← hm, mul_assoc, mul_inv_cancel₀ (by positivity), mul_one]
      unfold ulp
      rw [div_eq_iff (by positivity)]
      conv_lhs => rw [hx']
      push_cast
      rw [mul_assoc, ← zpow_natCast (2 : K) i, ← zpow_add₀ (by norm_num)]
      congr 2
      push_cast at hi
      omega
    refine ⟨m, ?_⟩
    unfold rnPos
    rw [hq, roundEven_int, ← hq, div_mul_cancel₀ _ (ulp_pos 53 x).ne', hm]

/-- Rounding keeps multiples of a power of two and bounds by a power of two. -/
theorem OnGrid.rnd (hx : OnGrid k e x) : OnGrid k e (binary64 x) := by
  refine ⟨?_, binary64_abs_le hx.2⟩
  rcases lt_trichotomy x 0 with h | h | h
  · obtain ⟨m, hm⟩ := hx.neg.1
    obtain ⟨m', hm'⟩ := dyadic_rnPos_keep (x := -x) (by linarith) ⟨m, hm⟩
    refine ⟨-m', ?_⟩
    have : binary64 x = -rnPos 53 (-x) := by
      rw [← neg_neg x, binary64_floatRounding.neg, neg_neg]
      unfold binary64
      rw [rn_pos_eq 53 (by linarith)]
    rw [this]
    push_cast
    rw [← hm']
    ring
  · rw [h, binary64_floatRounding.zero]; exact ⟨0, by simp⟩
  · unfold binary64
    rw [rn_pos_eq 53 h]
    exact dyadic_rnPos_keep h hx.1

theorem dyadic_rnd_of_ge {j : Nat} (h : (2 ^ j)⁻¹ ≤ |x|) (hb : |x| ≤ 2 ^ e) : OnGrid (j + 52) e (binary64 x) := by
  refine ⟨?_, binary64_abs_le hb⟩
  have hj : (0 : K) < (2 ^ j)⁻¹ := by positivity
  rcases le_total 0 x with h0 | h0
  · rw [abs_of_nonneg h0] at h
    unfold binary64
    rw [rn_pos_eq 53 (by linarith)]
    exact dyadic_rnPos (by linarith) h
  · rw [abs_of_nonpos h0] at h
    obtain ⟨m', hm'⟩ := dyadic_rnPos (x := -x) (by linarith) h
    refine ⟨-m', ?_⟩
    have : binary64 x = -rnPos 53 (-x) := by
      rw [← neg_neg x, binary64_floatRounding.neg, neg_neg]
      unfold binary64
      rw [rn_pos_eq 53 (by linarith)]
    rw [this]
    push_cast
    rw [← hm']
    ring

theorem _root_.Mlp.Round.IsDouble.facts (h : IsDouble x) : binary64 x = x ∧ OnGrid 1074 1024 x := by
  unfold IsDouble ieee64 at h
  split_ifs at h with h1
  rw [Flt.fin.injEq] at h
  rw [h] at h1
  unfold ieeeRound at h
  split_ifs at h with h2
  · have hm : x * 2 ^ 1074 = (roundEven (x * 2 ^ 1074) : Int) := by
      conv_lhs => rw [← h]
      rw [mul_assoc, inv_mul_cancel₀ (by positivity), mul_one]
    have h3 : InRange x := ⟨h2.le.trans ((inv_le_one_of_one_le₀ (one_le_pow₀ (by norm_num))).trans
      (one_le_pow₀ (by norm_num))), Or.inr ⟨_, hm⟩⟩
    refine ⟨?_, ⟨⟨_, hm⟩, h1.le⟩⟩
    rw [← ieeeRound_inRange h3]
    unfold ieeeRound
    rw [if_pos h2, h]
  · refine ⟨h, ?_⟩
    have := dyadic_rnd_of_ge (j := 1022) (e := 1024) (not_lt.1 h2) h1.le
    rwa [h] at this

theorem OnGrid.div_bounds (hx : OnGrid k e x) (hy : OnGrid k' e' y) (h0 : y ≠ 0) :
    |x / y| ≤ 2 ^ (e + k') ∧ (x ≠ 0 → (2 ^ (k + e'))⁻¹ ≤ |x / y|) := by
  have hy1 := hy.ge h0
  have hyp : 0 < |y| := abs_pos.2 h0
  rw [abs_div]
  constructor
  · rw [div_le_iff₀ hyp, pow_add]
    rw [inv_le_iff_one_le_mul₀ (by positivity)] at hy1
    calc |x| ≤ 2 ^ e * 1 := by rw [mul_one]; exact hx.2
      _ ≤ 2 ^ e * (|y| * 2 ^ k') := mul_le_mul_of_nonneg_left hy1 (by positivity)
      _ = _ := by ring
  · intro hx0
    rw [le_div_iff₀ hyp, pow_add, mul_inv]
    calc ((2 : K) ^ k)⁻¹ * (2 ^ e')⁻¹ * |y| ≤ (2 ^ k)⁻¹ * (2 ^ e')⁻¹ * 2 ^ e' :=
          mul_le_mul_of_nonneg_left hy.2 (by positivity)
      _ = (2 ^ k)⁻¹ := by rw [mul_assoc, inv_mul_cancel₀ (by positivity), mul_one]
      _ ≤ |x| := hx.ge hx0

theorem OnGrid.div_inRange (hx : OnGrid k e x) (hy : OnGrid k' e' y) (h0 : y ≠ 0) (h1 : k + e' ≤ 1022) (h2 : e + k' ≤ 1023) :
    InRange (x / y) := by
  obtain ⟨b1, b2⟩ := hx.div_bounds hy h0
  refine ⟨b1.trans (pow_le_of h2), ?_⟩
  by_cases hx0 : x = 0
  · right
    exact ⟨0, by simp [hx0]⟩
  · left
    refine le_trans ?_ (b2 hx0)
    exact inv_anti₀ (by positivity) (pow_le_of h1)

theorem OnGrid.div_rnd (hx : OnGrid k e x) (hy : OnGrid k' e' y) (h0 : y ≠ 0) :
    OnGrid (k + e' + 52) (e + k') (binary64 (x / y)) := by
  obtain ⟨b1, b2⟩ := hx.div_bounds hy h0
  by_cases hx0 : x = 0
  · rw [hx0, zero_div, binary64_floatRounding.zero]; exact OnGrid.zero
  · exact dyadic_rnd_of_ge (b2 hx0) b1

end
end Mlp.Spec
