import Verif.Model.Round
import Mathlib.Tactic.Linarith
import Mathlib.Tactic.FieldSimp
import Mathlib.Tactic.Positivity
import Mathlib.Tactic.NormNum
import Mathlib.Tactic.Push
import Mathlib.Algebra.Order.Field.Power

/-! # Rounding to nearest even has the properties of a rounding -/

namespace Mlp.Round

section
variable {K : Type} [Field K] [LinearOrder K] [IsStrictOrderedRing K] [FloorRing K]

theorem roundEven_int (k : Int) : roundEven (k : K) = k := by
  unfold roundEven
  rw [Int.floor_intCast, if_pos (by simp)]

theorem roundEven_near (x : K) : |(roundEven x : K) - x| ≤ 1 / 2 := by
  have h1 := Int.floor_le x
  have h2 := Int.lt_floor_add_one x
  unfold roundEven
  rw [abs_le]
  split
  · constructor <;> linarith
  · rename_i h
    rw [not_lt] at h
    split
    · push_cast; constructor <;> linarith
    · rename_i h'
      rw [not_lt] at h'
      split
      · constructor <;> linarith
      · push_cast; constructor <;> linarith

theorem roundEven_tie (x : K) (h : |(roundEven x : K) - x| = 1 / 2) : Even (roundEven x) := by
  have h1 := Int.floor_le x
  have h2 := Int.lt_floor_add_one x
  unfold roundEven at h ⊢
  split at h
  · rename_i hh
    exfalso
    rw [abs_of_nonpos (by linarith)] at h
    linarith
  · split at h
    · rename_i hh
      exfalso
      push_cast at h
      rw [abs_of_nonneg (by linarith)] at h
      linarith
    · rename_i h3 h4
      rw [if_neg h3, if_neg h4]
      split
      · rwa [Int.even_iff]
      · rw [Int.even_iff]; omega

theorem roundEven_mono {x y : K} (h : x ≤ y) : roundEven x ≤ roundEven y := by
  by_contra hc
  rw [not_le] at hc
  have hx := abs_le.1 (roundEven_near x)
  have hy := abs_le.1 (roundEven_near y)
  have hc' : (roundEven y : K) + 1 ≤ roundEven x := by exact_mod_cast hc
  have e1 : x = y := by apply le_antisymm h; linarith [hx.2, hy.1]
  subst e1
  exact lt_irrefl _ hc

theorem ulp_pos (p : Nat) (x : K) : 0 < ulp p x := by unfold ulp; positivity

theorem log_bounds {x : K} (hx : 0 < x) : (2 : K) ^ Int.log 2 x ≤ x ∧ x < (2 : K) ^ (Int.log 2 x + 1) := by
  constructor
  · exact_mod_cast Int.zpow_log_le_self (b := 2) (by norm_num) hx
  · exact_mod_cast Int.lt_zpow_succ_log_self (b := 2) (by norm_num) x

omit [IsStrictOrderedRing K] in
theorem ulp_scale {p : Nat} (hp : 1 ≤ p) (x : K) :
    ((2 : Int) ^ (p - 1) : Int) * ulp p x = (2 : K) ^ Int.log 2 x ∧
    ((2 : Int) ^ p : Int) * ulp p x = (2 : K) ^ (Int.log 2 x + 1) := by
  unfold ulp
  push_cast
  rw [← zpow_natCast, ← zpow_natCast, ← zpow_add₀ (by norm_num), ← zpow_add₀ (by norm_num)]
  constructor <;> congr 1 <;> omega

theorem rnPos_bounds {p : Nat} (hp : 1 ≤ p) {x : K} (hx : 0 < x) :
    (2 : K) ^ Int.log 2 x ≤ rnPos p x ∧ rnPos p x ≤ (2 : K) ^ (Int.log 2 x + 1) := by
  have hu := ulp_pos p x
  obtain ⟨h1, h2⟩ := log_bounds hx
  obtain ⟨e1, e2⟩ := ulp_scale hp x
  unfold rnPos
  rw [← e1, ← e2]
  constructor
  · apply mul_le_mul_of_nonneg_right _ hu.le
    rw [Int.cast_le, ← roundEven_int (K := K) (2 ^ (p - 1))]
    apply roundEven_mono
    rw [le_div_iff₀ hu, e1]
    exact h1
  · apply mul_le_mul_of_nonneg_right _ hu.le
    rw [Int.cast_le, ← roundEven_int (K := K) (2 ^ p)]
    apply roundEven_mono
    rw [div_le_iff₀ hu, e2]
    exact h2.le

theorem rnPos_mono {p : Nat} (hp : 1 ≤ p) {x y : K} (hx : 0 < x) (h : x ≤ y) : rnPos p x ≤ rnPos p y := by
  have hy := hx.trans_le h
  rcases (Int.log_mono_right (b := 2) hx h).eq_or_lt with he | hlt
  · have hu : ulp p x = ulp p y := by unfold ulp; rw [he]
    unfold rnPos
    rw [hu]
    apply mul_le_mul_of_nonneg_right _ (ulp_pos p y).le
    rw [Int.cast_le]
    exact roundEven_mono (div_le_div_of_nonneg_right h (ulp_pos p y).le)
  · refine (rnPos_bounds hp hx).2.trans (le_trans ?_ (rnPos_bounds hp hy).1)
    exact zpow_le_zpow_right₀ (by norm_num) (by omega)

theorem rnPos_pos {p : Nat} (hp : 1 ≤ p) {x : K} (hx : 0 < x) : 0 < rnPos p x :=
  lt_of_lt_of_le (by positivity) (rnPos_bounds hp hx).1

/-- A number with a significand of at most `p` bits is kept. -/
theorem rnPos_exact {p : Nat} (hp : 1 ≤ p) (k : Nat) (j : Int) (hk : 0 < k) (hk' : k ≤ 2 ^ p) :
    rnPos p ((k : K) * 2 ^ j) = k * 2 ^ j := by
  have hx : (0 : K) < (k : K) * 2 ^ j := by positivity
  have hu := ulp_pos p ((k : K) * 2 ^ j)
  obtain ⟨h1, h2⟩ := log_bounds hx
  set x : K := (k : K) * 2 ^ j with hxdef
  -- the exponent is at most `j + p`
  have hlog : Int.log 2 x - p + 1 ≤ j ∨ ∃ m : Int, x = m * ulp p x := by
    by_cases hlt : k < 2 ^ p
    · left
      have : Int.log 2 x < j + p := by
        rw [← Int.lt_zpow_iff_log_lt (b := 2) (by norm_num) hx]
        rw [hxdef]
        push_cast
        rw [zpow_add₀ (by norm_num), mul_comm]
        apply mul_lt_mul_of_pos_left _ (by positivity)
        rw [zpow_natCast]
        exact_mod_cast hlt
      omega
    · right
      have hkp : k = 2 ^ p := by omega
      have hxe : x = (2 : K) ^ (p + j) := by
        rw [hxdef, hkp]; push_cast; rw [zpow_add₀ (by norm_num), zpow_natCast]
      have hl : Int.log 2 x = p + j := by
        rw [hxe]; exact_mod_cast Int.log_zpow (R := K) (b := 2) (by norm_num) (p + j)
      refine ⟨2 ^ (p - 1), ?_⟩
      have := (ulp_scale hp x).1
      rw [this, hl, hxe]
  have hm : ∃ m : Int, x = m * ulp p x := by
    rcases hlog with h | h
    · obtain ⟨d, hd⟩ := Int.eq_ofNat_of_zero_le (sub_nonneg.2 h)
      refine ⟨(k : Int) * 2 ^ d, ?_⟩
      unfold ulp
      rw [hxdef]
      push_cast
      rw [mul_assoc, ← zpow_natCast, ← zpow_add₀ (by norm_num)]
      congr 2
      rw [← hxdef]
      omega
    · exact h
  obtain ⟨m, hm⟩ := hm
  have hq : x / ulp p x = m := by rw [div_eq_iff hu.ne']; exact hm
  unfold rnPos
  rw [hq, roundEven_int, ← hm]

theorem rnPos_form {p : Nat} (hp : 1 ≤ p) {x : K} (hx : 0 < x) :
    ∃ (k : Nat) (j : Int), 0 < k ∧ k ≤ 2 ^ p ∧ rnPos p x = (k : K) * 2 ^ j := by
  have hu := ulp_pos p x
  have hpos := rnPos_pos hp hx
  have hle := (rnPos_bounds hp hx).2
  rw [← (ulp_scale hp x).2] at hle
  unfold rnPos at hpos hle
  have h1 : 0 < roundEven (x / ulp p x) := by
    have := pos_of_mul_pos_left hpos hu.le
    exact_mod_cast this
  have h2 : roundEven (x / ulp p x) ≤ 2 ^ p := by
    have := le_of_mul_le_mul_right hle hu
    exact_mod_cast this
  obtain ⟨k, hk⟩ := Int.eq_ofNat_of_zero_le h1.le
  refine ⟨k, Int.log 2 x - p + 1, by omega, ?_, ?_⟩
  · have : (k : Int) ≤ 2 ^ p := by omega
    exact_mod_cast this
  · unfold rnPos ulp at *
    rw [hk]
    push_cast
    rfl

theorem rnPos_error {p : Nat} (hp : 1 ≤ p) {x : K} (hx : 0 < x) : |rnPos p x - x| ≤ (1 / 2 ^ p : K) * x := by
  have hu := ulp_pos p x
  have h1 := (log_bounds hx).1
  rw [← (ulp_scale hp x).1] at h1
  have e : rnPos p x - x = ((roundEven (x / ulp p x) : K) - x / ulp p x) * ulp p x := by
    unfold rnPos
    field_simp
  rw [e, abs_mul, abs_of_pos hu]
  have h2 : |(roundEven (x / ulp p x) : K) - x / ulp p x| * ulp p x ≤ 1 / 2 * ulp p x :=
    mul_le_mul_of_nonneg_right (roundEven_near _) hu.le
  refine h2.trans ?_
  have e2 : (2 : K) ^ p = 2 * 2 ^ (p - 1) := by rw [← pow_succ']; congr 1; omega
  push_cast at h1
  have e3 : (1 / (2 * 2 ^ (p - 1)) : K) * x = x / 2 ^ (p - 1) / 2 := by field_simp
  rw [e2, e3, one_div, inv_mul_eq_div]
  apply div_le_div_of_nonneg_right _ (by norm_num)
  rw [le_div_iff₀ (by positivity)]
  linarith

omit [IsStrictOrderedRing K] in
theorem rn_pos_eq (p : Nat) {x : K} (hx : 0 < x) : rn p x = rnPos p x := by unfold rn; rw [if_pos hx]

theorem rn_zero (p : Nat) : rn p (0 : K) = 0 := by simp [rn]

theorem rn_neg (p : Nat) (x : K) : rn p (-x) = -rn p x := by
  unfold rn
  rcases lt_trichotomy x 0 with h | h | h
  · rw [if_pos (by linarith), if_neg (by linarith), if_pos h, neg_neg]
  · simp [h]
  · rw [if_neg (by linarith), if_pos (by linarith), if_pos h, neg_neg]

theorem rn_mono {p : Nat} (hp : 1 ≤ p) : Monotone (rn p : K → K) := by
  intro x y h
  rcases lt_trichotomy x 0 with hx | hx | hx
  · have ex : rn p x = -rnPos p (-x) := by rw [← neg_neg x, rn_neg, neg_neg, rn_pos_eq p (by linarith)]
    have h0 := rnPos_pos hp (x := -x) (by linarith)
    rcases lt_trichotomy y 0 with hy | hy | hy
    · have ey : rn p y = -rnPos p (-y) := by rw [← neg_neg y, rn_neg, neg_neg, rn_pos_eq p (by linarith)]
      rw [ex, ey]
      have := rnPos_mono hp (x := -y) (y := -x) (by linarith) (by linarith)
      linarith
    · rw [hy, rn_zero, ex]; linarith
    · rw [ex, rn_pos_eq p hy]
      have := rnPos_pos hp hy
      linarith
  · rw [hx, rn_zero]
    rcases (hx ▸ h).eq_or_lt with hy | hy
    · rw [← hy, rn_zero]
    · rw [rn_pos_eq p hy]; exact (rnPos_pos hp hy).le
  · rw [rn_pos_eq p hx, rn_pos_eq p (hx.trans_le h)]
    exact rnPos_mono hp hx h

/-- A number with a significand of at most `p` bits is kept. -/
theorem rn_exact {p : Nat} (hp : 1 ≤ p) (k : Int) (j : Int) (hk : |k| ≤ 2 ^ p) :
    rn p ((k : K) * 2 ^ j) = k * 2 ^ j := by
  have key : ∀ k : Nat, k ≤ 2 ^ p → rn p ((k : K) * 2 ^ j) = k * 2 ^ j := by
    intro k hk
    rcases Nat.eq_zero_or_pos k with rfl | h
    · simp [rn_zero]
    · rw [rn_pos_eq p (by positivity), rnPos_exact hp k j h hk]
  rcases le_total 0 k with h | h
  · obtain ⟨n, rfl⟩ := Int.eq_ofNat_of_zero_le h
    have := key n (by rw [abs_of_nonneg h] at hk; exact_mod_cast hk)
    exact_mod_cast this
  · obtain ⟨n, hn⟩ := Int.eq_ofNat_of_zero_le (neg_nonneg.2 h)
    have hk2 : k = -(n : Int) := by omega
    subst hk2
    have := key n (by rw [abs_of_nonpos h, neg_neg] at hk; exact_mod_cast hk)
    push_cast
    rw [neg_mul, rn_neg, this]

theorem rn_floatRounding {p : Nat} (hp : 1 ≤ p) : FloatRounding (rn p : K → K) where
  mono := rn_mono hp
  zero := rn_zero p
  one := by
    have := rn_exact (K := K) hp 1 0 (by rw [abs_one]; exact one_le_pow₀ (by norm_num))
    simpa using this
  neg := rn_neg p
  idem := by
    have key : ∀ x : K, 0 < x → rn p (rn p x) = rn p x := by
      intro x hx
      rw [rn_pos_eq p hx]
      obtain ⟨k, j, h1, h2, h3⟩ := rnPos_form hp hx
      rw [rn_pos_eq p (rnPos_pos hp hx), h3, rnPos_exact hp k j h1 h2]
    intro x
    rcases lt_trichotomy x 0 with hx | hx | hx
    · have := key (-x) (by linarith)
      rw [rn_neg, rn_neg, neg_inj] at this
      exact this
    · rw [hx, rn_zero, rn_zero]
    · exact key x hx
  pos := fun x hx => by rw [rn_pos_eq p hx]; exact rnPos_pos hp hx

theorem rn_relError {p : Nat} (hp : 1 ≤ p) : RelError (1 / 2 ^ p : K) (rn p) := by
  have key : ∀ x : K, 0 < x → |rn p x - x| ≤ (1 / 2 ^ p : K) * |x| := by
    intro x hx
    rw [rn_pos_eq p hx, abs_of_pos hx]
    exact rnPos_error hp hx
  intro x
  rcases lt_trichotomy x 0 with hx | hx | hx
  · have := key (-x) (by linarith)
    rw [rn_neg] at this
    have e : rn p x - x = -(-rn p x - -x) := by ring
    rw [e, abs_neg, ← abs_neg x]
    exact this
  · simp [hx, rn_zero]
  · exact key x hx

theorem binary64_floatRounding : FloatRounding (binary64 : K → K) := rn_floatRounding (by norm_num)

theorem binary64_relError : RelError (1 / 2 ^ 53 : K) binary64 := rn_relError (by norm_num)

theorem binary64_exact (k j : Int) (hk : |k| ≤ 2 ^ 53) : binary64 ((k : K) * 2 ^ j) = k * 2 ^ j :=
  rn_exact (by norm_num) k j hk

omit [IsStrictOrderedRing K] [FloorRing K] in
theorem id_floatRounding : FloatRounding (id : K → K) :=
  ⟨⟨monotone_id, rfl, rfl, fun _ => rfl, fun _ => rfl⟩, fun _ h => h⟩

end
end Mlp.Round
