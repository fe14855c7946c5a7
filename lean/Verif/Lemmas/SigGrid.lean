import Verif.Lemmas.DecLemmas
import Verif.Spec.SigGrid

/-! # Rounding to significant digits is what the specification says -/

namespace Mlp
open Spec

theorem abs_sval (n : Bool) (c : Nat) (e : Int) : |sval n c e| = (c : ℚ) * 10 ^ e := by
  have h := zpow10_pos e
  have h2 : (0 : ℚ) ≤ (c : ℚ) * 10 ^ e := by positivity
  cases n
  · simp [sval, abs_of_nonneg h2]
  · simp [sval, abs_of_nonneg h2]

/-- Representable numbers of magnitude at least `10^(prec-1)` units are multiples of the unit. -/
theorem grid_mult (prec : Nat) (hp : 1 ≤ prec) (v : Int) (z : ℚ) (hz : SigGrid prec z)
    (hB : (10 : ℚ) ^ (prec - 1) * 10 ^ v ≤ |z|) : ∃ j : ℤ, z = j * 10 ^ v := by
  obtain ⟨n, c, k, hc, rfl⟩ := hz
  rw [abs_sval] at hB
  have hc' : (c : ℚ) < 10 ^ prec := by exact_mod_cast hc
  have h1 : (10 : ℚ) ^ (((prec - 1 : Nat) : Int) + v) < 10 ^ ((prec : Int) + k) := by
    rw [zpow_add₀ (by norm_num), zpow_add₀ (by norm_num), zpow_natCast, zpow_natCast]
    exact lt_of_le_of_lt hB (mul_lt_mul_of_pos_right hc' (zpow10_pos k))
  have h2 := (zpow_lt_zpow_iff_right₀ (by norm_num : (1 : ℚ) < 10)).mp h1
  have h3 : v ≤ k := by omega
  obtain ⟨w, hw⟩ : ∃ w : Nat, k = v + w := ⟨(k - v).toNat, by omega⟩
  refine ⟨(if n then -1 else 1) * (c * 10 ^ w : Nat), ?_⟩
  rw [hw]
  unfold sval
  rw [zpow_add₀ (by norm_num), zpow_natCast]
  cases n <;> push_cast <;> simp <;> ring

theorem halfUp_int (t : ℚ) (q : Nat) (h1 : (q : ℚ) ≤ t + 1 / 2) (h2 : t + 1 / 2 < q + 1) (ht : 0 ≤ t)
    (j : ℤ) :
    |(q : ℚ) - t| ≤ |(j : ℚ) - t| ∧ (|(j : ℚ) - t| = |(q : ℚ) - t| → |(j : ℚ)| ≤ q) := by
  have hqt : |(q : ℚ) - t| ≤ 1 / 2 := by rw [abs_le]; constructor <;> linarith
  rcases lt_trichotomy j (q : ℤ) with h | h | h
  · have hj : (j : ℚ) + 1 ≤ q := by exact_mod_cast h
    have h3 : 1 / 2 ≤ |(j : ℚ) - t| := by
      rw [abs_sub_comm]; exact le_trans (by linarith) (le_abs_self _)
    refine ⟨le_trans hqt h3, fun hE => ?_⟩
    have h4 : |(j : ℚ) - t| ≤ 1 / 2 := by rw [hE]; exact hqt
    rw [abs_le] at h4 ⊢
    by_cases hq0 : q = 0
    · subst hq0
      have : (j : ℚ) + 1 ≤ 0 := by simpa using hj
      exfalso
      have := h4.1
      linarith
    · have : (1 : ℚ) ≤ q := by exact_mod_cast Nat.one_le_iff_ne_zero.mpr hq0
      constructor <;> linarith
  · subst h; simp
  · have hj : (q : ℚ) + 1 ≤ j := by exact_mod_cast h
    have h3 : 1 / 2 < |(j : ℚ) - t| := lt_of_lt_of_le (by linarith) (le_abs_self _)
    exact ⟨le_trans hqt h3.le, fun hE => absurd hE (by linarith)⟩

theorem halfUp_mult (neg : Bool) (t u : ℚ) (hu : 0 < u) (ht : 0 ≤ t) (q : Nat)
    (h1 : (q : ℚ) ≤ t + 1 / 2) (h2 : t + 1 / 2 < q + 1) :
    RoundsToUnit u ((if neg then -1 else 1) * t * u) ((if neg then -1 else 1) * (q : ℚ) * u) := by
  refine ⟨⟨(if neg then -1 else 1) * q, by cases neg <;> simp⟩, fun k => ?_⟩
  cases neg
  · have h := halfUp_int t q h1 h2 ht k
    simp only [Bool.false_eq_true, if_false, one_mul]
    rw [← sub_mul, ← sub_mul, abs_mul, abs_mul, abs_mul, abs_mul, abs_of_pos hu]
    refine ⟨mul_le_mul_of_nonneg_right h.1 hu.le, fun hE => ?_⟩
    have := h.2 (mul_right_cancel₀ hu.ne' hE)
    rw [Nat.abs_cast]
    exact mul_le_mul_of_nonneg_right this hu.le
  · have h := halfUp_int t q h1 h2 ht (-k)
    simp only [if_true, neg_one_mul]
    have e1 : -(q : ℚ) * u - -t * u = -(((q : ℚ) - t) * u) := by ring
    have e2 : (k : ℚ) * u - -t * u = -((((-k : ℤ) : ℚ) - t) * u) := by push_cast; ring
    rw [e1, e2, abs_neg, abs_neg, abs_mul, abs_mul, abs_mul, abs_mul, abs_of_pos hu]
    refine ⟨mul_le_mul_of_nonneg_right h.1 hu.le, fun hE => ?_⟩
    have := h.2 (mul_right_cancel₀ hu.ne' hE)
    rw [Int.cast_neg, abs_neg] at this
    rw [abs_neg, Nat.abs_cast]
    exact mul_le_mul_of_nonneg_right this hu.le

/-- Bounds on the leading part of the coefficient. -/
theorem lead_bounds (prec : Nat) (hp : 1 ≤ prec) (c : Nat) (h : prec < ndig c) :
    (10 : ℚ) ^ (prec - 1) ≤ (c : ℚ) / 10 ^ (dropped prec c) := by
  have hc0 : c ≠ 0 := by rintro rfl; rw [ndig_zero] at h; omega
  have h1 := pow_ndig_le c hc0
  unfold dropped
  have h2 : (0 : ℚ) < 10 ^ (ndig c - prec) := by positivity
  rw [le_div_iff₀ h2, ← pow_add]
  have h3 : prec - 1 + (ndig c - prec) = ndig c - 1 := by omega
  rw [h3]; exact_mod_cast h1

theorem sval_fix_form (prec : Nat) (neg : Bool) (c : Nat) (e : Int) :
    sval neg c e = (if neg then -1 else 1) * ((c : ℚ) / 10 ^ (dropped prec c)) *
      (10 : ℚ) ^ (e + dropped prec c) := sval_div_pow neg c _ e

theorem fix_ceiling (prec : Nat) (hp : 1 ≤ prec) (neg : Bool) (c : Nat) (e : Int) :
    ∃ c' e', Dec.fix prec .ceiling (.fin neg c e) = .fin neg c' e' ∧ c' < 10 ^ prec ∧
      RoundsUp prec (sval neg c e) (sval neg c' e') := by
  obtain ⟨c', e', hfix, hlt, hval, -, -, h0⟩ := fix_spec prec hp .ceiling neg c e
  refine ⟨c', e', hfix, hlt, ?_⟩
  by_cases hd : ndig c ≤ prec
  · obtain ⟨rfl, rfl⟩ := h0 (by unfold dropped; omega)
    exact ⟨⟨⟨neg, c', e', hlt, rfl⟩, le_refl _⟩, fun z hz => hz.2⟩
  have hlead := lead_bounds prec hp c (by omega)
  have hu := zpow10_pos (e + dropped prec c)
  have hgrid : SigGrid prec (sval neg c' e') := ⟨neg, c', e', hlt, rfl⟩
  rw [hval] at hgrid ⊢
  rw [sval_fix_form prec neg c e]
  set t := (c : ℚ) / 10 ^ (dropped prec c)
  set v := e + (dropped prec c : Int)
  set u := (10 : ℚ) ^ v
  have hpp : (0 : ℚ) < 10 ^ (prec - 1) := by positivity
  cases neg
  · obtain ⟨h1, h2⟩ := roundOff_ceil_pos c (dropped prec c)
    set q := roundOff .ceiling false c (dropped prec c)
    simp only [sval, Bool.false_eq_true, if_false, one_mul] at hgrid ⊢
    refine ⟨⟨hgrid, mul_le_mul_of_nonneg_right h1 hu.le⟩, ?_⟩
    rintro z ⟨hz, hxz⟩
    have hzB : (10 : ℚ) ^ (prec - 1) * u ≤ |z| :=
      le_trans (mul_le_mul_of_nonneg_right hlead hu.le) (le_trans hxz (le_abs_self z))
    obtain ⟨j, rfl⟩ := grid_mult prec hp v z hz hzB
    have h3 : t ≤ j := le_of_mul_le_mul_right hxz hu
    have h4 : (q : ℚ) < j + 1 := by linarith
    have h5 : (q : ℤ) ≤ j := by
      have : (q : ℤ) < j + 1 := by exact_mod_cast h4
      omega
    exact mul_le_mul_of_nonneg_right (by exact_mod_cast h5) hu.le
  · obtain ⟨h1, h2⟩ := roundOff_ceil_neg c (dropped prec c)
    set q := roundOff .ceiling true c (dropped prec c)
    simp only [sval, if_true, neg_one_mul] at hgrid ⊢
    refine ⟨⟨hgrid, mul_le_mul_of_nonneg_right (by linarith) hu.le⟩, ?_⟩
    rintro z ⟨hz, hxz⟩
    have hq : (10 : ℚ) ^ (prec - 1) ≤ q := by
      have : ((10 ^ (prec - 1) : Nat) : ℚ) < q + 1 := by push_cast; linarith
      have h3 : 10 ^ (prec - 1) < q + 1 := by exact_mod_cast this
      have h4 : 10 ^ (prec - 1) ≤ q := by omega
      exact_mod_cast h4
    by_cases hzB : (10 : ℚ) ^ (prec - 1) * u ≤ |z|
    · obtain ⟨j, rfl⟩ := grid_mult prec hp v z hz hzB
      have h3 : -t ≤ j := le_of_mul_le_mul_right hxz hu
      have h4 : -(q : ℚ) < j + 1 := by linarith
      have h5 : -(q : ℤ) ≤ j := by
        have : -(q : ℤ) < j + 1 := by exact_mod_cast h4
        omega
      exact mul_le_mul_of_nonneg_right (by exact_mod_cast h5) hu.le
    · have h3 := neg_abs_le z
      have h4 : (10 : ℚ) ^ (prec - 1) * u ≤ q * u := mul_le_mul_of_nonneg_right hq hu.le
      linarith [not_le.mp hzB]

theorem fix_halfUp (prec : Nat) (hp : 1 ≤ prec) (neg : Bool) (c : Nat) (e : Int) :
    ∃ c' e', Dec.fix prec .halfUp (.fin neg c e) = .fin neg c' e' ∧ c' < 10 ^ prec ∧
      RoundsHalfUp prec (sval neg c e) (sval neg c' e') := by
  obtain ⟨c', e', hfix, hlt, hval, -, -, h0⟩ := fix_spec prec hp .halfUp neg c e
  refine ⟨c', e', hfix, hlt, ?_⟩
  have hgrid : SigGrid prec (sval neg c' e') := ⟨neg, c', e', hlt, rfl⟩
  refine ⟨hgrid, ?_⟩
  by_cases hd : ndig c ≤ prec
  · obtain ⟨rfl, rfl⟩ := h0 (by unfold dropped; omega)
    intro z hz
    simp only [sub_self, abs_zero]
    refine ⟨abs_nonneg _, fun h => ?_⟩
    have : z = sval neg c' e' := by rw [abs_eq_zero] at h; linarith
    rw [this]
  have hlead := lead_bounds prec hp c (by omega)
  have hu := zpow10_pos (e + dropped prec c)
  rw [hval, sval_fix_form prec neg c e]
  have ⟨h1, h2⟩ := roundOff_halfUp neg c (dropped prec c)
  have ht : 0 ≤ (c : ℚ) / 10 ^ (dropped prec c) := by positivity
  have key := halfUp_mult neg _ _ hu ht _ h1 h2
  have e1 : sval neg (roundOff .halfUp neg c (dropped prec c)) (e + dropped prec c) =
    (if neg then -1 else 1) * (roundOff .halfUp neg c (dropped prec c) : ℚ) *
      (10 : ℚ) ^ (e + dropped prec c) := rfl
  rw [e1]
  set t := (c : ℚ) / 10 ^ (dropped prec c)
  set v := e + (dropped prec c : Int)
  set u := (10 : ℚ) ^ v
  set q := roundOff .halfUp neg c (dropped prec c)
  intro z hz
  by_cases hzB : (10 : ℚ) ^ (prec - 1) * u ≤ |z|
  · obtain ⟨j, rfl⟩ := grid_mult prec hp v z hz hzB
    exact key.2 j
  · -- compare with the power of ten just below x
    have hstrict : |(if neg then -1 else 1) * (q : ℚ) * u - (if neg then -1 else 1) * t * u| <
        |z - (if neg then -1 else 1) * t * u| := by
      have h3 := (key.2 ((if neg then -1 else 1) * 10 ^ (prec - 1))).1
      refine lt_of_le_of_lt h3 ?_
      have hza := abs_lt.mp (not_le.mp hzB)
      have hl : (10 : ℚ) ^ (prec - 1) * u ≤ t * u := mul_le_mul_of_nonneg_right hlead hu.le
      cases neg
      · simp only [Bool.false_eq_true, if_false, one_mul]
        push_cast
        rw [abs_of_nonpos (by linarith), abs_of_nonpos (by linarith)]
        linarith
      · simp only [if_true, neg_one_mul]
        push_cast
        rw [abs_of_nonneg (by linarith), abs_of_nonneg (by linarith)]
        linarith
    exact ⟨hstrict.le, fun h => absurd h (by linarith)⟩

end Mlp
