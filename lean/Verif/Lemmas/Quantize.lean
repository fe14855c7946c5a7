import Verif.Lemmas.SigGrid

/-! # `quantize`, `create_decimal` and the cell conversion of `decimalize` -/

namespace Mlp
open Spec

/-- Coefficient of the rescaled value. -/
def rescaled (m : Rounding) (neg : Bool) (c : Nat) (e e' : Int) : Nat :=
  if e' ≤ e then c * 10 ^ (e - e').toNat else roundOff m neg c (e' - e).toNat

theorem roundOff_zero_coeff (m : Rounding) (neg : Bool) (d : Nat) : roundOff m neg 0 d = 0 := by
  have h : 0 < 10 ^ d := by positivity
  cases m
  · simp [roundOff]
  · simp only [roundOff, Nat.zero_div, Nat.zero_mod, mul_zero]
    split <;> omega
  · simp only [roundOff, Nat.zero_div, Nat.zero_mod, mul_zero]
    split
    · omega
    · split <;> simp

theorem rescaled_zero (m : Rounding) (neg : Bool) (e e' : Int) : rescaled m neg 0 e e' = 0 := by
  unfold rescaled; split <;> simp [roundOff_zero_coeff]

theorem quantize_fin (m : Rounding) (neg : Bool) (c : Nat) (e : Int) (n₂ : Bool) (c₂ : Nat)
    (e' : Int) :
    Dec.quantize m (.fin neg c e) (.fin n₂ c₂ e') =
      if 10 ^ 28 ≤ rescaled m neg c e e' then .error .invalidOperation
      else .ok (.fin neg (rescaled m neg c e e') e') := by
  unfold Dec.quantize
  by_cases h0 : c = 0
  · subst h0
    simp [rescaled_zero]
  simp only [h0, if_false]
  have hresc : Dec.rescale m neg c e e' = .fin neg (rescaled m neg c e e') e' := by
    unfold Dec.rescale rescaled; simp only [h0, if_false]; split <;> rfl
  rw [hresc]
  simp only []
  have hbig : Dec.ctxPrec < ndig (rescaled m neg c e e') ↔ 10 ^ 28 ≤ rescaled m neg c e e' :=
    lt_ndig_iff (rescaled m neg c e e') 28 (by norm_num)
  by_cases h1 : (Dec.ctxPrec : Int) < (e + ndig c - 1) - e' + 1
  · rw [if_pos h1]
    have h2 : 10 ^ 28 ≤ rescaled m neg c e e' := by
      unfold Dec.ctxPrec at h1
      have hl := pow_ndig_le c h0
      have hp := ndig_pos c
      unfold rescaled
      split
      · rename_i hle
        calc 10 ^ 28 ≤ 10 ^ (ndig c - 1 + (e - e').toNat) := Nat.pow_le_pow_right (by norm_num) (by omega)
          _ = 10 ^ (ndig c - 1) * 10 ^ (e - e').toNat := pow_add _ _ _
          _ ≤ c * 10 ^ (e - e').toNat := Nat.mul_le_mul_right _ hl
      · rename_i hle
        refine le_trans ?_ (roundOff_le_succ m neg c _).1
        rw [Nat.le_div_iff_mul_le (by positivity), ← pow_add]
        refine le_trans (Nat.pow_le_pow_right (by norm_num) ?_) hl
        omega
    rw [if_pos h2]
  · rw [if_neg h1]
    by_cases h2 : 10 ^ 28 ≤ rescaled m neg c e e'
    · rw [if_pos h2, if_pos (hbig.mpr h2)]
    · rw [if_neg h2, if_neg (fun h => h2 (hbig.mp h))]

theorem zpow_sub_toNat (e e' : Int) (h : e' ≤ e) :
    (10 : ℚ) ^ e = 10 ^ (e - e').toNat * 10 ^ e' := by
  rw [← zpow_natCast, ← zpow_add₀ (by norm_num)]; congr 1; omega

theorem rescaled_exact (m : Rounding) (neg : Bool) (c : Nat) (e e' : Int) (h : e' ≤ e) :
    sval neg (rescaled m neg c e e') e' = sval neg c e := by
  unfold rescaled sval
  rw [if_pos h, zpow_sub_toNat e e' h]; push_cast; ring

/-- Value of a coefficient before rounding, in units of the target quantum. -/
theorem sval_div_unit (neg : Bool) (c : Nat) (e e' : Int) (h : ¬ e' ≤ e) :
    sval neg c e = (if neg then -1 else 1) * ((c : ℚ) / 10 ^ (e' - e).toNat) * (10 : ℚ) ^ e' := by
  have h2 := sval_div_pow neg c (e' - e).toNat e
  have h3 : e + ((e' - e).toNat : Int) = e' := by omega
  rw [h3] at h2; exact h2

theorem rescaled_halfUp (neg : Bool) (c : Nat) (e e' : Int) :
    RoundsToUnit ((10 : ℚ) ^ e') (sval neg c e) (sval neg (rescaled .halfUp neg c e e') e') := by
  have hu := zpow10_pos e'
  by_cases h : e' ≤ e
  · rw [rescaled_exact _ _ _ _ _ h]
    refine ⟨⟨(if neg then -1 else 1) * (rescaled .halfUp neg c e e' : Nat), ?_⟩, fun k => ?_⟩
    · rw [← rescaled_exact .halfUp neg c e e' h]; unfold sval
      cases neg <;> push_cast <;> simp
    · simp only [sub_self, abs_zero]
      refine ⟨abs_nonneg _, fun hE => ?_⟩
      rw [abs_eq_zero] at hE
      have : (k : ℚ) * 10 ^ e' = sval neg c e := by linarith
      rw [this]
  · rw [sval_div_unit neg c e e' h]
    have h1 := roundOff_halfUp neg c (e' - e).toNat
    have := halfUp_mult neg _ _ hu (by positivity) _ h1.1 h1.2
    unfold rescaled
    rw [if_neg h]
    exact this

theorem rescaled_ceil (neg : Bool) (c : Nat) (e e' : Int) :
    CeilsToUnit ((10 : ℚ) ^ e') (sval neg c e) (sval neg (rescaled .ceiling neg c e e') e') := by
  have hu := zpow10_pos e'
  have hmem : ∃ k : ℤ, sval neg (rescaled .ceiling neg c e e') e' = k * (10 : ℚ) ^ e' :=
    ⟨(if neg then -1 else 1) * (rescaled .ceiling neg c e e' : Nat), by
      unfold sval; cases neg <;> push_cast <;> simp⟩
  by_cases h : e' ≤ e
  · have hv := rescaled_exact .ceiling neg c e e' h
    exact ⟨⟨hmem, hv.ge⟩, fun z hz => by rw [hv]; exact hz.2⟩
  · unfold rescaled at hmem ⊢
    rw [if_neg h] at hmem ⊢
    rw [sval_div_unit neg c e e' h]
    cases neg
    · obtain ⟨h1, h2⟩ := roundOff_ceil_pos c (e' - e).toNat
      refine ⟨⟨hmem, ?_⟩, ?_⟩
      · simp only [sval, Bool.false_eq_true, if_false, one_mul]
        exact mul_le_mul_of_nonneg_right h1 hu.le
      · rintro z ⟨⟨k, rfl⟩, hz⟩
        simp only [sval, Bool.false_eq_true, if_false, one_mul] at hz ⊢
        have h3 := le_of_mul_le_mul_right hz hu
        have h4 : ((roundOff .ceiling false c (e' - e).toNat : Nat) : ℚ) < k + 1 := by linarith
        have h5 : ((roundOff .ceiling false c (e' - e).toNat : Nat) : ℤ) < k + 1 := by exact_mod_cast h4
        have h6 : ((roundOff .ceiling false c (e' - e).toNat : Nat) : ℤ) ≤ k := by omega
        exact mul_le_mul_of_nonneg_right (by exact_mod_cast h6) hu.le
    · obtain ⟨h1, h2⟩ := roundOff_ceil_neg c (e' - e).toNat
      refine ⟨⟨hmem, ?_⟩, ?_⟩
      · simp only [sval, if_true, neg_one_mul]
        exact mul_le_mul_of_nonneg_right (by linarith) hu.le
      · rintro z ⟨⟨k, rfl⟩, hz⟩
        simp only [sval, if_true, neg_one_mul] at hz ⊢
        have h3 := le_of_mul_le_mul_right hz hu
        have h4 : -((roundOff .ceiling true c (e' - e).toNat : Nat) : ℚ) < k + 1 := by linarith
        have h5 : -((roundOff .ceiling true c (e' - e).toNat : Nat) : ℤ) < k + 1 := by exact_mod_cast h4
        have h6 : -((roundOff .ceiling true c (e' - e).toNat : Nat) : ℤ) ≤ k := by omega
        exact mul_le_mul_of_nonneg_right (by exact_mod_cast h6) hu.le

/-- Rounding to a unit, ties away from zero, has a single answer. -/
theorem RoundsToUnit.unique {u x y₁ y₂ : ℚ} (h₁ : RoundsToUnit u x y₁) (h₂ : RoundsToUnit u x y₂) :
    y₁ = y₂ := by
  obtain ⟨⟨k₁, rfl⟩, h₁⟩ := h₁
  obtain ⟨⟨k₂, rfl⟩, h₂⟩ := h₂
  have a := h₁ k₂
  have b := h₂ k₁
  have hd := le_antisymm a.1 b.1
  have hm : |(k₁ : ℚ) * u| = |(k₂ : ℚ) * u| := le_antisymm (b.2 hd) (a.2 hd.symm)
  rcases abs_eq_abs.mp hm with h | h
  · exact h
  · rcases abs_eq_abs.mp hd with h' | h'
    · linarith
    · -- then x = 0 and both are 0
      have hx : x = 0 := by linarith
      have h0 := (h₁ 0).1
      rw [hx, Int.cast_zero, zero_mul, sub_zero, sub_zero, abs_zero] at h0
      have h00 := abs_eq_zero.mp (le_antisymm h0 (abs_nonneg _))
      linarith

/-- The `+` operator in a context, for the three modes. -/
theorem pos_fin (prec : Nat) (m : Rounding) (neg : Bool) (c : Nat) (e : Int) :
    Dec.pos prec m (.fin neg c e) = Dec.fix prec m (.fin (if c = 0 then false else neg) c e) := rfl

theorem sval_posZero (neg : Bool) (c : Nat) (e : Int) :
    sval (if c = 0 then false else neg) c e = sval neg c e := by
  by_cases h : c = 0
  · subst h; simp [sval]
  · simp [h]

end Mlp
