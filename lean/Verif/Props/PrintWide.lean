import Verif.Props.Print
import Verif.Spec.SigGrid

/-! # Property C103: printing a mean of more than 28 digits -/

namespace Mlp.Props
open Mlp Mlp.Spec Mlp.Sciprint

theorem roundOff_even_tie (neg : Bool) (c d : Nat)
    (h : |(roundOff .halfEven neg c d : ℚ) - (c : ℚ) / 10 ^ d| = 1 / 2) :
    roundOff .halfEven neg c d % 2 = 0 := by
  have hp : (0 : ℚ) < 10 ^ d := by positivity
  have hr : c % 10 ^ d < 10 ^ d := Nat.mod_lt _ (by positivity)
  have hr' : ((c % 10 ^ d : Nat) : ℚ) < 10 ^ d := by exact_mod_cast hr
  have hfrac : ((c % 10 ^ d : Nat) : ℚ) / 10 ^ d < 1 := by rw [div_lt_one hp]; exact hr'
  have hnn : (0 : ℚ) ≤ ((c % 10 ^ d : Nat) : ℚ) / 10 ^ d := by positivity
  rw [div_decomp] at h
  simp only [roundOff] at h ⊢
  by_cases h2 : 10 ^ d < 2 * (c % 10 ^ d)
  · rw [if_pos h2] at h
    exfalso
    have h2' : ((10 ^ d : Nat) : ℚ) < 2 * ((c % 10 ^ d : Nat) : ℚ) := by exact_mod_cast h2
    have h3 : (1 : ℚ) / 2 < ((c % 10 ^ d : Nat) : ℚ) / 10 ^ d := by
      rw [lt_div_iff₀ hp]; push_cast at h2' ⊢; linarith
    rw [abs_of_nonneg (by push_cast; linarith)] at h
    push_cast at h h3
    linarith
  · rw [if_neg h2] at h ⊢
    by_cases h3 : 2 * (c % 10 ^ d) = 10 ^ d
    · rw [if_pos h3]
      split <;> omega
    · rw [if_neg h3] at h
      exfalso
      have h4 : 2 * (c % 10 ^ d) < 10 ^ d := by omega
      have h4' : 2 * ((c % 10 ^ d : Nat) : ℚ) < ((10 ^ d : Nat) : ℚ) := by exact_mod_cast h4
      have h5 : ((c % 10 ^ d : Nat) : ℚ) / 10 ^ d < 1 / 2 := by
        rw [div_lt_iff₀ hp]; push_cast at h4' ⊢; linarith
      rw [abs_of_nonpos (by linarith)] at h
      linarith

theorem roundsEven_sval (n : Bool) (c d : Nat) (e : Int) :
    RoundsEvenToUnit ((10 : ℚ) ^ (e + d)) (sval n c e) (sval n (roundOff .halfEven n c d) (e + d)) := by
  have hu : (0 : ℚ) < (10 : ℚ) ^ (e + (d : Int)) := by positivity
  obtain ⟨h1, h2⟩ := roundOff_halfEven n c d
  have hdiff : sval n (roundOff .halfEven n c d) (e + d) - sval n c e =
      (if n then -1 else 1) * (((roundOff .halfEven n c d : Nat) : ℚ) - (c : ℚ) / 10 ^ d) * (10 : ℚ) ^ (e + (d : Int)) := by
    rw [sval_div_pow n c d e]
    unfold sval
    ring
  have habs : |sval n (roundOff .halfEven n c d) (e + d) - sval n c e| =
      |((roundOff .halfEven n c d : Nat) : ℚ) - (c : ℚ) / 10 ^ d| * (10 : ℚ) ^ (e + (d : Int)) := by
    rw [hdiff, abs_mul, abs_mul, abs_of_pos hu]
    cases n <;> simp
  refine ⟨(if n then -1 else 1) * (roundOff .halfEven n c d : Nat), ?_, ?_, ?_⟩
  · unfold sval
    cases n <;> simp
  · rw [habs, show (10 : ℚ) ^ (e + (d : Int)) / 2 = 1 / 2 * (10 : ℚ) ^ (e + (d : Int)) by ring]
    exact mul_le_mul_of_nonneg_right (abs_sub_le_iff.2 ⟨by linarith, by linarith⟩) hu.le
  · intro h
    rw [habs, show (10 : ℚ) ^ (e + (d : Int)) / 2 = 1 / 2 * (10 : ℚ) ^ (e + (d : Int)) by ring] at h
    have h3 := roundOff_even_tie n c d (mul_right_cancel₀ hu.ne' h)
    have h4 : Even ((roundOff .halfEven n c d : Nat) : ℤ) := by
      rw [Int.even_iff]; omega
    exact h4.mul_left _

/-- The effect of `scaleb` on a coefficient of more than 28 digits. -/
theorem scaleb_wide (shift : Int) (n : Bool) (c : Nat) (e : Int) (d : Nat) (h1 : 10 ^ (27 + d) ≤ c)
    (h2 : c < 10 ^ (28 + d)) (hd : 1 ≤ d) :
    ∃ c' j, Dec.scaleb shift (.fin n c e) = .fin n c' (e + j + shift) ∧
      sval n c' (e + j) = sval n (roundOff .halfEven n c d) (e + d) ∧
      ((j = d ∧ roundOff .halfEven n c d < 10 ^ 28) ∨ (j = d + 1 ∧ roundOff .halfEven n c d = 10 ^ 28)) := by
  have hn : ndig c = 28 + d := by
    have g1 := (ndig_le_iff c (28 + d) (by omega)).2 h2
    have g2 := mt (ndig_le_iff c (27 + d) (by omega)).1 (not_lt.2 h1)
    omega
  have hq := (roundOff_le_succ .halfEven n c d).2
  have hdiv : c / 10 ^ d < 10 ^ 28 := by
    rw [Nat.div_lt_iff_lt_mul (by positivity), ← pow_add]; exact h2
  have hq' : roundOff .halfEven n c d ≤ 10 ^ 28 := by omega
  have hsub : 28 + d - 28 = d := by omega
  simp only [Dec.scaleb, Dec.fix, Dec.ctxPrec, hn, hsub]
  rw [if_neg (by omega)]
  by_cases hc : roundOff .halfEven n c d = 10 ^ 28
  · have h28 : 28 < ndig (roundOff .halfEven n c d) := by
      have := mt (ndig_le_iff (roundOff .halfEven n c d) 28 (by omega)).1 (by rw [hc]; exact lt_irrefl _)
      omega
    rw [if_pos h28]
    refine ⟨_, d + 1, by congr 1; ring, ?_, Or.inr ⟨rfl, hc⟩⟩
    rw [hc]
    have := sval_mul_pow n (10 ^ 27) (e + d) 1
    rw [show (10 : Nat) ^ 28 / 10 = 10 ^ 27 by norm_num, ← add_assoc]
    push_cast at this ⊢
    rw [← this]
  · have h28 : ¬ 28 < ndig (roundOff .halfEven n c d) := by
      have := (ndig_le_iff (roundOff .halfEven n c d) 28 (by omega)).2 (by omega)
      omega
    rw [if_neg h28]
    exact ⟨_, d, by congr 1; ring, rfl, Or.inl ⟨rfl, by omega⟩⟩

/-- **C103** An unclipped mean of `28 + d` digits is printed rounded half-even to 28 significant
digits, and with it the decimal point of the error in parentheses moves: a reader gets `10^j` times
the error, where `j ≥ 1` is the number of places lost. -/
theorem C103_wide_mean (n : Bool) (c : Nat) (e : Int) (nb : Bool) (cb : Nat) (eb : Int)
    (shift : Int) (a b : Dec) (nff : NonFiniteFmt) (s : Str) (d : Nat) (hd : 1 ≤ d)
    (hc : 10 ^ (27 + d) ≤ c) (hc' : c < 10 ^ (28 + d))
    (hb : DLe (.fin n c e) b) (ha : DLe a (.fin n c e))
    (h : printEstimate (.fin n c e) (.fin nb cb eb) shift a b nff = .ok s) :
    ∃ (y : ℚ) (j : Int), RoundsEvenToUnit ((10 : ℚ) ^ (e + d)) (sval n c e) y ∧
      ((j = d ∧ |y| < 10 ^ (e + d + 28)) ∨ (j = d + 1 ∧ |y| = 10 ^ (e + d + 28))) ∧
      readEst s = some (shifted y shift, (-(e + j + shift)).toNat,
        some (shifted (sval nb cb eb) (shift + j))) := by
  have hv : ValidClips a b := by
    by_contra hv; rw [printEstimate_invalid _ _ _ _ _ _ hv] at h; cases h
  obtain ⟨c', j, hs, hval, hj⟩ := scaleb_wide shift n c e d hc hc' hd
  obtain ⟨k1, k2, k3⟩ := printEstimate_fin n c e (.fin nb cb eb) shift a b nff hv hb ha n c' _ hs
  have hmag : |sval n (roundOff .halfEven n c d) (e + d)| =
      (roundOff .halfEven n c d : ℚ) * (10 : ℚ) ^ (e + (d : Int)) := by
    unfold sval
    rw [abs_mul, abs_mul, abs_of_pos (by positivity : (0 : ℚ) < (10 : ℚ) ^ (e + (d : Int))), Nat.abs_cast]
    cases n <;> simp
  have hsplit : (10 : ℚ) ^ (e + (d : Int) + 28) = 10 ^ 28 * (10 : ℚ) ^ (e + (d : Int)) := by
    rw [zpow_add₀ (by norm_num), mul_comm]; norm_num
  refine ⟨_, j, roundsEven_sval n c d e, ?_, ?_⟩
  · rw [hmag, hsplit]
    rcases hj with ⟨h1, h2⟩ | ⟨h1, h2⟩
    · refine Or.inl ⟨h1, mul_lt_mul_of_pos_right ?_ (by positivity)⟩
      exact_mod_cast h2
    · refine Or.inr ⟨h1, ?_⟩
      rw [h2]; norm_num
  · by_cases h0 : e + j + shift ≤ 0
    · by_cases hf : ErrFits e (.fin nb cb eb)
      · rw [k2 h0 hf] at h
        injection h with h
        rw [← h, readEst_joinEst_fin, sval_shift, hval]
        have herr : (cb : ℚ) / 10 ^ (-(e + j + shift)).toNat = shifted (sval nb cb eb) (shift + j) := by
          rcases Nat.eq_zero_or_pos cb with h1 | h1
          · subst h1; simp [shifted, sval]
          · obtain ⟨f1, f2⟩ := hf
            have f1' : e = eb := by omega
            have f2' : nb = false := by rcases f2 with h | h; exact h; omega
            subst f1' f2'
            rw [← sval_shift]
            unfold sval
            have he : e + (shift + j) = -(((-(e + j + shift)).toNat : Nat) : Int) := by omega
            conv_rhs => rw [he]
            rw [zpow_neg, zpow_natCast]
            simp [div_eq_mul_inv]
        rw [herr]
      · rw [k3 h0 hf] at h; cases h
    · rw [k1 (by omega)] at h; cases h

/-- C103, a concrete case: a mean of 29 digits ending in a tie, with an error of 4 units in the last
place, is printed with an error of 4 units of the place before. -/
example : printEstimate (.fin false 12345678901234567890123456785 (-28)) (.fin false 4 (-28)) 0 =
      .ok "1.234567890123456789012345678(4)".toList ∧
    readEst "1.234567890123456789012345678(4)".toList =
      some (1234567890123456789012345678 / 10 ^ 27, 27, some (4 / 10 ^ 27)) := by
  have hp : printEstimate (.fin false 12345678901234567890123456785 (-28)) (.fin false 4 (-28)) 0 =
      .ok "1.234567890123456789012345678(4)".toList := by decide +kernel
  refine ⟨hp, ?_⟩
  obtain ⟨y, j, ⟨k, hk, h1, h2⟩, hj, hr⟩ := C103_wide_mean false 12345678901234567890123456785 (-28) false 4
    (-28) 0 (.inf true) (.inf false) (fun _ => none) "1.234567890123456789012345678(4)".toList 1 (by norm_num)
    (by norm_num) (by norm_num) (by trivial) (by trivial) hp
  have hx : sval false 12345678901234567890123456785 (-28) = 12345678901234567890123456785 / 10 ^ 28 := by
    norm_num [sval]
  have hu : ((10 : ℚ) ^ ((-28 : Int) + ((1 : Nat) : Int))) = 1 / 10 ^ 27 := by norm_num
  rw [hx, hu] at h1 h2
  rw [hu] at hk
  obtain ⟨g1, g2⟩ := abs_le.1 h1
  have u1 : (k : ℚ) ≤ 1234567890123456789012345679 := by rw [hk] at g2; linarith
  have u2 : (1234567890123456789012345678 : ℚ) ≤ k := by rw [hk] at g1; linarith
  have u1' : k ≤ 1234567890123456789012345679 := by exact_mod_cast u1
  have u2' : 1234567890123456789012345678 ≤ k := by exact_mod_cast u2
  have hk2 : k = 1234567890123456789012345678 := by
    by_contra hne
    have h3 : k = 1234567890123456789012345679 := by omega
    have h4 := h2 (by rw [hk, h3]; norm_num [abs_of_pos])
    rw [h3, Int.even_iff] at h4
    omega
  subst hk2
  have hj1 : j = 1 := by
    rcases hj with ⟨h, -⟩ | ⟨-, h⟩
    · simpa using h
    · rw [hk] at h; norm_num at h
  subst hj1
  rw [hr, hk]
  norm_num [shifted, sval]
  rfl

end Mlp.Props
