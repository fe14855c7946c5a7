import Verif.Lemmas.Round
import Verif.Model.Sciprint
import Mathlib.Algebra.Order.Field.Power

/-! # Comparison, conversion from float, quantize -/

namespace Mlp
open Spec

theorem aligned_val (neg : Bool) (c : Nat) (e m : Int) (h : m ≤ e) :
    ((Dec.aligned neg c e m : Int) : ℚ) = sval neg c e * (10 : ℚ) ^ (-m) := by
  unfold Dec.aligned sval
  have h1 : ((e - m).toNat : Int) = e - m := by omega
  have h2 : (10 : ℚ) ^ (e - m).toNat = (10 : ℚ) ^ e * (10 : ℚ) ^ (-m) := by
    rw [← zpow_natCast, h1, sub_eq_add_neg, zpow_add₀ (by norm_num)]
  cases neg <;> simp only [Bool.false_eq_true, if_true, if_false] <;> push_cast <;> rw [h2] <;> ring

theorem zpow10_pos (m : Int) : (0 : ℚ) < (10 : ℚ) ^ m := by positivity

theorem leNum_iff (a b : Dec) : Dec.leNum a b = true ↔ DLe a b := by
  cases a with
  | nan => simp [Dec.leNum, DLe]
  | inf n =>
    cases b with
    | nan => cases n <;> simp [Dec.leNum, DLe]
    | inf n' => cases n <;> cases n' <;> simp [Dec.leNum, DLe]
    | fin _ _ _ => cases n <;> simp [Dec.leNum, DLe]
  | fin n₁ c₁ e₁ =>
    cases b with
    | nan => simp [Dec.leNum, DLe]
    | inf n' => cases n' <;> simp [Dec.leNum, DLe]
    | fin n₂ c₂ e₂ =>
      simp only [Dec.leNum, DLe, decide_eq_true_eq]
      rw [← Int.cast_le (R := ℚ), aligned_val _ _ _ _ (min_le_left _ _),
        aligned_val _ _ _ _ (min_le_right _ _)]
      exact mul_le_mul_iff_left₀ (zpow10_pos _)

theorem not_leNum_iff (a b : Dec) (ha : a.isNan = false) (hb : b.isNan = false) :
    Dec.leNum b a = false ↔ DLt a b := by
  rw [← Bool.not_eq_true, leNum_iff]
  cases a with
  | nan => simp [Dec.isNan] at ha
  | inf n =>
    cases b with
    | nan => simp [Dec.isNan] at hb
    | inf n' => cases n <;> cases n' <;> simp [DLe, DLt]
    | fin _ _ _ => cases n <;> simp [DLe, DLt]
  | fin n₁ c₁ e₁ =>
    cases b with
    | nan => simp [Dec.isNan] at hb
    | inf n' => cases n' <;> simp [DLe, DLt]
    | fin n₂ c₂ e₂ => simp [DLe, DLt]

/-! ### Floats -/

theorem reduceDyadic_val (m k : Nat) :
    (m : ℚ) / 2 ^ k = ((reduceDyadic m k).1 : ℚ) / 2 ^ (reduceDyadic m k).2 := by
  induction k generalizing m with
  | zero => simp [reduceDyadic]
  | succ k ih =>
    unfold reduceDyadic
    split
    · rename_i h
      rw [← ih]
      have h2 : (m : ℚ) = 2 * ((m / 2 : Nat) : ℚ) := by
        have : m = 2 * (m / 2) := by omega
        exact_mod_cast this
      conv_lhs => rw [h2, pow_succ]
      field_simp
    · rfl

/-- `Decimal(x)` is exact. -/
theorem ofFloat_val (neg : Bool) (m : Nat) (e : Int) :
    ∃ c e', Dec.ofFloat (.fin neg m e) = .fin neg c e' ∧ sval neg c e' = fval neg m e := by
  unfold Dec.ofFloat
  by_cases h : 0 ≤ e
  · simp only [h, if_true]
    refine ⟨_, _, rfl, ?_⟩
    unfold sval fval
    have : (2 : ℚ) ^ e = 2 ^ e.toNat := by
      rw [← zpow_natCast]; congr 1; omega
    rw [this]; push_cast; ring
  · simp only [h, if_false]
    refine ⟨_, _, rfl, ?_⟩
    unfold sval fval
    have h1 := reduceDyadic_val m (-e).toNat
    set n := (reduceDyadic m (-e).toNat).1
    set k := (reduceDyadic m (-e).toNat).2
    have h2 : (2 : ℚ) ^ e = 1 / 2 ^ (-e).toNat := by
      rw [← zpow_natCast, one_div, ← zpow_neg]; congr 1; omega
    have h3 : (m : ℚ) * (2 : ℚ) ^ e = n / 2 ^ k := by rw [h2, ← h1]; ring
    rw [mul_assoc, mul_assoc, h3]
    congr 1
    rw [zpow_neg, zpow_natCast]
    push_cast
    have : (10 : ℚ) ^ k = 2 ^ k * 5 ^ k := by rw [← mul_pow]; norm_num
    rw [this]; field_simp

theorem sval_nonneg (c : Nat) (e : Int) : 0 ≤ sval false c e := by
  unfold sval; simp; positivity

theorem sval_neg (c : Nat) (e : Int) : sval true c e = - sval false c e := by
  unfold sval; simp

theorem sval_eq_zero (n : Bool) (c : Nat) (e : Int) : sval n c e = 0 ↔ c = 0 := by
  unfold sval
  have := zpow10_pos e
  cases n <;> simp [this.ne']

theorem fval_neg (c : Nat) (e : Int) : fval true c e = - fval false c e := by
  unfold fval; simp

theorem fval_eq_zero (n : Bool) (c : Nat) (e : Int) : fval n c e = 0 ↔ c = 0 := by
  unfold fval
  have : (0 : ℚ) < (2 : ℚ) ^ e := by positivity
  cases n <;> simp [this.ne']

end Mlp
