import Verif.Model.Flt
import Mathlib.Algebra.Order.Ring.Defs
import Mathlib.Algebra.BigOperators.Group.List.Basic
import Mathlib.Tactic.Linarith

/-! # Lemmas about floats -/

set_option linter.unusedSectionVars false

namespace Mlp.Flt

section order
variable {K : Type} [LinearOrder K]

theorem le_def {a b : Flt K} : a ≤ b ↔ key a ≤ key b := Iff.rfl

@[simp] theorem fin_le_fin {x y : K} : (fin x : Flt K) ≤ fin y ↔ x ≤ y := by
  rw [le_def]
  show ((((x : WithBot K) : WithTop (WithBot K)) : WithTop (WithTop (WithBot K))) ≤
    (((y : WithBot K) : WithTop (WithBot K)) : WithTop (WithTop (WithBot K)))) ↔ _
  simp

@[simp] theorem fin_lt_fin {x y : K} : (fin x : Flt K) < fin y ↔ x < y := by
  rw [← not_le, ← not_le, fin_le_fin]

@[simp] theorem le_nan (a : Flt K) : a ≤ nan := by
  rw [le_def]; exact le_top

@[simp] theorem ninf_le (a : Flt K) : ninf ≤ a := by
  rw [le_def]
  show ((((⊥ : WithBot K) : WithTop (WithBot K)) : WithTop (WithTop (WithBot K))) ≤ key a)
  cases a with
  | fin x => exact WithTop.coe_le_coe.2 (WithTop.coe_le_coe.2 bot_le)
  | pinf => exact WithTop.coe_le_coe.2 le_top
  | ninf => exact le_rfl
  | nan => exact le_top

@[simp] theorem fin_le_pinf (x : K) : (fin x : Flt K) ≤ pinf := by
  rw [le_def]; exact WithTop.coe_le_coe.2 le_top

@[simp] theorem not_pinf_le_fin (x : K) : ¬ ((pinf : Flt K) ≤ fin x) := by
  intro h
  have := le_antisymm h (fin_le_pinf x)
  cases this

@[simp] theorem not_fin_le_ninf (x : K) : ¬ ((fin x : Flt K) ≤ ninf) := by
  intro h
  have := le_antisymm h (ninf_le _)
  cases this

@[simp] theorem not_pinf_le_ninf : ¬ ((pinf : Flt K) ≤ ninf) := by
  intro h
  have := le_antisymm h (ninf_le _)
  cases this

@[simp] theorem nan_le_iff (a : Flt K) : nan ≤ a ↔ a = nan := by
  constructor
  · intro h; exact le_antisymm (le_nan a) h
  · rintro rfl; exact le_rfl

theorem le_pinf {a : Flt K} (h : a ≠ nan) : a ≤ pinf := by
  cases a with
  | fin x => simp
  | pinf => exact le_rfl
  | ninf => simp
  | nan => exact absurd rfl h

@[simp] theorem isNaN_iff {a : Flt K} : a.isNaN = true ↔ a = nan := by
  cases a <;> simp [isNaN]

theorem isNaN_false {a : Flt K} : a.isNaN = false ↔ a ≠ nan := by
  cases a <;> simp [isNaN]

@[simp] theorem isNaN_fin (x : K) : (fin x : Flt K).isNaN = false := rfl
@[simp] theorem isNaN_pinf : (pinf : Flt K).isNaN = false := rfl
@[simp] theorem isNaN_ninf : (ninf : Flt K).isNaN = false := rfl
@[simp] theorem isNaN_nan : (nan : Flt K).isNaN = true := rfl

theorem isFinite_iff {a : Flt K} : a.isFinite = true ↔ ∃ x, a = fin x := by
  cases a <;> simp [isFinite]

theorem le_iff {a b : Flt K} : a.le b = true ↔ b ≠ nan ∧ a ≤ b := by
  unfold le
  simp only [Bool.and_eq_true, Bool.not_eq_true', isNaN_false, decide_eq_true_eq]
  constructor
  · rintro ⟨⟨-, h⟩, h'⟩; exact ⟨h, h'⟩
  · rintro ⟨h, h'⟩
    refine ⟨⟨?_, h⟩, h'⟩
    rintro rfl
    exact h ((nan_le_iff b).1 h')

theorem lt_iff {a b : Flt K} : a.lt b = true ↔ b ≠ nan ∧ a < b := by
  unfold lt
  simp only [Bool.and_eq_true, Bool.not_eq_true', isNaN_false, decide_eq_true_eq]
  constructor
  · rintro ⟨⟨-, h⟩, h'⟩; exact ⟨h, h'⟩
  · rintro ⟨h, h'⟩
    refine ⟨⟨?_, h⟩, h'⟩
    rintro rfl
    exact absurd h' (not_lt.2 (le_nan b))

theorem eq_iff {a b : Flt K} : a.eq b = true ↔ a ≠ nan ∧ a = b := by
  unfold eq
  simp [isNaN_false]

@[simp] theorem le_fin {x y : K} : (fin x : Flt K).le (fin y) = decide (x ≤ y) := by
  unfold le; simp

@[simp] theorem lt_fin {x y : K} : (fin x : Flt K).lt (fin y) = decide (x < y) := by
  unfold lt; simp

@[simp] theorem eq_fin {x y : K} : (fin x : Flt K).eq (fin y) = decide (x = y) := by
  unfold eq; simp

theorem max_fin (x y : K) : max (fin x : Flt K) (fin y) = fin (max x y) := by
  rcases le_total x y with h | h
  · rw [max_eq_right h, max_eq_right (fin_le_fin.2 h)]
  · rw [max_eq_left h, max_eq_left (fin_le_fin.2 h)]

theorem min_fin (x y : K) : min (fin x : Flt K) (fin y) = fin (min x y) := by
  rcases le_total x y with h | h
  · rw [min_eq_left h, min_eq_left (fin_le_fin.2 h)]
  · rw [min_eq_right h, min_eq_right (fin_le_fin.2 h)]

@[simp] theorem fmax_fin (x y : K) : fmax (fin x : Flt K) (fin y) = fin (max x y) := by
  simp [fmax, max_fin]

@[simp] theorem maximum_fin (x y : K) : maximum (fin x : Flt K) (fin y) = fin (max x y) := by
  simp [maximum, max_fin]

@[simp] theorem minimum_fin (x y : K) : minimum (fin x : Flt K) (fin y) = fin (min x y) := by
  simp [minimum, min_fin]

@[simp] theorem clip_fin (x lo hi : K) :
    clip (fin x : Flt K) (fin lo) (fin hi) = fin (if x < lo then lo else if hi < x then hi else x) := by
  simp only [clip, lt_fin, decide_eq_true_eq]
  split_ifs <;> rfl

end order

section arith
variable {K : Type} [Field K] [LinearOrder K] [IsStrictOrderedRing K]

@[simp] theorem neg_fin (x : K) : neg (fin x) = fin (-x) := rfl
@[simp] theorem add_fin (x y : K) : add (fin x) (fin y) = fin (x + y) := rfl
@[simp] theorem sub_fin (x y : K) : sub (fin x) (fin y) = fin (x - y) := by
  simp [sub, sub_eq_add_neg]
@[simp] theorem mul_fin (x y : K) : mul (fin x) (fin y) = fin (x * y) := rfl
theorem div_fin {x y : K} (h : y ≠ 0) : div (fin x) (fin y) = fin (x / y) := by
  simp [div, h]

@[simp] theorem neg_neg (a : Flt K) : neg (neg a) = a := by
  cases a <;> simp [neg]

theorem neg_le_neg {a b : Flt K} (ha : a ≠ nan) (hb : b ≠ nan) : neg a ≤ neg b ↔ b ≤ a := by
  cases a <;> cases b <;> simp_all [neg, le_pinf]

theorem neg_eq_nan {a : Flt K} : neg a = nan ↔ a = nan := by
  cases a <;> simp [neg]

theorem neg_injective : Function.Injective (neg (K := K)) := by
  intro a b h
  have := congrArg neg h
  simpa using this

theorem foldl_add_fin (l : List K) (a : K) :
    (l.map fin).foldl add (fin a) = fin (a + l.sum) := by
  induction l generalizing a with
  | nil => simp
  | cons x l ih => simp [ih, add_assoc]

@[simp] theorem sum_fin (l : List K) : sum (l.map fin) = fin l.sum := by
  unfold sum; rw [foldl_add_fin, zero_add]

theorem mean_fin (l : List K) (h : l ≠ []) :
    mean (l.map fin) = fin (l.sum / l.length) := by
  unfold mean
  rw [sum_fin, List.length_map, div_fin]
  have : 0 < l.length := List.length_pos_iff.2 h
  exact_mod_cast this.ne'

theorem all_finite_iff (l : List (Flt K)) :
    (l.all fun v => v.isFinite) = true ↔ ∃ xs : List K, l = xs.map fin := by
  induction l with
  | nil => simp
  | cons v l ih =>
    simp only [List.all_cons, Bool.and_eq_true, ih, isFinite_iff]
    constructor
    · rintro ⟨⟨x, rfl⟩, xs, rfl⟩
      exact ⟨x :: xs, rfl⟩
    · rintro ⟨xs, h⟩
      rcases xs with _ | ⟨x, xs⟩
      · simp at h
      · simp only [List.map_cons, List.cons.injEq] at h
        exact ⟨⟨x, h.1⟩, xs, h.2⟩

end arith

end Mlp.Flt
