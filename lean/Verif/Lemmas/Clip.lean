import Verif.Lemmas.Flt
import Verif.Lemmas.Boot
import Verif.Lemmas.PyLemmas
import Verif.Model.Mlpaper
import Mathlib.Tactic.Linarith
import Mathlib.Tactic.NormNum

/-! # Lemmas about clipping -/

set_option linter.unusedSectionVars false

namespace Mlp.Flt
variable {K : Type} [Field K] [LinearOrder K] [IsStrictOrderedRing K]

theorem clip_eq {a lo hi : Flt K} (ha : a ≠ nan) (hlo : lo ≠ nan) (_hhi : hi ≠ nan) :
    clip a lo hi = if a < lo then lo else if hi < a then hi else a := by
  unfold clip
  have e1 : (a.lt lo = true) = (a < lo) := by
    rw [lt_iff]; simp [hlo]
  have e2 : (hi.lt a = true) = (hi < a) := by
    rw [lt_iff]; simp [ha]
  simp only [e1, e2]

theorem clip_mem {a lo hi : Flt K} (ha : a ≠ nan) (hlo : lo ≠ nan) (hhi : hi ≠ nan) (h : lo ≤ hi) :
    lo ≤ clip a lo hi ∧ clip a lo hi ≤ hi ∧ clip a lo hi ≠ nan := by
  rw [clip_eq ha hlo hhi]
  split_ifs with h1 h2
  · exact ⟨le_rfl, h, hlo⟩
  · exact ⟨h, le_rfl, hhi⟩
  · exact ⟨not_lt.1 h1, not_lt.1 h2, ha⟩

theorem clip_id {a lo hi : Flt K} (ha : a ≠ nan) (hlo : lo ≠ nan) (hhi : hi ≠ nan) (h1 : lo ≤ a)
    (h2 : a ≤ hi) : clip a lo hi = a := by
  rw [clip_eq ha hlo hhi, if_neg (not_lt.2 h1), if_neg (not_lt.2 h2)]

theorem lt_nan_right (a : Flt K) : a.lt nan = false := by cases a <;> rfl
theorem nan_lt_left (a : Flt K) : (nan : Flt K).lt a = false := by cases a <;> rfl
theorem le_nan_right (a : Flt K) : a.le nan = false := by cases a <;> rfl
theorem nan_le_left (a : Flt K) : (nan : Flt K).le a = false := by cases a <;> rfl

theorem clip_nan (lo hi : Flt K) : clip nan lo hi = nan := by
  unfold clip
  rw [nan_lt_left, lt_nan_right]; rfl

theorem fmax_eq_max {a b : Flt K} (ha : a ≠ nan) (hb : b ≠ nan) : fmax a b = max a b := by
  unfold fmax
  rw [isNaN_false.2 ha, isNaN_false.2 hb]; rfl

/-- Python `a <= b` for floats that are not NaN. -/
theorem le_iff' {a b : Flt K} (hb : b ≠ nan) : a.le b = true ↔ a ≤ b := by
  rw [le_iff]; simp [hb]

theorem lt_iff' {a b : Flt K} (hb : b ≠ nan) : a.lt b = true ↔ a < b := by
  rw [lt_iff]; simp [hb]

end Mlp.Flt
