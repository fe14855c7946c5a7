import Verif.Model.Util
import Verif.Lemmas.PyLemmas
import Verif.Lemmas.Clip
import Verif.Spec.Boot
import Mathlib.Tactic.IntervalCases
import Mathlib.Data.Rat.Floor

/-! # C54 and C62: `one_hot` and `clip_chk` -/

set_option linter.unusedSectionVars false

namespace Mlp.Props
open Mlp.Util Mlp.Spec

/-- The labels `one_hot` accepts. -/
def GoodLabels (y : LabelVec) (n : Int) : Prop :=
  1 ≤ n ∧ y.kind = 'i' ∧ ∀ v ∈ y.vals, 0 ≤ v ∧ v < n

/-- C54: for good labels the result has one row for each label and `n` columns, with True exactly in the
column of the label. -/
theorem C54_one_hot {y : LabelVec} {n : Int} (h : GoodLabels y n) :
    ∃ m, oneHot y n = .ok m ∧ m.length = y.vals.length ∧
      ∀ (i : Nat) (v : Int), y.vals[i]? = some v → ∃ row, m[i]? = some row ∧ (row.length : Int) = n ∧
        ∀ j : Nat, (j : Int) < n → row[j]? = some (decide ((j : Int) = v)) := by
  obtain ⟨h1, h2, h3⟩ := h
  unfold oneHot
  simp only [pyAssert_bind]
  rw [if_pos (by simpa using h1), if_pos (by simpa using h2), if_pos]
  · refine ⟨_, rfl, by simp, ?_⟩
    intro i v hv
    obtain ⟨hi, hv'⟩ := List.getElem?_eq_some_iff.1 hv
    refine ⟨(List.replicate n.toNat false).set v.toNat true, ?_, ?_, ?_⟩
    · rw [List.getElem?_zipWith, hv, List.getElem?_replicate, if_pos hi]
    · simp; omega
    · intro j hj
      have hv0 := h3 v (List.mem_of_getElem? hv)
      rw [List.getElem?_set]
      split_ifs with e1 e2
      · have : (j : Int) = v := by omega
        simp [this]
      · simp at e2; omega
      · have : (j : Int) ≠ v := by omega
        rw [List.getElem?_replicate, if_pos (by omega)]
        simp [this]
  · simp only [Bool.and_eq_true, List.all_eq_true, decide_eq_true_eq]
    exact ⟨fun v hv => (h3 v hv).1, fun v hv => (h3 v hv).2⟩

/-- C54: anything else raises AssertionError. -/
theorem C54_reject {y : LabelVec} {n : Int} (h : ¬ GoodLabels y n) : oneHot y n = .error .assertion := by
  unfold oneHot
  simp only [pyAssert_bind]
  split_ifs with a b c
  · exfalso
    apply h
    simp only [Bool.and_eq_true, List.all_eq_true, decide_eq_true_eq] at a b c
    exact ⟨a, b, fun v hv => ⟨c.1 v hv, c.2 v hv⟩⟩
  all_goals rfl

example : GoodLabels ⟨'i', [2, 0]⟩ 3 := ⟨by norm_num, rfl, by simp⟩
example : oneHot ⟨'i', [2, 0]⟩ 3 = .ok [[false, false, true], [true, false, false]] := rfl
example : oneHot ⟨'b', [1, 0]⟩ 2 = .error .assertion := C54_reject (by rintro ⟨-, h, -⟩; revert h; decide)

section
variable {K : Type} [Field K] [LinearOrder K] [IsStrictOrderedRing K]

/-- Negligible distance, as decided by numpy: for numbers absolute tolerance 1e-8 plus relative
tolerance 1e-5 of the second, otherwise equality. -/
inductive Negligible : Flt K → Flt K → Prop
  | fin (x y : K) : |x - y| ≤ 1 / 100000000 + 1 / 100000 * |y| → Negligible (.fin x) (.fin y)
  | pinf : Negligible .pinf .pinf
  | ninf : Negligible .ninf .ninf

theorem isclose_iff (a b : Flt K) : isclose a b = true ↔ Negligible a b := by
  unfold isclose
  constructor
  · intro h
    cases a <;> cases b <;> simp [Flt.eq] at h
    · exact .fin _ _ (by simpa using h)
    · exact .pinf
    · exact .ninf
  · intro h
    cases h with
    | fin x y h => simpa using h
    | pinf => simp [Flt.eq]
    | ninf => simp [Flt.eq]

theorem clip_minmax {a lo hi : Flt K} (ha : a ≠ .nan) (hlo : lo ≠ .nan) (hhi : hi ≠ .nan) (h : lo ≤ hi) :
    a.clip lo hi = min (max a lo) hi := by
  rw [Flt.clip_eq ha hlo hhi]
  split_ifs with h1 h2
  · rw [max_eq_right h1.le, min_eq_left h]
  · rw [max_eq_left (h.trans h2.le), min_eq_right h2.le]
  · rw [max_eq_left (not_lt.1 h1), min_eq_left (not_lt.1 h2)]

/-- C62: the result is the entrywise clip, and AssertionError is raised exactly when some entry is
outside the limits without being close to one of them (NaN is never accepted). -/
theorem C62_clip_chk (a : List (Flt K)) {lo hi : Flt K} (hlo : lo ≠ .nan) (hhi : hi ≠ .nan) (h : lo ≤ hi) :
    ((∀ v ∈ a, v ≠ .nan ∧ (lo ≤ v ∧ v ≤ hi ∨ Negligible v lo ∨ Negligible v hi)) →
      clipChkArr a lo hi = .ok (a.map fun v => min (max v lo) hi)) ∧
    (¬ (∀ v ∈ a, v ≠ .nan ∧ (lo ≤ v ∧ v ≤ hi ∨ Negligible v lo ∨ Negligible v hi)) →
      clipChkArr a lo hi = .error .assertion) := by
  have key : (a.all fun v => v.eq (v.clip lo hi) || isclose v lo || isclose v hi) = true ↔
      ∀ v ∈ a, v ≠ .nan ∧ (lo ≤ v ∧ v ≤ hi ∨ Negligible v lo ∨ Negligible v hi) := by
    rw [List.all_eq_true]
    refine forall₂_congr fun v _ => ?_
    rw [Bool.or_eq_true, Bool.or_eq_true, isclose_iff, isclose_iff, Flt.eq_iff]
    by_cases hv : v = .nan
    · subst hv
      simp only [ne_eq, not_true_eq_false, false_and, false_or, iff_false]
      rintro (h | h) <;> cases h
    · have : v = v.clip lo hi ↔ lo ≤ v ∧ v ≤ hi := by
        rw [clip_minmax hv hlo hhi h]
        constructor
        · intro e
          rw [e]
          exact ⟨le_min (le_max_right _ _) h, min_le_right _ _⟩
        · rintro ⟨e1, e2⟩
          rw [max_eq_left e1, min_eq_left e2]
      rw [this]
      tauto
  unfold clipChkArr
  simp only [pyAssert_bind]
  constructor
  · intro hc
    rw [if_pos (key.2 hc)]
    refine congrArg _ (List.map_congr_left fun v hv => ?_)
    exact clip_minmax (hc v hv).1 hlo hhi h
  · intro hc
    rw [if_neg (fun e => hc (key.1 e))]

/-- The scalar version is the array version on one entry. -/
theorem C62_scalar (a lo hi : Flt K) : clipChkArr [a] lo hi = (clipChk a lo hi >>= fun c => .ok [c]) := by
  unfold clipChkArr clipChk
  simp only [pyAssert_bind, List.all_cons, List.all_nil, Bool.and_true]
  split_ifs <;> rfl

end

example : clipChkArr [Flt.fin (-1 / 1000000000 : ℚ), .fin (1 / 2), .fin 1] (.fin 0) (.fin 1) =
    .ok [.fin 0, .fin (1 / 2), .fin 1] := by decide +kernel
example : clipChkArr [Flt.fin (-1 / 10 : ℚ)] (.fin 0) (.fin 1) = .error .assertion := by decide +kernel

end Mlp.Props
