import Verif.Lemmas.Clip
import Verif.Spec.Stats
import Mathlib.Tactic.Ring
import Mathlib.Tactic.FieldSimp
import Mathlib.Tactic.Positivity

/-! # Lemmas about moments and reference distributions -/

namespace Mlp
open Mlp.Paper Mlp.Spec Mlp.Boot Mlp.Lemmas

theorem finVals_finVec {K : Type} (xs : List K) : finVals (finVec xs) = xs := by
  unfold finVals finVec
  rw [List.filterMap_map]
  induction xs with
  | nil => rfl
  | cons x xs ih => simp

theorem noNaN_finVec {K : Type} (xs : List K) : NoNaN (finVec xs) := by simp [NoNaN, finVec]

theorem noNaN_any (x : List (Flt ℝ)) : (!(x.any fun v => v.isNaN)) = true ↔ NoNaN x := by
  rw [Bool.not_eq_true', any_isNaN]

theorem uninformative_iff (x : List (Flt ℝ)) :
    uninformative x = true ↔ x.length ≤ 1 ∨ ¬ ∃ xs : List ℝ, x = finVec xs := by
  unfold uninformative
  rw [Bool.or_eq_true, decide_eq_true_eq, Bool.not_eq_true', ← Bool.not_eq_true, Flt.all_finite_iff]
  rfl

theorem informative_finVec {xs : List ℝ} (h : 2 ≤ xs.length) : ¬ (uninformative (finVec xs) = true) := by
  rw [uninformative_iff]
  rintro (h' | h')
  · simp [finVec] at h'; omega
  · exact h' ⟨xs, rfl⟩

theorem meanK_eq (xs : List ℝ) : meanK xs = avg xs := rfl

theorem varK_eq (xs : List ℝ) (d : ℝ) : varK d xs = sqDev xs / ((xs.length : ℝ) - d) := rfl

theorem sqDev_nonneg (xs : List ℝ) : 0 ≤ sqDev xs := by
  unfold sqDev
  apply List.sum_nonneg
  intro y hy
  obtain ⟨x, -, rfl⟩ := List.mem_map.1 hy
  positivity

/-- The squared deviations vanish exactly when all values agree with the average. -/
theorem sqDev_eq_zero (xs : List ℝ) : sqDev xs = 0 ↔ ∀ x ∈ xs, x = avg xs := by
  unfold sqDev
  generalize avg xs = m
  induction xs with
  | nil => simp
  | cons x xs ih =>
    have h1 : 0 ≤ (xs.map fun (x : ℝ) => (x - m) ^ 2).sum := by
      apply List.sum_nonneg
      intro y hy
      obtain ⟨x, -, rfl⟩ := List.mem_map.1 hy
      positivity
    have h2 : 0 ≤ (x - m) ^ 2 := by positivity
    rw [List.map_cons, List.sum_cons, List.forall_mem_cons]
    rw [← ih]
    constructor
    · intro h
      have a : (x - m) ^ 2 = 0 := by linarith
      have b : x - m = 0 := by simpa using a
      exact ⟨by linarith, by linarith⟩
    · rintro ⟨rfl, h⟩
      rw [h]; simp

theorem realOf_fin (c : ℝ) : realOf (.fin c) = c := rfl

theorem confOk_iff (conf : Flt ℝ) : confOk conf = true ↔ ∃ c : ℝ, conf = .fin c ∧ 0 < c ∧ c < 1 := by
  unfold confOk
  rw [Bool.and_eq_true, Flt.lt_iff, Flt.lt_iff]
  constructor
  · rintro ⟨⟨h1, h2⟩, -, h3⟩
    cases conf with
    | fin c => exact ⟨c, rfl, by simpa using h2, by simpa using h3⟩
    | pinf => rw [← not_le] at h3; simp at h3
    | ninf => rw [← not_le] at h2; simp at h2
    | nan => exact absurd rfl h1
  · rintro ⟨c, rfl, h1, h2⟩
    exact ⟨⟨by simp, by simpa using h1⟩, by simp, by simpa using h2⟩

section dist
variable {D : RefDist} (hD : IsSymmetric D)
include hD

theorem _root_.Mlp.Spec.IsSymmetric.cdf_zero : D.cdf 0 = 1 / 2 := by
  have := hD.symm 0
  rw [neg_zero] at this
  linarith

theorem _root_.Mlp.Spec.IsSymmetric.half_le {t : ℝ} (ht : 0 ≤ t) : 1 / 2 ≤ D.cdf t := by
  rw [← hD.cdf_zero]; exact hD.strictMono.monotone ht

theorem _root_.Mlp.Spec.IsSymmetric.ppf_neg {q : ℝ} (h0 : 0 < q) (h1 : q < 1) :
    D.ppf (1 - q) = - D.ppf q := by
  apply hD.strictMono.injective
  rw [hD.symm, hD.cdf_ppf q h0 h1, hD.cdf_ppf (1 - q) (by linarith) (by linarith)]

theorem _root_.Mlp.Spec.IsSymmetric.ppf_nonneg {q : ℝ} (h0 : 1 / 2 ≤ q) (h1 : q < 1) : 0 ≤ D.ppf q := by
  apply hD.strictMono.le_iff_le.1
  rw [hD.cdf_zero, hD.cdf_ppf q (by linarith) h1]; exact h0

theorem _root_.Mlp.Spec.IsSymmetric.ppf_pos {q : ℝ} (h0 : 1 / 2 < q) (h1 : q < 1) : 0 < D.ppf q := by
  apply hD.strictMono.lt_iff_lt.1
  rw [hD.cdf_zero, hD.cdf_ppf q (by linarith) h1]; exact h0

theorem _root_.Mlp.Spec.IsSymmetric.ppf_mono {p q : ℝ} (h0 : 0 < p) (h : p ≤ q) (h1 : q < 1) :
    D.ppf p ≤ D.ppf q := by
  apply hD.strictMono.le_iff_le.1
  rw [hD.cdf_ppf p h0 (by linarith), hD.cdf_ppf q (by linarith) h1]; exact h

end dist

end Mlp
