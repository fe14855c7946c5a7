import Verif.Model.Util
import Verif.Spec.Boot
import Verif.Lemmas.PyLemmas
import Verif.Lemmas.Clip
import Mathlib.Data.List.Nodup
import Mathlib.Tactic.Linarith
import Mathlib.Tactic.NormNum
import Mathlib.Data.Rat.Floor

/-! # C56: `epsilon_noise` -/

set_option linter.unusedSectionVars false

namespace Mlp.Props
open Mlp.Util Mlp.Spec

section
variable {K : Type} [Field K] [LinearOrder K] [IsStrictOrderedRing K]

theorem mem_insertUnique (a b : K) (l : List K) : b ∈ insertUnique a l ↔ b = a ∨ b ∈ l := by
  induction l with
  | nil => simp [insertUnique]
  | cons c l ih =>
    unfold insertUnique
    split_ifs with h1 h2
    · simp
    · subst h2; simp
    · simp [ih]; tauto

theorem insertUnique_sorted (a : K) {l : List K} (h : l.Pairwise (· < ·)) :
    (insertUnique a l).Pairwise (· < ·) := by
  induction l with
  | nil => simp [insertUnique]
  | cons c l ih =>
    rw [List.pairwise_cons] at h
    unfold insertUnique
    split_ifs with h1 h2
    · refine List.pairwise_cons.2 ⟨?_, List.pairwise_cons.2 h⟩
      intro b hb
      rcases List.mem_cons.1 hb with rfl | hb
      · exact h1
      · exact h1.trans (h.1 b hb)
    · exact List.pairwise_cons.2 h
    · refine List.pairwise_cons.2 ⟨?_, ih h.2⟩
      intro b hb
      rcases (mem_insertUnique a b l).1 hb with rfl | hb
      · exact lt_of_le_of_ne (not_lt.1 h1) (fun e => h2 e.symm)
      · exact h.1 b hb

/-- `np.unique`: strictly increasing with the same values. -/
theorem npUnique_spec (l : List K) : (npUnique l).Pairwise (· < ·) ∧ ∀ a, a ∈ npUnique l ↔ a ∈ l := by
  induction l with
  | nil => simp [npUnique]
  | cons a l ih =>
    have e : npUnique (a :: l) = insertUnique a (npUnique l) := rfl
    rw [e]
    refine ⟨insertUnique_sorted a ih.1, fun b => ?_⟩
    rw [mem_insertUnique, ih.2, List.mem_cons]

theorem minK_spec (a : K) (l : List K) : minK (a :: l) ∈ a :: l ∧ ∀ b ∈ a :: l, minK (a :: l) ≤ b := by
  show l.foldl min a ∈ a :: l ∧ ∀ b ∈ a :: l, l.foldl min a ≤ b
  induction l generalizing a with
  | nil => simp
  | cons b l ih =>
    obtain ⟨h1, h2⟩ := ih (min a b)
    rw [List.foldl_cons]
    constructor
    · rcases List.mem_cons.1 h1 with h | h
      · rw [h]
        rcases min_choice a b with e | e <;> rw [e] <;> simp
      · simp [h]
    · intro c hc
      simp only [List.mem_cons] at hc h2
      rcases hc with rfl | rfl | hc
      · exact (h2 _ (Or.inl rfl)).trans (min_le_left _ _)
      · exact (h2 _ (Or.inl rfl)).trans (min_le_right _ _)
      · exact h2 c (Or.inr hc)

/-- Entries of the difference of a sorted list: positive, and below every gap. -/
theorem diff_gap {l : List K} (h : l.Pairwise (· < ·)) :
    (∀ d ∈ diffK l, 0 < d) ∧ ∀ a ∈ l, ∀ b ∈ l, a < b → ∃ d ∈ diffK l, d ≤ b - a := by
  induction l with
  | nil => simp [diffK]
  | cons a l ih =>
    cases l with
    | nil => simp [diffK]
    | cons b l =>
      rw [List.pairwise_cons] at h
      obtain ⟨i1, i2⟩ := ih h.2
      have e : diffK (a :: b :: l) = (b - a) :: diffK (b :: l) := rfl
      have hab := h.1 b (by simp)
      have hmin : ∀ c ∈ b :: l, b ≤ c := by
        intro c hc
        rcases List.mem_cons.1 hc with rfl | hc
        · exact le_rfl
        · exact ((List.pairwise_cons.1 h.2).1 c hc).le
      rw [e]
      constructor
      · intro d hd
        rcases List.mem_cons.1 hd with rfl | hd
        · linarith
        · exact i1 d hd
      · intro x hx y hy hxy
        rcases List.mem_cons.1 hx with rfl | hx
        · rcases List.mem_cons.1 hy with rfl | hy
          · exact absurd hxy (lt_irrefl _)
          · exact ⟨b - x, by simp, by linarith [hmin y hy]⟩
        · rcases List.mem_cons.1 hy with e | hy
          · rw [e] at hxy
            exact absurd (h.1 x hx) (not_lt.2 hxy.le)
          · obtain ⟨d, hd, hle⟩ := i2 x hx y hy hxy
            exact ⟨d, by simp [hd], hle⟩

theorem filterMap_finVec (xs : List K) :
    (finVec xs).filterMap finPart = xs := by
  unfold finVec
  rw [List.filterMap_map]
  exact List.filterMap_some

/-- C56: for finite data and draws in [0,1), every entry moves by at most half of `maxEps` and at most
half of every gap between two different values (half of `defaultEps` if all values are equal), the
strict order is kept, and if the draws are all different so are the results. -/
theorem C56_noise {xs u : List K} (hu : u.length = xs.length) (hr : ∀ w ∈ u, 0 ≤ w ∧ w < 1)
    {d m : K} (hd : 0 < d) (hm : 0 < m) :
    ∃ out : List K, epsilonNoise (finVec xs) d m u = .ok (finVec out) ∧ out.length = xs.length ∧
      (∀ (i j : Nat) (a b a' b' : K), xs[i]? = some a → xs[j]? = some b → out[i]? = some a' → out[j]? = some b' →
        a < b → a' < b') ∧
      (∀ (k : Nat) (c c' : K), xs[k]? = some c → out[k]? = some c' → |c' - c| ≤ m / 2 ∧
        (∀ a ∈ xs, ∀ b ∈ xs, a < b → |c' - c| ≤ (b - a) / 2) ∧
        ((∀ a ∈ xs, a = c) → |c' - c| ≤ d / 2)) ∧
      (u.Nodup → out.Nodup) := by
  obtain ⟨hs, hmem⟩ := npUnique_spec xs
  obtain ⟨g1, g2⟩ := diff_gap hs
  -- the step size
  obtain ⟨δ, hδ, δpos, δm, δgap, δd⟩ : ∃ δ, δ = min m (if (npUnique xs).length ≤ 1 then d else
      minK (diffK (npUnique xs))) ∧ 0 < δ ∧ δ ≤ m ∧ (∀ a ∈ xs, ∀ b ∈ xs, a < b → δ ≤ b - a) ∧
      ((∀ a ∈ xs, ∀ b ∈ xs, a = b) → δ ≤ d) := by
    refine ⟨_, rfl, ?_, min_le_left _ _, ?_, ?_⟩
    · apply lt_min hm
      split_ifs with h1
      · exact hd
      · rcases hU : npUnique xs with _ | ⟨x, _ | ⟨y, l⟩⟩
        · simp [hU] at h1
        · simp [hU] at h1
        · have e : diffK (x :: y :: l) = (y - x) :: diffK (y :: l) := rfl
          rw [e]
          apply g1
          rw [hU, e]
          exact (minK_spec _ _).1
    · intro a ha b hb hab
      refine (min_le_right _ _).trans ?_
      have ha' := (hmem a).2 ha
      have hb' := (hmem b).2 hb
      obtain ⟨g, hg, hle⟩ := g2 a ha' b hb' hab
      rw [if_neg]
      · rcases hU : npUnique xs with _ | ⟨x, _ | ⟨y, l⟩⟩
        · rw [hU] at hg; simp [diffK] at hg
        · rw [hU] at hg; simp [diffK] at hg
        · have e : diffK (x :: y :: l) = (y - x) :: diffK (y :: l) := rfl
          rw [hU, e] at hg
          rw [e]
          exact ((minK_spec _ _).2 g hg).trans hle
      · intro hl
        rcases hU : npUnique xs with _ | ⟨x, _ | ⟨y, l⟩⟩
        · rw [hU] at hg; simp [diffK] at hg
        · rw [hU] at hg; simp [diffK] at hg
        · rw [hU] at hl; simp at hl
    · intro hall
      refine (min_le_right _ _).trans ?_
      rw [if_pos]
      rcases hU : npUnique xs with _ | ⟨x, _ | ⟨y, l⟩⟩
      · simp
      · simp
      · exfalso
        rw [hU] at hs
        have : x < y := (List.pairwise_cons.1 hs).1 y (by simp)
        exact this.ne (hall x ((hmem x).1 (by rw [hU]; simp)) y ((hmem y).1 (by rw [hU]; simp)))
  have hval : epsilonNoise (finVec xs) d m u =
      .ok (finVec (List.zipWith (fun (v w : K) => v + δ * (w - 1 / 2)) xs u)) := by
    unfold epsilonNoise
    simp only [pyAssert_bind, filterMap_finVec]
    rw [if_pos (by simp [finVec, Flt.isFinite]), ← hδ, if_pos (by simp [δpos, δm])]
    unfold finVec
    rw [List.zipWith_map_left, List.map_zipWith]
    rfl
  have hget : ∀ (k : Nat) (c c' : K), xs[k]? = some c →
      (List.zipWith (fun (v w : K) => v + δ * (w - 1 / 2)) xs u)[k]? = some c' →
      ∃ w, u[k]? = some w ∧ 0 ≤ w ∧ w < 1 ∧ c' = c + δ * (w - 1 / 2) := by
    intro k c c' hc hc'
    rw [List.getElem?_zipWith, hc] at hc'
    cases hw : u[k]? with
    | none => rw [hw] at hc'; simp at hc'
    | some w =>
      rw [hw] at hc'
      simp only [Option.some.injEq] at hc'
      exact ⟨w, rfl, (hr w (List.mem_of_getElem? hw)).1, (hr w (List.mem_of_getElem? hw)).2, hc'.symm⟩
  have hord : ∀ (i j : Nat) (a b a' b' : K), xs[i]? = some a → xs[j]? = some b →
      (List.zipWith (fun (v w : K) => v + δ * (w - 1 / 2)) xs u)[i]? = some a' →
      (List.zipWith (fun (v w : K) => v + δ * (w - 1 / 2)) xs u)[j]? = some b' → a < b → a' < b' := by
    intro i j a b a' b' ha hb ha' hb' hab
    obtain ⟨w, -, w0, w1, rfl⟩ := hget i a a' ha ha'
    obtain ⟨z, -, z0, z1, rfl⟩ := hget j b b' hb hb'
    have := δgap a (List.mem_of_getElem? ha) b (List.mem_of_getElem? hb) hab
    nlinarith
  refine ⟨_, hval, by simp [hu], hord, ?_, ?_⟩
  · intro k c c' hc hc'
    obtain ⟨w, -, w0, w1, rfl⟩ := hget k c c' hc hc'
    have habs : |c + δ * (w - 1 / 2) - c| ≤ δ / 2 := by
      rw [abs_le]; constructor <;> nlinarith
    refine ⟨by linarith, ?_, ?_⟩
    · intro a ha b hb hab
      have := δgap a ha b hb hab
      linarith
    · intro hall
      have := δd (fun a ha b hb => (hall a ha).trans (hall b hb).symm)
      linarith
  · intro hnd
    rw [List.nodup_iff_getElem?_ne_getElem?]
    intro i j hij hj
    have hj' : j < xs.length ∧ j < u.length := by simpa using hj
    have hi' : i < xs.length ∧ i < u.length := ⟨by omega, by omega⟩
    intro heq
    obtain ⟨a', ha'⟩ : ∃ a', (List.zipWith (fun (v w : K) => v + δ * (w - 1 / 2)) xs u)[i]? = some a' :=
      ⟨_, List.getElem?_eq_getElem (by simp [hi'])⟩
    have hb' := heq ▸ ha'
    have ha := List.getElem?_eq_getElem hi'.1
    have hb := List.getElem?_eq_getElem hj'.1
    rcases lt_trichotomy xs[i] xs[j] with h | h | h
    · exact lt_irrefl _ (hord i j _ _ _ _ ha hb ha' hb' h)
    · obtain ⟨w, hw, -, -, e1⟩ := hget i _ _ ha ha'
      obtain ⟨z, hz, -, -, e2⟩ := hget j _ _ hb hb'
      have : w = z := by
        have h1 : δ * (w - 1 / 2) = δ * (z - 1 / 2) := by
          rw [h] at e1; linarith
        have := mul_left_cancel₀ δpos.ne' h1
        linarith
      subst this
      exact (List.nodup_iff_getElem?_ne_getElem?.1 hnd) i j hij hj'.2 (hw.trans hz.symm)
    · exact lt_irrefl _ (hord j i _ _ _ _ hb ha hb' ha' h)

/-- C56: non-finite data, or a maximum that is not positive, is rejected. -/
theorem C56_reject (x : List (Flt K)) (d m : K) (u : List K)
    (h : (∃ v ∈ x, v.isFinite = false) ∨ m ≤ 0) : epsilonNoise x d m u = .error .assertion := by
  unfold epsilonNoise
  simp only [pyAssert_bind]
  rcases h with ⟨v, hv, hf⟩ | h
  · rw [if_neg]
    intro h1
    rw [List.all_eq_true] at h1
    rw [h1 v hv] at hf; cases hf
  · by_cases h1 : (x.all fun v => v.isFinite) = true
    · rw [if_pos h1, if_neg]
      intro h2
      rw [Bool.and_eq_true, decide_eq_true_eq] at h2
      exact absurd (lt_of_lt_of_le h2.1 (min_le_left _ _)) (not_lt.2 h)
    · rw [if_neg h1]

end

/-- Gap 1/2: the tied entries separate, the order of the others stays. -/
example : epsilonNoise (finVec [1, 3 / 2, 1]) (1 / 10000000000) 1 [0, 3 / 4, (1 / 2 : ℚ)] =
    .ok (finVec [3 / 4, 13 / 8, 1]) := by decide +kernel

end Mlp.Props
