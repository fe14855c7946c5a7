import Verif.Lemmas.Stats
import Verif.Spec.LossTable
import Verif.Lemmas.PyLemmas
import Mathlib.Data.List.Perm.Basic
import Mathlib.Algebra.BigOperators.Group.List.Basic

/-! # Order of the data points does not matter -/

namespace Mlp.Lemmas
open Mlp.Paper Mlp.Spec Mlp.Boot

theorem add_assoc' {K : Type} [Field K] [LinearOrder K] (a b c : Flt K) :
    (a.add b).add c = a.add (b.add c) := by
  cases a <;> cases b <;> cases c <;> simp [Flt.add, add_assoc]

theorem add_comm' {K : Type} [Field K] [LinearOrder K] (a b : Flt K) : a.add b = b.add a := by
  cases a <;> cases b <;> simp [Flt.add, add_comm]

theorem sum_perm {K : Type} [Field K] [LinearOrder K] {l l' : List (Flt K)} (h : l.Perm l') :
    Flt.sum l = Flt.sum l' := by
  unfold Flt.sum
  apply List.Perm.foldl_eq' h
  intro x _ y _ z
  rw [add_assoc', add_assoc', add_comm' x y]

theorem mean_perm {K : Type} [Field K] [LinearOrder K] {l l' : List (Flt K)} (h : l.Perm l') :
    Flt.mean l = Flt.mean l' := by
  unfold Flt.mean; rw [sum_perm h, h.length_eq]

theorem all_perm {α : Type} {l l' : List α} (h : l.Perm l') (p : α → Bool) : l.all p = l'.all p := by
  rw [Bool.eq_iff_iff, List.all_eq_true, List.all_eq_true]
  simp [h.mem_iff]

theorem any_perm {α : Type} {l l' : List α} (h : l.Perm l') (p : α → Bool) : l.any p = l'.any p := by
  rw [Bool.eq_iff_iff, List.any_eq_true, List.any_eq_true]
  simp [h.mem_iff]

variable {x x' : List (Flt ℝ)} (h : x.Perm x')
include h

theorem uninformative_perm : uninformative x = uninformative x' := by
  unfold uninformative; rw [h.length_eq, all_perm h]

theorem within_perm (lower upper : Flt ℝ) : within lower upper x = within lower upper x' := by
  unfold within; rw [all_perm h, all_perm h]

theorem finVals_perm : (finVals x).Perm (finVals x') := by
  unfold finVals; exact h.filterMap _

omit h in
theorem meanK_perm {xs xs' : List ℝ} (h : xs.Perm xs') : meanK xs = meanK xs' := by
  unfold meanK; rw [h.sum_eq, h.length_eq]

omit h in
theorem varK_perm {xs xs' : List ℝ} (h : xs.Perm xs') (d : ℝ) : varK d xs = varK d xs' := by
  unfold varK
  rw [meanK_perm h, h.length_eq, (h.map _).sum_eq]

theorem tTest_perm (T : Nat → RefDist) : tTest T x = tTest T x' := by
  unfold tTest
  rw [any_perm h, uninformative_perm h]
  simp only [meanK_perm (finVals_perm h), varK_perm (finVals_perm h), (finVals_perm h).length_eq]

theorem tEB_perm (T : Nat → RefDist) (c : Flt ℝ) : tEB T x c = tEB T x' c := by
  unfold tEB
  rw [any_perm h, uninformative_perm h]
  simp only [varK_perm (finVals_perm h), (finVals_perm h).length_eq]

theorem bernsteinTest_perm (lower upper : Flt ℝ) :
    bernsteinTest x lower upper = bernsteinTest x' lower upper := by
  unfold bernsteinTest
  rw [any_perm h, uninformative_perm h, within_perm h]
  simp only [meanK_perm (finVals_perm h), varK_perm (finVals_perm h), (finVals_perm h).length_eq]

theorem bernsteinEB_perm (lower upper c : Flt ℝ) :
    bernsteinEB x lower upper c = bernsteinEB x' lower upper c := by
  unfold bernsteinEB
  rw [any_perm h, uninformative_perm h, within_perm h]
  simp only [varK_perm (finVals_perm h), (finVals_perm h).length_eq]

theorem getMeanEB_perm (T : Nat → RefDist) (conf minEB lower upper : Flt ℝ) (method : EBMethod)
    {counts counts' : List (List Nat)} (hb : method = .boot → ∀ c n a b d,
      bootEBTest x c n counts a b d = bootEBTest x' c n counts' a b d) :
    getMeanEB T x conf minEB lower upper method counts =
      getMeanEB T x' conf minEB lower upper method counts' := by
  unfold getMeanEB
  rw [within_perm h, mean_perm h]
  cases method with
  | boot => simp only [bootEB, hb rfl]
  | t => simp only [tEB_perm h]
  | bernstein => simp only [bernsteinEB_perm h]
  | other => rfl

theorem getTest_perm (T : Nat → RefDist) (lower upper : Flt ℝ) (method : EBMethod)
    {counts counts' : List (List Nat)} (hb : method = .boot → ∀ c n a b d,
      bootEBTest x c n counts a b d = bootEBTest x' c n counts' a b d) :
    getTest T x lower upper method counts = getTest T x' lower upper method counts' := by
  unfold getTest
  cases method with
  | boot => simp only [bootTest, hb rfl]
  | t => simp only [tTest_perm h]
  | bernstein => simp only [bernsteinTest_perm h]
  | other => rfl

theorem getMeanEBTest_perm (T : Nat → RefDist) (conf minEB lower upper : Flt ℝ) (method : EBMethod)
    {counts counts' : List (List Nat)} (hb : method = .boot → ∀ c n a b d,
      bootEBTest x c n counts a b d = bootEBTest x' c n counts' a b d) :
    getMeanEBTest T x conf minEB lower upper method counts =
      getMeanEBTest T x' conf minEB lower upper method counts' := by
  unfold getMeanEBTest
  rw [within_perm h, mean_perm h]
  cases method with
  | boot => simp only [hb rfl]
  | t => simp only [tEB_perm h, tTest_perm h]
  | bernstein => simp only [bernsteinEB_perm h, bernsteinTest_perm h]
  | other => rfl

/-! ## Reordering -/

omit h

theorem reorder_range {α : Type} (l : List α) : reorder (List.range l.length) l = l := by
  unfold reorder
  induction l with
  | nil => rfl
  | cons a l ih =>
    rw [List.length_cons, List.range_succ_eq_map, List.filterMap_cons_some (b := a) (by simp),
      List.filterMap_map]
    conv_rhs => rw [← ih]
    rfl

theorem reorder_perm {α : Type} {σ : List Nat} {l : List α} (hσ : IsPerm σ l.length) :
    (reorder σ l).Perm l := by
  have h1 : (reorder σ l).Perm (reorder (List.range l.length) l) := hσ.filterMap _
  rw [reorder_range] at h1
  exact h1

theorem perm_lt {σ : List Nat} {n : Nat} (hσ : IsPerm σ n) : ∀ i ∈ σ, i < n := by
  intro i hi
  exact List.mem_range.1 (hσ.mem_iff.1 hi)

theorem reorder_zipWith {α β γ : Type} (f : α → β → γ) {σ : List Nat} {a : List α} {b : List β}
    (ha : ∀ i ∈ σ, i < a.length) (hb : ∀ i ∈ σ, i < b.length) :
    reorder σ (List.zipWith f a b) = List.zipWith f (reorder σ a) (reorder σ b) := by
  unfold reorder
  induction σ with
  | nil => rfl
  | cons i σ ih =>
    have h1 := ha i (by simp)
    have h2 := hb i (by simp)
    rw [List.filterMap_cons_some (b := f a[i] b[i]) (by simp [h1, h2]),
      List.filterMap_cons_some (b := a[i]) (by simp [h1]),
      List.filterMap_cons_some (b := b[i]) (by simp [h2]), List.zipWith_cons_cons,
      ih (fun j hj => ha j (by simp [hj])) (fun j hj => hb j (by simp [hj]))]

theorem reorder_map {α β : Type} (f : α → β) (σ : List Nat) (a : List α) :
    reorder σ (a.map f) = (reorder σ a).map f := by
  simp [reorder, List.map_filterMap]

theorem bootEBTest_reorder {σ : List Nat} {x : List (Flt ℝ)} (hσ : IsPerm σ x.length)
    {counts : List (List Nat)} (hc : ∀ row ∈ counts, row.length = x.length) (c : Flt ℝ) (n : Nat)
    (a b d : Bool) :
    bootEBTest (reorder σ x) c n (counts.map (reorder σ)) a b d = bootEBTest x c n counts a b d := by
  unfold bootEBTest
  have hp := reorder_perm hσ
  rw [any_perm hp, uninformative_perm hp]
  by_cases hu : uninformative x = true
  · simp only [hu, if_true]
  · have hfin : x.all (fun v => v.isFinite) = true := by
      unfold uninformative at hu
      simp only [Bool.or_eq_true, Bool.not_eq_true', not_or, Bool.not_eq_false] at hu
      exact hu.2
    obtain ⟨xs, rfl⟩ : ∃ xs : List ℝ, x = finVec xs := by
      refine ⟨finVals x, ?_⟩
      clear hp hσ hc hu
      induction x with
      | nil => rfl
      | cons v x ih =>
        rw [List.all_cons, Bool.and_eq_true] at hfin
        cases v with
        | fin v => exact congrArg _ (ih hfin.2)
        | pinf => simp [Flt.isFinite] at hfin
        | ninf => simp [Flt.isFinite] at hfin
        | nan => simp [Flt.isFinite] at hfin
    rw [if_neg hu, if_neg hu]
    have hl : (finVec xs).length = xs.length := by simp [finVec]
    rw [hl] at hσ hc
    have e1 : reorder σ (finVec xs) = finVec (reorder σ xs) := reorder_map _ _ _
    have hp' := reorder_perm hσ
    simp only [e1, finVals_finVec, hp'.length_eq, meanK_perm hp']
    have e2 : bootWeights (K := ℝ) xs.length n 0 (counts.map (reorder σ)) =
        (bootWeights (K := ℝ) xs.length n 0 counts >>= fun w => .ok (w.map (reorder σ))) := by
      unfold bootWeights
      have hlen : ∀ row ∈ counts, (reorder σ row).length = row.length := fun row hr =>
        (reorder_perm (by rw [hc row hr]; exact hσ)).length_eq
      have hall : ((counts.map (reorder σ)).map fun row => row.map fun (c : Nat) => max (0 : ℝ) (c : ℝ)) =
          (counts.map fun row => row.map fun (c : Nat) => max (0 : ℝ) (c : ℝ)).map (reorder σ) := by
        rw [List.map_map, List.map_map]
        apply List.map_congr_left
        intro row _
        exact (reorder_map _ _ _).symm
      simp only [hall]
      have hall2 : (((counts.map fun row => row.map fun (c : Nat) => max (0 : ℝ) (c : ℝ)).map (reorder σ)).all
          fun row => decide ((row.length : Int) = (xs.length : Int))) =
          ((counts.map fun row => row.map fun (c : Nat) => max (0 : ℝ) (c : ℝ)).all
          fun row => decide ((row.length : Int) = (xs.length : Int))) := by
        rw [List.all_map, Bool.eq_iff_iff, List.all_eq_true, List.all_eq_true]
        have hrl : ∀ row ∈ (counts.map fun row => row.map fun (c : Nat) => max (0 : ℝ) (c : ℝ)),
            (reorder σ row).length = row.length := by
          intro row hr
          obtain ⟨r, hr', rfl⟩ := List.mem_map.1 hr
          rw [reorder_map, List.length_map, List.length_map, hlen r hr']
        constructor
        · intro h row hr
          have := h row hr
          simp only [Function.comp] at this
          rwa [hrl row hr] at this
        · intro h row hr
          simp only [Function.comp]
          rw [hrl row hr]
          exact h row hr
      simp only [hall2, List.length_map, pyAssert_bind]
      split_ifs <;> rfl
    have e3 : ∀ w, bootWeights (K := ℝ) xs.length n 0 counts = .ok w →
        ((w.map (reorder σ)).map fun (w : List ℝ) =>
          Flt.fin (meanK (List.zipWith (fun (a b : ℝ) => a * b) (reorder σ xs) w))) =
        w.map fun (w : List ℝ) => Flt.fin (meanK (List.zipWith (fun (a b : ℝ) => a * b) xs w)) := by
      intro w hw
      rw [List.map_map]
      apply List.map_congr_left
      intro row hr
      have hrl : row.length = xs.length := by
        unfold bootWeights at hw
        simp only [pyAssert_bind] at hw
        split_ifs at hw with h1 h2 h3
        cases hw
        simp only [Bool.and_eq_true, List.all_eq_true, decide_eq_true_eq] at h3
        exact_mod_cast h3.2 row hr
      simp only [Function.comp]
      rw [← reorder_zipWith _ (perm_lt hσ) (by rw [hrl]; exact perm_lt hσ)]
      rw [meanK_perm (reorder_perm (by simpa [hrl] using hσ))]
    rw [e2]
    cases hw : bootWeights (K := ℝ) xs.length n 0 counts with
    | error e => rfl
    | ok w =>
      simp only [ok_bind, e3 w hw]

end Mlp.Lemmas
