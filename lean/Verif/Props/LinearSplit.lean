import Verif.Props.OrderedSplit
import Mathlib.Algebra.Order.Monoid.Unbundled.WithTop

/-! # Properties C33, C34 (linear part): linear splits -/

set_option linter.unusedSectionVars false

namespace Mlp.Props
open Mlp Mlp.Splitter Mlp.Spec Mlp.Lemmas

theorem foldl_min_spec {α : Type} [LinearOrder α] (l : List α) (v : α) :
    l.foldl min v ∈ v :: l ∧ ∀ x ∈ v :: l, l.foldl min v ≤ x := by
  induction l generalizing v with
  | nil => simp
  | cons b l ih =>
    obtain ⟨h1, h2⟩ := ih (min v b)
    simp only [List.foldl_cons]
    constructor
    · rcases List.mem_cons.1 h1 with h | h
      · rw [h]
        rcases min_choice v b with h | h <;> rw [h] <;> simp
      · simp [h]
    · intro x hx
      have hm := h2 (min v b) (by simp)
      simp only [List.mem_cons] at hx
      rcases hx with rfl | rfl | hx
      · exact hm.trans (min_le_left _ _)
      · exact hm.trans (min_le_right _ _)
      · exact h2 x (by simp [hx])

theorem foldl_max_spec {α : Type} [LinearOrder α] (l : List α) (v : α) :
    l.foldl max v ∈ v :: l ∧ ∀ x ∈ v :: l, x ≤ l.foldl max v :=
  foldl_min_spec (α := αᵒᵈ) l v

section
variable {K : Type} [Field K] [LinearOrder K] [IsStrictOrderedRing K] [FloorRing K]

/-- The float for a finite number. -/
abbrev fin (x : K) : Ext K := ((x : WithTop K) : Ext K)

theorem fin_le {x y : K} : fin x ≤ fin y ↔ x ≤ y := by
  unfold fin; rw [WithBot.coe_le_coe, WithTop.coe_le_coe]

theorem fin_finite (x : K) : (fin x).finite? = some x := rfl

theorem finite?_eq_some {x : Ext K} {v : K} : x.finite? = some v ↔ x = fin v := by
  constructor
  · intro h
    match x, h with
    | some (some w), h => cases h; rfl
  · rintro rfl; rfl

theorem finite?_eq_none {x : Ext K} : x.finite? = none ↔ x = ⊥ ∨ x = ((⊤ : WithTop K) : Ext K) := by
  match x with
  | none => exact ⟨fun _ => .inl rfl, fun _ => rfl⟩
  | some none => exact ⟨fun _ => .inr rfl, fun _ => rfl⟩
  | some (some v) =>
    constructor
    · intro h; cases h
    · rintro (h | h)
      · cases h
      · cases h

/-- What the model computes when the two end points are known. -/
theorem linearSplit_core {rnd : K → K} {vals : List (Ext K)} {frac : K}
    (h0 : 0 ≤ frac) (h1 : frac ≤ 1) {s : Bool} {a b : K} (hab : a ≤ b)
    (hends : if s then vals.head? = some (fin a) ∧ vals.getLast? = some (fin b)
      else fin a ∈ vals ∧ fin b ∈ vals ∧ ∀ v ∈ vals, fin a ≤ v ∧ v ≤ fin b) :
    ∃ p : K, p = max a (min (rnd (rnd (rnd (1 - frac) * a) + rnd (frac * b))) b) ∧
      linearSplit rnd (noNull vals) frac s = .ok (vals.map fun v => decide (v ≤ fin p)) := by
  refine ⟨_, rfl, ?_⟩
  set p := max a (min (rnd (rnd (rnd (1 - frac) * a) + rnd (frac * b))) b) with hp
  have hap : a ≤ p := le_max_left _ _
  have hpb : p ≤ b := max_le hab (min_le_right _ _)
  unfold linearSplit
  rw [noNull_any, noNull_filterMap]
  simp only [pyAssert_bind, h0, h1, decide_true, Bool.and_self, Bool.not_false, if_true]
  cases s with
  | true =>
    simp only [if_true] at hends ⊢
    rw [hends.1, hends.2]
    simp only [pure_eq_ok, ok_bind, fin_finite, ← hp, hap, hpb]
    rfl
  | false =>
    simp only [Bool.false_eq_true, if_false] at hends ⊢
    obtain ⟨ha, hb, hall⟩ := hends
    rcases vals with _ | ⟨v, l⟩
    · simp at ha
    · have e1 : l.foldl min v = fin a := by
        obtain ⟨m1, m2⟩ := foldl_min_spec l v
        exact le_antisymm (m2 _ ha) (hall _ m1).1
      have e2 : l.foldl max v = fin b := by
        obtain ⟨m1, m2⟩ := foldl_max_spec l v
        exact le_antisymm (hall _ m1).2 (m2 _ hb)
      simp only [e1, e2, pure_eq_ok, ok_bind, fin_finite, ← hp, hap, hpb]
      rfl

theorem mem_finiteVals {xs : List K} {x : K} : fin x ∈ finiteVals xs ↔ x ∈ xs := by
  simp [finiteVals, fin]

theorem ends_of_least {xs : List K} {a b : K} (ha : IsLeast {x | x ∈ xs} a)
    (hb : IsGreatest {x | x ∈ xs} b) :
    fin a ∈ finiteVals xs ∧ fin b ∈ finiteVals xs ∧
      ∀ v ∈ finiteVals xs, fin a ≤ v ∧ v ≤ fin b := by
  refine ⟨mem_finiteVals.2 ha.1, mem_finiteVals.2 hb.1, ?_⟩
  intro v hv
  simp only [finiteVals, List.mem_map] at hv
  obtain ⟨x, hx, rfl⟩ := hv
  exact ⟨fin_le.2 (ha.2 hx), fin_le.2 (hb.2 hx)⟩

/-- The mask computed on floats is the comparison of the numbers. -/
theorem map_finiteVals (xs : List K) (p : K) :
    ((finiteVals xs).map fun v => decide (v ≤ fin p)) = xs.map fun x => decide (x ≤ p) := by
  simp only [finiteVals, List.map_map]
  apply List.map_congr_left
  intro x _
  simp only [Function.comp, decide_eq_decide]
  exact fin_le

/-- C33: with any rounding a linear split of finite numbers succeeds and cuts at a point between the
smallest and the largest value, so all minima are in train. -/
theorem C33_linear_rounded (rnd : K → K) {xs : List K} {a b : K} (ha : IsLeast {x | x ∈ xs} a)
    (hb : IsGreatest {x | x ∈ xs} b) {frac : K} (h0 : 0 ≤ frac) (h1 : frac ≤ 1) :
    ∃ p, a ≤ p ∧ p ≤ b ∧ linearSplit rnd (noNull (finiteVals xs)) frac false =
      .ok (xs.map fun x => decide (x ≤ p)) := by
  have hab : a ≤ b := ha.2 hb.1
  obtain ⟨p, hp, h⟩ := linearSplit_core (rnd := rnd) (s := false) h0 h1 hab
    (by simpa using ends_of_least ha hb)
  refine ⟨p, ?_, ?_, ?_⟩
  · rw [hp]; exact le_max_left _ _
  · rw [hp]; exact max_le hab (min_le_right _ _)
  · rw [h, map_finiteVals]

/-- C33: with exact arithmetic a linear split of finite numbers succeeds and puts in train exactly
the rows whose value is at most `(1-frac)*min + frac*max`. -/
theorem C33_linear {xs : List K} {a b : K} (ha : IsLeast {x | x ∈ xs} a)
    (hb : IsGreatest {x | x ∈ xs} b) {frac : K} (h0 : 0 ≤ frac) (h1 : frac ≤ 1) :
    linearSplit id (noNull (finiteVals xs)) frac false =
      .ok (xs.map fun x => decide (x ≤ (1 - frac) * a + frac * b)) := by
  have hab : a ≤ b := ha.2 hb.1
  obtain ⟨p, hp, h⟩ := linearSplit_core (rnd := (id : K → K)) (s := false) h0 h1 hab
    (by simpa using ends_of_least ha hb)
  have : p = (1 - frac) * a + frac * b := by
    rw [hp]
    simp only [id]
    rw [min_eq_left (by nlinarith), max_eq_right (by nlinarith)]
  rw [h, map_finiteVals, this]

/-- C33: the minimum is in train; `frac = 1` puts everything in train, `frac = 0` only the minima;
train grows with `frac`. -/
theorem C33_linear_consequences {xs : List K} {a b : K} (ha : IsLeast {x | x ∈ xs} a)
    (hb : IsGreatest {x | x ∈ xs} b) :
    linearSplit id (noNull (finiteVals xs)) 1 false = .ok (xs.map fun _ => true) ∧
    linearSplit id (noNull (finiteVals xs)) 0 false = .ok (xs.map fun x => decide (x = a)) ∧
    ∀ f g : K, 0 ≤ f → f ≤ g → g ≤ 1 → ∃ m₁ m₂,
      linearSplit id (noNull (finiteVals xs)) f false = .ok m₁ ∧
      linearSplit id (noNull (finiteVals xs)) g false = .ok m₂ ∧
      m₁.length = xs.length ∧ m₂.length = xs.length ∧
      (∀ i : Nat, xs[i]? = some a → m₁[i]? = some true) ∧
      ∀ i : Nat, m₁[i]? = some true → m₂[i]? = some true := by
  refine ⟨?_, ?_, ?_⟩
  · rw [C33_linear ha hb zero_le_one le_rfl]
    congr 1
    apply List.map_congr_left
    intro x hx
    simp [hb.2 hx]
  · rw [C33_linear ha hb le_rfl zero_le_one]
    congr 1
    apply List.map_congr_left
    intro x hx
    simp only [sub_zero, one_mul, zero_mul, add_zero, decide_eq_decide]
    exact ⟨fun h => le_antisymm h (ha.2 hx), fun h => h.le⟩
  · intro f g hf hfg hg
    have hab : a ≤ b := ha.2 hb.1
    refine ⟨_, _, C33_linear ha hb hf (hfg.trans hg), C33_linear ha hb (hf.trans hfg) hg, by simp,
      by simp, ?_, ?_⟩
    · intro i hi
      rw [List.getElem?_map, hi]
      simp only [Option.map_some, Option.some.injEq, decide_eq_true_eq]
      nlinarith
    · intro i
      rw [List.getElem?_map, List.getElem?_map]
      cases xs[i]? with
      | none => simp
      | some x =>
        simp only [Option.map_some, Option.some.injEq, decide_eq_true_eq]
        intro h
        nlinarith

/-- C33: on data in increasing order the sortedness hint does not change the result (any
rounding). -/
theorem C33_hint (rnd : K → K) {xs : List K} (hne : xs ≠ []) (hs : xs.Pairwise (· ≤ ·)) {frac : K}
    (h0 : 0 ≤ frac) (h1 : frac ≤ 1) :
    linearSplit rnd (noNull (finiteVals xs)) frac true =
      linearSplit rnd (noNull (finiteVals xs)) frac false := by
  have hlen : 0 < xs.length := List.length_pos_iff.2 hne
  have ha : IsLeast {x | x ∈ xs} (xs.head hne) := by
    refine ⟨List.head_mem hne, fun x hx => ?_⟩
    rcases xs with _ | ⟨y, l⟩
    · simp at hne
    · rcases List.mem_cons.1 hx with rfl | hx
      · exact le_rfl
      · exact (List.pairwise_cons.1 hs).1 x hx
  have hb : IsGreatest {x | x ∈ xs} (xs.getLast hne) := by
    refine ⟨List.getLast_mem hne, fun x hx => ?_⟩
    have hg := List.pairwise_iff_getElem.1 hs
    obtain ⟨i, hi, rfl⟩ := List.getElem_of_mem hx
    rw [List.getLast_eq_getElem]
    rcases Nat.lt_or_ge i (xs.length - 1) with h | h
    · exact hg i (xs.length - 1) hi (by omega) h
    · have : i = xs.length - 1 := by omega
      subst this; exact le_rfl
  have hab := ha.2 hb.1
  obtain ⟨p, hp, h⟩ := linearSplit_core (rnd := rnd) (s := false) h0 h1 hab
    (by simpa using ends_of_least ha hb)
  obtain ⟨q, hq, h'⟩ := linearSplit_core (rnd := rnd) (s := true) (vals := finiteVals xs) h0 h1 hab
    (by
      simp only [if_true, finiteVals, List.head?_map, List.getLast?_map]
      rw [List.head?_eq_some_head hne, List.getLast?_eq_getLast_of_ne_nil hne]
      exact ⟨rfl, rfl⟩)
  rw [h, h', hp, hq]

example : linearSplit (K := ℚ) id (noNull (finiteVals [5, 1, 2, 3])) (1/2) false =
    .ok [false, true, true, true] := by decide +kernel
example : IsLeast {x : ℚ | x ∈ [5, 1, 2, 3]} 1 ∧ IsGreatest {x : ℚ | x ∈ [5, 1, 2, 3]} 5 := by
  constructor <;> constructor <;> (simp [lowerBounds, upperBounds]; try norm_num)

/-- C34: nulls and fractions outside `[0,1]` are rejected. -/
theorem C34_linear_split (rnd : K → K) (S : List (Option (Ext K))) (frac : K) (s : Bool)
    (h : none ∈ S ∨ frac < 0 ∨ 1 < frac) :
    linearSplit rnd S frac s = .error .assertion := by
  rcases noNull_or S with ⟨vals, rfl⟩ | hn
  · have hb : (decide (0 ≤ frac) && decide (frac ≤ 1)) = false := by
      rcases h with h | h | h
      · simp [noNull] at h
      · simp [h]
      · simp [h]
    unfold linearSplit
    rw [noNull_any, noNull_filterMap, hb]
    rfl
  · unfold linearSplit
    rw [pyAssert_bind, hn]; rfl

/-- C34: an infinite value makes the minimum or the maximum infinite and is rejected. -/
theorem C34_linear_infinite (rnd : K → K) (vals : List (Ext K)) (frac : K)
    (h : ⊥ ∈ vals ∨ ((⊤ : WithTop K) : Ext K) ∈ vals) :
    linearSplit rnd (noNull vals) frac false = .error .assertion := by
  unfold linearSplit
  rw [noNull_any, noNull_filterMap]
  by_cases hb : (decide (0 ≤ frac) && decide (frac ≤ 1)) = true
  · rcases vals with _ | ⟨v, l⟩
    · simp at h
    · have : (l.foldl min v).finite? = none ∨ (l.foldl max v).finite? = none := by
        rw [finite?_eq_none, finite?_eq_none]
        rcases h with h | h
        · left; left
          exact le_bot_iff.1 ((foldl_min_spec l v).2 _ h)
        · right; right
          have := (foldl_max_spec l v).2 _ h
          exact le_antisymm (by
            rw [show (((⊤ : WithTop K)) : Ext K) = ⊤ from rfl]; exact le_top) this
      simp only [hb, pyAssert_bind, Bool.not_false, if_true, Bool.false_eq_true, if_false,
        pure_eq_ok, ok_bind]
      rcases this with h | h
      · rw [h]; rfl
      · rw [h]; cases (l.foldl min v).finite? <;> rfl
  · simp only [Bool.not_eq_true] at hb
    rw [pyAssert_bind, pyAssert_bind, hb]; rfl

/-- C34: with the sortedness hint only the first and the last value are looked at. -/
theorem C34_linear_infinite_sorted (rnd : K → K) (vals : List (Ext K)) (frac : K) (v : Ext K)
    (hv : v = ⊥ ∨ v = ((⊤ : WithTop K) : Ext K)) (h : vals.head? = some v ∨ vals.getLast? = some v) :
    linearSplit rnd (noNull vals) frac true = .error .assertion := by
  unfold linearSplit
  rw [noNull_any, noNull_filterMap]
  by_cases hb : (decide (0 ≤ frac) && decide (frac ≤ 1)) = true
  · simp only [hb, pyAssert_bind, Bool.not_false, if_true]
    have hnv := (finite?_eq_none (x := v)).2 hv
    rcases vals with _ | ⟨w, l⟩
    · simp at h
    · rw [List.head?_cons, List.getLast?_eq_getLast_of_ne_nil (by simp)] at h ⊢
      simp only [pure_eq_ok, ok_bind]
      rcases h with h | h
      · cases h; rw [hnv]; rfl
      · cases h; rw [hnv]; cases w.finite? <;> rfl
  · simp only [Bool.not_eq_true] at hb
    rw [pyAssert_bind, pyAssert_bind, hb]; rfl

/-- C34: an empty series is an error of numpy, not an assertion. -/
theorem C34_linear_empty (rnd : K → K) {frac : K} (h0 : 0 ≤ frac) (h1 : frac ≤ 1) :
    linearSplit rnd [] frac true = .error .indexError ∧
    linearSplit rnd [] frac false = .error .valueError := by
  constructor <;> · unfold linearSplit; simp [pyAssert_bind, h0, h1, throw_eq_error, error_bind]

end
end Mlp.Props
