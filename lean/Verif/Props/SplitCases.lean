import Verif.Props.SplitDf
import Verif.Props.OrderedSplit
import Verif.Props.RandomSplit

/-!
# Concrete cases for the theorems on splitting data (C25–C34)

Each `example` applies one theorem to concrete data, which shows that its hypotheses can be met.
-/

namespace Mlp.Props
open Mlp Mlp.Splitter Mlp.Spec Mlp.Lemmas

theorem isRounding_id : IsRounding (id : ℚ → ℚ) := ⟨monotone_id, fun _ => rfl⟩
/-- A coarse rounding: up to the next multiple of 1/8. -/
theorem isRounding_eighth : IsRounding (fun x : ℚ => (⌈8 * x⌉ : ℚ) / 8) := by
  refine ⟨fun a b h => ?_, fun z => ?_⟩
  · have : ⌈8 * a⌉ ≤ ⌈8 * b⌉ := Int.ceil_mono (by linarith)
    have h2 : (⌈8 * a⌉ : ℚ) ≤ ⌈8 * b⌉ := by exact_mod_cast this
    show (⌈8 * a⌉ : ℚ) / 8 ≤ ⌈8 * b⌉ / 8
    linarith
  · show (⌈8 * (z : ℚ)⌉ : ℚ) / 8 = z
    rw [show (8 : ℚ) * z = ((8 * z : ℤ) : ℚ) from by push_cast; ring, Int.ceil_intCast]
    push_cast; ring

theorem perm5 : IsPerm [2, 0, 3, 1, 4] 5 := by unfold IsPerm; decide

example := C28_rand_subset isRounding_eighth (perm := fun _ => [2, 0, 3, 1, 4]) (x := ["a", "b", "c", "d", "e"])
  (by decide) perm5 (frac := 1/3) (by norm_num) (by norm_num)
example := C28_rand_subset_size (K := ℚ) (perm := fun _ => [2, 0, 3, 1, 4]) (x := ["a", "b", "c", "d", "e"])
  (by decide) perm5 (frac := 1/3) (by norm_num) (by norm_num)
example := C28_every_subset_possible isRounding_id (x := ["a", "b", "c", "d", "e"]) (by decide) (frac := 1/3)
  (by norm_num) (by norm_num) [4, 1] (by decide) (by decide) (by decide +kernel)
example := C28_rand_mask isRounding_eighth (perm := fun _ => [2, 0, 3, 1, 4]) (n := 5) (by decide) perm5
  (frac := 1/3) (by norm_num) (by norm_num)
example := C34_rand_bad_frac (K := ℚ) id (fun _ => [2, 0, 3, 1, 4]) ["a"] 5 (frac := 3/2) (by norm_num)
example := C28_empty (β := Nat) isRounding_eighth (fun _ => []) (frac := 1/3) (by norm_num) (by norm_num)
example := C29_random_split isRounding_eighth (perm := fun _ => [2, 0, 1]) (vals := [5, 7, 5, 9, 7]) (by decide)
  (by unfold IsPerm; decide) (frac := 1/2) (by norm_num) (by norm_num)
example := C29_equal_values (K := ℚ) (rnd := id) (perm := fun _ => [2, 0, 1]) (S := noNull [5, 7, 5, 9, 7])
  (frac := 1/2) (mask := [true, false, true, true, false]) (by decide +kernel)
example := C30_assume_unique isRounding_id (perm := fun _ => [2, 0, 1, 3]) (vals := [5, 7, 6, 9]) (by decide)
  (by unfold IsPerm; decide) (1/2)
example := C34_random_split (K := ℚ) id (fun _ => [2, 0, 1]) [some 5, none, some 7] (1/2) false (.inl (by decide))

theorem exFrame_wf : WellFormed exFrame := by
  intro c hc
  simp only [exFrame, List.mem_singleton] at hc
  subst hc; decide

/-- The splits of the examples: by row at random and by the values of column `a`. -/
def caseSplits : List (SplitSpec ℚ) := [(none, "random".toList, 1/2), (some "a".toList, "linear".toList, 1/4)]

theorem exFrame_split : splitDf (K := ℚ) id (fun _ _ => [2, 0, 1, 3]) exFrame caseSplits =
    .ok (⟨[], [(some "a".toList, [])]⟩,
      ⟨noNull (finiteVals [3]), [(some "a".toList, noNull (finiteVals [9]))]⟩,
      ⟨noNull (finiteVals [0, 1, 2]), [(some "a".toList, noNull (finiteVals [7, 5, 7]))]⟩) := by
  decide +kernel

theorem exFrame_named : ∀ c ∈ exFrame.cols, c.1 ≠ none := by decide

example := C25_partition exFrame_wf exFrame_split
example := C26_conjunction exFrame_wf exFrame_split
example {r : Frame (Ext ℚ) × Frame (Ext ℚ) × Frame (Ext ℚ)} := C26_order_independent (r := r) (rnd := id) (perm := fun _ _ => [2, 0, 1, 3]) (unique := []) (sorted := [])
  exFrame_wf (splits := caseSplits) (splits' := caseSplits.reverse) (List.reverse_perm _).symm
example : ∃ r, splitDf (K := ℚ) id (fun _ _ => [2, 0, 1, 3]) exFrame caseSplits = .ok r := by
  obtain ⟨ms, h, _⟩ := C26_conjunction exFrame_wf exFrame_split
  exact C25_total exFrame_wf (by decide) (by decide) exFrame_named
    (fun sp hsp => by
      obtain ⟨i, hi⟩ := List.mem_iff_getElem.mp hsp
      obtain ⟨hl, hr⟩ := List.forall₂_iff_get.mp h
      obtain ⟨hlt, rfl⟩ := hi
      exact ⟨_, (hr i hlt (hl ▸ hlt)).1⟩)
example := C27_single (K := ℚ) (rnd := id) (perm := fun _ _ => [2, 0, 1, 3]) exFrame_wf (unique := []) (sorted := [])
  (sp := (some "a".toList, "linear".toList, 1/4))
  (train := ⟨noNull (finiteVals [1]), [(some "a".toList, noNull (finiteVals [5]))]⟩)
  (test := ⟨noNull (finiteVals [0, 2, 3]), [(some "a".toList, noNull (finiteVals [7, 7, 9]))]⟩)
  (unused := ⟨[], [(some "a".toList, [])]⟩) (by decide +kernel)
example := C34_split_df_assert (K := ℚ) (rnd := id) (perm := fun _ _ => []) (df := exFrame) (unique := []) (sorted := [])
  [] (.inl rfl)
example := C34_split_df_propagates (K := ℚ) (rnd := id) (perm := fun _ _ => []) (df := exFrame) (unique := [])
  (sorted := []) (l₁ := []) (l₂ := caseSplits) (sp := (some "a".toList, "linear".toList, 2)) (err := .assertion)
  (by decide) exFrame_named (by simp) (by decide +kernel)
example := C34_split_df_key_error (K := ℚ) (rnd := id) (perm := fun _ _ => []) (df := exFrame) (unique := [])
  (sorted := []) (l₁ := []) (l₂ := caseSplits) (f := some "b".toList) (ty := "linear".toList) (frac := 1/2)
  (by decide) exFrame_named (by simp) (.inr ⟨"b".toList, rfl, by decide⟩)
example := C27_default_split (unique := []) (sorted := []) exFrame_wf isRounding_eighth (perm := fun _ _ => [2, 0, 1, 3])
  (vals := finiteVals [0, 1, 2, 3]) rfl (by decide +kernel) (by decide) exFrame_named
  (by unfold IsPerm; decide) (frac := 1/3) (by norm_num) (by norm_num)

/-! ### Linear and ordered splits -/

theorem least5 : IsLeast {x : ℚ | x ∈ [5, 1, 2, 3]} 1 := by
  constructor <;> (simp [lowerBounds]; try norm_num)
theorem greatest5 : IsGreatest {x : ℚ | x ∈ [5, 1, 2, 3]} 5 := by
  constructor <;> (simp [upperBounds]; try norm_num)

example := C33_linear_rounded (fun x : ℚ => (⌈8 * x⌉ : ℚ) / 8) least5 greatest5 (frac := 1/3) (by norm_num) (by norm_num)
example := C33_linear least5 greatest5 (frac := 1/3) (by norm_num) (by norm_num)
example := C33_linear_consequences least5 greatest5
example := C33_hint (fun x : ℚ => (⌈8 * x⌉ : ℚ) / 8) (xs := [1, 2, 2, 5]) (by decide) (by decide +kernel) (frac := 1/3)
  (by norm_num) (by norm_num)
example := C34_linear_split (K := ℚ) id [none] (1/2) true (.inl (by decide))
example := C34_linear_infinite (K := ℚ) id (⊥ :: finiteVals [1, 2]) (1/2) (.inl (by simp))
example := C34_linear_infinite_sorted (K := ℚ) id (⊥ :: finiteVals [1, 2]) (1/2) ⊥ (.inl rfl) (.inl rfl)
example := C34_linear_empty (K := ℚ) id (frac := 1/2) (by norm_num) (by norm_num)

example := C34_ordered_split (K := ℚ) id [some 3, none] (1/2) false false (.inl (by decide))
example := C31_ordered_split isRounding_id (vals := [3, 1, 2, 4, 1]) (frac := 3/5)
  (mask := [true, true, true, false, true]) (by decide +kernel)
example := C31_exact_size (K := ℚ) (vals := [3, 1, 2, 4, 1]) (frac := 3/5)
  (mask := [true, true, true, false, true]) (by decide +kernel)
example := (C31_hints (K := ℚ) id [3, 1, 2] (1/2)).1 (by decide)
example := (C31_hints (K := ℚ) id [1, 2, 4] (1/2)).2.1 (by decide)
example := C32_ordered_fails_iff isRounding_eighth (vals := [3, 1, 2, 4]) (by decide) (frac := 1/2)
  (by decide +kernel) (by norm_num) (by norm_num)
example := C32_ordered_exact_hit (K := ℚ) (vals := [3, 1, 2, 4]) (by decide) (frac := 1/2) (by norm_num) (by norm_num)

end Mlp.Props
