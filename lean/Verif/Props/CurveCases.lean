import Verif.Props.Auc

/-!
# Concrete cases for the theorems on areas and performance curves (C61, C64–C70)

Each `example` applies one theorem to concrete data, which shows that its hypotheses can be met.
-/

namespace Mlp.Props
open Mlp.Util Mlp.Perf Mlp.Spec Mlp.Lemmas

example := C61_area (K := ℚ) (n := 3) (X := [[0, 1, 2], [0, 0, 2]]) (Y := [[1, 2, 3], [5, 1, 2]]) (by decide)
  (by decide) (by decide) (by decide) (kind := .linear) (.inr rfl)
example := C61_split (K := ℚ) (xs := [0, 1]) (ys := [4, 5]) (xs' := [3]) (ys' := [1]) (a := 2) (y := 7)
  (by decide) (by decide) (by decide) (by decide) (kind := .previous) (.inl rfl)
example := C61_insert (K := ℚ) (xs := [0]) (ys := [4]) (xs' := [5]) (ys' := [1]) (a := 1) (m := 2) (b := 4)
  (y0 := 3) (w := 5) (y1 := 9) (by decide) (by decide) (kind := .linear) (.inr rfl) (by norm_num [OnPiece])
example := C61_linear_in_y (K := ℚ) (xs := [0, 1, 3]) (ys := [4, 5, 6]) (zs := [1, 0, 2]) (by decide) (by decide)
  (by decide) 3 (kind := .linear) (.inr rfl)
example := C61_bounds (K := ℚ) (a := 0) (xs := [1, 1, 3]) (ys := [4, 5, 6, 2]) (lo := 2) (hi := 6)
  (by decide +kernel) (by decide) (by decide) (by decide +kernel) (by decide +kernel) (kind := .previous) (.inl rfl)
example := C61_reject (K := ℚ) (X := finMat 1 [[0]]) (Y := finMat 1 [[0]]) .linear (.inl (by decide))
example := C61_kind (K := ℚ) (n := 3) (X := [[0, 1, 2]]) (Y := [[1, 2, 3]]) (by decide) (by decide)
  (kind := .next) (.inl rfl)
example := C61_zero_width (K := ℚ) (xs := [.fin 0]) (ys := [.fin 1]) (xs' := [.fin 2]) (ys' := [.fin 3]) (a := 1)
  (y0 := .ninf) (y1 := .fin 4) rfl

example := C64_roc exampleInput
example := C64_recall_precision exampleInput
example := C64_prg exampleInput
example : (∀ r ∈ (rocCurve [true, false, true, false] (finVec [3, 2, 2, (1 : ℚ)])
    (some (finMat 4 [[1, 2, 1, 1], [1, 1, 3, 1]]))).toOption.elim [] (·.1.x.rows), Rises r) := by
  obtain ⟨thr, _, h⟩ := C64_roc exampleInput
  obtain ⟨thr', _, h'⟩ := C64_recall_precision exampleInput
  have h2 := (C64_rises exampleInput h h').1
  rw [Option.map_some] at h
  rw [show ([true, false, true, false] : List Bool).length = 4 from rfl] at h
  rw [h]
  exact h2
example := C65_counts (K := ℚ) (y := [true, false, true, false]) (sc := [.fin 3, .pinf, .fin 2, .fin 2])
  (M := some (finMat 4 [[1, 2, 1, 1]])) (σ := [2, 0, 3, 1]) (by unfold IsPerm; decide) rfl
  (by intro m h; cases h; exact ⟨rfl, by decide⟩)
example := C65_curves (K := ℚ) (y := [true, false, true, false]) (sc := [.fin 3, .pinf, .fin 2, .fin 2])
  (M := some (finMat 4 [[1, 2, 1, 1]])) (σ := [2, 0, 3, 1]) (by unfold IsPerm; decide) rfl
  (by intro m h; cases h; exact ⟨rfl, by decide⟩)
example := C66_counts exampleInput (f := fun a => a * a) (by decide +kernel)
example := C66_curves exampleInput (f := fun a => a * a) (by decide +kernel)
example := C67_replicate (K := ℚ) (y := [true, false, true]) (s := [3, 2, 2]) (k := [2, 1, 3]) rfl (by decide) rfl
  (by decide)
example := C67_replicate_curves (K := ℚ) (y := [true, false, true]) (s := [3, 2, 2]) (k := [2, 1, 3]) rfl (by decide)
  rfl (by decide)
example := C67_scale exampleInput (cs := [2, 1/3]) rfl (by decide +kernel)
example := C67_rows exampleInput
example := C67_unweighted (K := ℚ) (y := [true, false, true]) (s := [3, 2, 2]) rfl (by decide)

example {c : Curve ℚ} {thr : List (Flt ℚ)} := C68_mann_whitney exampleInput (by decide) (by decide) (c := c) (thr := thr)

/-- Two samples of the same class. -/
theorem oneClassInput : CurveInput [true, true] [3, (2 : ℚ)] none :=
  ⟨by decide, by decide, by decide +kernel, by decide +kernel⟩

example {c : Curve ℚ} {thr : List (Flt ℚ)} := C70_roc oneClassInput (b := true) (by decide) (c := c) (thr := thr)
example {c : Curve ℚ} {thr : List (Flt ℚ)} := C70_precision oneClassInput (b := true) (by decide) (c := c) (thr := thr)
example := C69_bounds exampleInput
example := C69_flip exampleInput
example := C69_negate exampleInput
example := C69_constant (K := ℚ) (y := [true, false, true]) (s := [4, 4, 4]) (W := none)
  ⟨by decide, by decide, by decide +kernel, by decide +kernel⟩ (v := 4) (by decide)
example := C69_perfect (K := ℚ) (y := [true, false, true]) (s := [3, 1, 2]) (W := some [[1, 2, 3]])
  ⟨by decide, by decide, by decide +kernel, by decide +kernel⟩ (by decide) (by decide) (by
    intro i j u v hi hj hu hv
    obtain rfl : j = 1 := by
      match j, hj with
      | 0, hj => cases hj
      | 1, _ => rfl
      | 2, hj => cases hj
      | _ + 3, hj => cases hj
    cases hv
    match i, hi, hu with
    | 0, _, hu => cases hu; norm_num
    | 2, _, hu => cases hu; norm_num
    | 1, hi, _ => cases hi
    | _ + 3, hi, _ => cases hi)

end Mlp.Props
