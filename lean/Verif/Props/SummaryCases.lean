import Verif.Props.Interp
import Verif.Props.Normalize
import Verif.Props.Summary
import Verif.Props.ClipEB
import Verif.Props.Table
import Verif.Props.FormatStr

/-!
# Concrete cases for interpolation, normalisation, summaries of losses and clipping (C20, C21, C44, C47–C50, C55, C57–C60, C124)

Each `example` applies one theorem to concrete data, which shows that its hypotheses can be met.
-/

namespace Mlp.Props
open Mlp Mlp.Util Mlp.Spec Mlp.Lemmas Mlp.Paper

/-! ### Interpolation -/

section
variable (other : List (Flt ℚ) → List (Flt ℚ) → List (Flt ℚ) → Py (List (Flt ℚ)))

theorem caseSortable : Sortable (finVec [0, 1, 1, (2 : ℚ)]) := sortable_finVec (by decide +kernel)

example := C60_previous_reject other caseSortable (yp := finVec [0, 1, 3, 5]) rfl (by decide) (finVec [-1])
  (by intro h; obtain ⟨_, x, hx, h2⟩ := h (.fin (-1)) (by simp [finVec]); revert x; decide +kernel)
example := C60_next other caseSortable (yp := finVec [0, 1, 3, 5]) rfl (by decide) (finVec [1])
example := C60_reject other (xp := finVec [0, 1]) (yp := finVec [0]) (.inl (by decide)) (finVec [1]) .linear
example := C60_linear other (xs := [0, 1, 1, 2]) (ys := [0, 1, 3, 5]) (by decide +kernel) rfl (by decide) [1/2, 1, 7/4]
  (by decide +kernel)
example := C60_linear_outside other (xs := [0, 1, 1, 2]) (ys := [0, 1, 3, 5]) (by decide +kernel) rfl (by decide) [1/2, 3]
  (by decide +kernel)
theorem caseOnLine : OnLine [0, 1, 1, (2 : ℚ)] [0, 1, 3, 5] (3 / 2) 4 :=
  Or.inr ⟨2, 1, 2, 3, 5, rfl, rfl, rfl, rfl, by norm_num, by norm_num, by norm_num⟩
example := C60_between caseOnLine
end

/-! ### Distinct abscissae and strict running maxima -/

example := C57_take_last caseSortable (yp := ([10, 20, 30, 40] : List Nat)) rfl
example := C57_reject (β := Nat) (finVec [0, (1 : ℚ)]) (some [1]) (.inr ⟨[1], rfl, by decide⟩)

/-- The next value of a grid of ten numbers. -/
def nextTen (x : Fin 10) : Option (Fin 10) := if h : x.val + 1 < 10 then some ⟨x.val + 1, h⟩ else none

example := C58_strict (least := (0 : Fin 10)) (next := nextTen) (x := [.fin 3, .fin 3, .fin 1, .fin 7, .pinf])
  (out := [.fin 3, .fin 4, .fin 5, .fin 7, .pinf]) (by decide +kernel)

/-! ### Normalisation -/

/-- Log-odds 0 and log 3, and a certain outcome. -/
noncomputable def caseLogits : Mat ℝ := ⟨2, [[.fin 0, .fin (Real.log 3)], [.ninf, .fin 7]]⟩

theorem caseLogits_proper : ∀ r ∈ caseLogits.rows, Proper r := by
  intro r hr
  simp only [caseLogits, List.mem_cons, List.not_mem_nil, or_false] at hr
  rcases hr with rfl | rfl
  · exact ⟨by simp, 0, by simp⟩
  · exact ⟨by simp, 7, by simp⟩

example := C55_normalize (p := caseLogits) (by decide) caseLogits_proper
example := C55_shift_invariant (p := caseLogits) (p' := ⟨2, caseLogits.rows.map (shiftRow 5)⟩) rfl caseLogits_proper
  (by simp [caseLogits, shiftRow])
example : ∃ q, normalizeRows caseLogits = .ok q ∧ normalizeRows q = .ok q := by
  obtain ⟨q, hq, -, -⟩ := C55_normalize (p := caseLogits) (by decide) caseLogits_proper
  exact ⟨q, hq, C55_idempotent caseLogits_proper hq⟩
/-- A half and a half. -/
noncomputable def caseHalf : List (Flt ℝ) := [.fin (-Real.log 2), .ninf, .fin (-Real.log 2)]
theorem caseHalf_dist : IsDist caseHalf := by
  refine ⟨by simp [caseHalf], ?_⟩
  simp [caseHalf, prob, Real.exp_neg, Real.exp_log]
  norm_num
example := C55_fixed (p := ⟨3, [caseHalf]⟩) (by decide) (by simpa using caseHalf_dist)
example := C55_unique (r := caseHalf) (c := 0) (d := 0) (by simp [caseHalf])
  (by simpa [shiftRow, caseHalf, Flt.sub, Flt.add, Flt.neg] using caseHalf_dist) (by simpa [shiftRow, caseHalf, Flt.sub, Flt.add, Flt.neg] using caseHalf_dist)
example := C55_improper (p := ⟨2, [[.ninf, .ninf], [.pinf, .fin 0]]⟩) (by decide)
example := C55_reject (p := ⟨0, [[], []]⟩) rfl

/-! ### Summaries -/

/-- Losses of five samples between 0 and 1. -/
theorem caseWithin : ∀ x ∈ ([0, 1, 1/2, 0, 1] : List ℝ), 0 ≤ x ∧ x ≤ 1 := by
  intro x hx
  simp only [List.mem_cons, List.not_mem_nil, or_false] at hx
  rcases hx with rfl | rfl | rfl | rfl | rfl <;> norm_num

theorem caseDraws : ValidDraws 5 2 [[0, 2, 1, 1, 1], [1, 1, 1, 1, 1]] := by
  simp [ValidDraws, IsMultinomial]

example := C48_shared (xs := [0, 1, 1/2, 0, 1]) (by simp) caseDraws (c := 95/100) (by norm_num) (by norm_num)
example := C49_reject studentT [.fin 0, .fin 2] (.fin (95/100)) (.fin 0) (.fin 0) (.fin 1) .t []
  ⟨.fin 2, by simp, .inr (by simp [Flt.le])⟩
example := C50_bar_value studentT (xs := [0, 1, 1/2, 0, 1]) (by simp) (l := 0) (u := 1) (by norm_num) caseWithin
  (c := 95/100) (by norm_num) (by norm_num) (counts := []) (b := 1/100) (by norm_num) (by norm_num)
example := C47_bernstein_test (xs := [0, 1, 1/2, 0, 1]) (by simp) (l := 0) (u := 1) (by norm_num) caseWithin
example := C47_bernstein_EB (xs := [0, 1, 1/2, 0, 1]) (by simp) (l := 0) (u := 1) (by norm_num) caseWithin
  (c := 95/100) (by norm_num) (by norm_num)
example := C47_mono (xs := [0, 1, 1/2, 0, 1]) (by simp) (l := 0) (u := 1) (by norm_num) caseWithin (c₁ := 1/2)
  (c₂ := 95/100) (by norm_num) (by norm_num) (by norm_num)
example := (C47_degenerate (x := [.fin 1, .pinf]) (lower := .fin 0) (upper := .pinf)
  ⟨by simp, by simp, by simp, by simp, by simp⟩ (by simp [NoNaN]) (by simp) (c := 1/2) (by norm_num) (by norm_num)).2.2
  (.inr rfl)
example := C47_reject [.fin 1, .nan] (.fin 0) (.fin 1) (.fin (1/2)) (.inl (by simp [NoNaN]))

/-! ### Clipping of error bars -/

theorem caseLimits : ValidLimits (K := ℚ) (.fin 0) (.fin 1) := by
  refine ⟨by simp, by simp, by simp, by simp, by simp⟩

example := C44_value_error (K := ℚ) (mu := .fin 2) (.fin (1/10)) caseLimits (by decide) (b := 1/4) (by norm_num)
example := C44_reject (K := ℚ) (.fin 0) (.fin 0) (.fin 0) (.fin 1) (.fin (-1))
  (.inr (by intro b h; cases h; norm_num))
example := C44_clip (K := ℚ) (m := 1/4) (EB := .fin 2) caseLimits (b := 1/8) (by norm_num) (by decide +kernel)
  (by decide +kernel) (by decide +kernel)
example := C44_nan_estimate (K := ℚ) (.fin 2) caseLimits (b := 1/8) (by norm_num) (by decide +kernel)
example := C44_infinite_estimate (K := ℚ) (mu := .pinf) (lower := .fin 0) (upper := .pinf) (.fin 2)
  ⟨by simp, by simp, by simp, by simp, by simp⟩ (.inl rfl) (by decide +kernel) (by decide +kernel) (b := 1/8)
  (by norm_num) (by decide +kernel)

end Mlp.Props

namespace Mlp.Props
open Mlp Spec Sciprint

/-! ### Columns with estimates that cannot be printed -/

example := C21_nan_mean (κ := Nat) id {} 0 [⟨.fin false 12 2, .fin false 3 2, .nan⟩, ⟨.nan, .nan, .nan⟩]
  ⟨.nan, .nan, .nan⟩ (by simp) rfl
example := C21_infinite_mean (κ := Nat) id {} 0 [⟨.fin false 12 2, .fin false 3 2, .nan⟩, ⟨.inf true, .nan, .nan⟩]
  (by simp) ⟨.inf true, .nan, .nan⟩ (by simp) (.inr ⟨rfl, rfl⟩)
example := (C21_infinite_mean_clipped .nan 1 none (some 2) (fun _ => none)).1 2 rfl
example := C21_not_to_dot (κ := Nat) id {} 0 [] [] ⟨.fin false 12 2, .fin false 3 2, .nan⟩ rfl
  (by simp [SamePlaces]) (by simp) (by simp) false 12 2 rfl (by norm_num) (by decide) trivial trivial

/-! ### Custom format strings -/

theorem exSpec_gen : GenSpec exSpec := fun _ => rfl

example := C124_template (spec := exSpec) (.fin false 1 1) "\\textbf{>".toList "}".toList "0".toList ",f".toList
  (.inl rfl) (by decide) (by decide)
example := C124_default_strings exSpec_gen (.fin false 1 1)
example := (C124_lone_brace (spec := exSpec) (.fin false 1 1) "x".toList).1 "y".toList (by decide)
example := (C124_bad_name (spec := exSpec) (.fin false 1 1) "x".toList "y".toList ",f".toList "eps".toList (by decide)
  (by decide) (by decide) (by decide) (by decide) (by unfold PlainName; decide) (by decide)).1 (by decide)
example := C124_many (spec := exSpec) (.fin false 1 1) [("\\{".toList, ",f".toList), ("}, again ".toList, ",f".toList)]
  "!".toList (by decide)
example := C124_mixed (spec := exSpec) (.fin false 1 1) "<".toList " or ".toList ",f".toList ",f".toList "".toList
  _ (by decide) (by decide) (by decide) (by decide) rfl
example := (C124_estimate exSpec_gen (.fin false 12345 (-3)) .nan 0 (.inf true) (.fin false 1 1) belowFmtStr
  "\\textbf{{>{0:,f}}}".toList (fun _ => none)).1 ⟨.inl rfl, .inr ⟨_, _, _, rfl⟩, trivial⟩ (by norm_num [DLt, sval])
example := (C124_pval exSpec_gen false 1 (-4) "$<${:,f}".toList (fun _ => none)).1 (by norm_num [sval])
  (by norm_num [sval])

end Mlp.Props
