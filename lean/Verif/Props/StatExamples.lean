import Verif.Props.CummaxHeap
import Verif.Props.Curves
import Verif.Props.Forbidden
import Verif.Props.Units
import Verif.Props.TExact
import Verif.Props.BootMoments

/-!
# Cases for the theorems about sequences, curves, tests and tables
-/

namespace Mlp.Props
open Mlp.Util Mlp.Spec Mlp.Lemmas Mlp.Perf

/-! ### Sequences -/

/-- `[1, 4, 6]` is increasing and above `[1, 1, 6]`, so the result is below it. -/
example : ∃ out, cummaxStrict (0 : Fin 10) next10 [.fin 1, .fin 1, .fin 6] = .ok out ∧ List.Forall₂ (· ≤ ·) out [.fin 1, .fin 4, .fin 6] :=
  C58_least exGrid (by decide) (by unfold NoNaN; decide) (.cons (by decide) (.cons (by decide) (.cons (by decide) .nil)))

example : cummaxStrict (0 : Fin 10) next10 [.ninf, .fin 1, .fin 6, .pinf] = .ok [.ninf, .fin 1, .fin 6, .pinf] :=
  C58_unchanged exGrid (by decide) (by unfold NoNaN; decide)

/-- Nothing is strictly above `inf`. -/
example : cummaxStrict (0 : Fin 10) next10 [.pinf, .fin 3] = .error .assertion :=
  C58_reject (by simp) fun y hy hn h => by
    cases h with
    | cons h1 h2 =>
      cases h2 with
      | cons h3 h4 =>
        cases h4
        rename_i a b
        have hab : a < b := by simpa using hy
        have ha : a = .pinf := by
          cases a with
          | pinf => rfl
          | nan => exact absurd (by simp) hn
          | _ => simp at h1
        subst ha
        cases b with
        | nan => exact hn (by simp)
        | ninf => exact absurd hab (by decide)
        | fin v => exact absurd hab (by simp)
        | pinf => exact absurd hab (by decide)

example := C123_copy (least := (0 : Fin 10)) (next := next10) [[.fin 5, .fin 5], [.fin 3, .fin 3, .fin 1]] (x := 1) (by decide)
example := C123_inplace (least := (0 : Fin 10)) (next := next10) [[.fin 5, .fin 5], [.fin 3, .fin 3, .fin 1]] (x := 1) (by decide)
example := C123_inplace_above (least := (0 : Fin 10)) (next := next10) [[.fin 5, .fin 5], [.fin 3, .fin 3, .fin 1]] (x := 1) (by decide)

/-! ### Curves -/

example (w : ℚ) (h : OnLine [0, 1, 1, (2 : ℚ)] [0, 1, 3, 5] 1 w) : w = 3 :=
  C60_through (j := 2) (by decide +kernel) rfl rfl (by
    intro k x' hk hx
    obtain rfl : k = 3 := by
      have := (List.getElem?_eq_some_iff.1 hx).1
      simp only [List.length_cons, List.length_nil] at this
      omega
    simp only [List.getElem?_cons_succ, List.getElem?_cons_zero, Option.some.injEq] at hx
    subst hx; norm_num) h

/-- The area under the line through (0, 0), (1, 1), (2, 5). -/
example : ∃ f : ℝ → ℝ, area (curve (finVec [0, 1, 2])) (curve (finVec [0, 1, 5])) .linear = .ok [.fin (∫ v in (0 : ℝ)..2, f v)] := by
  have : ∀ v : ℝ, ∃ w : ℝ, 0 ≤ v → v ≤ 2 → interp1d (fun _ _ _ => .ok []) [.fin v] (finVec [0, 1, 2]) (finVec [0, 1, 5]) .linear = .ok [.fin w] := by
    intro v
    by_cases hv : 0 ≤ v ∧ v ≤ 2
    · obtain ⟨out, h1, h2⟩ := C60_linear (fun _ _ _ => .ok []) (xs := [0, 1, (2 : ℝ)]) (ys := [0, 1, 5]) (by norm_num) rfl (by simp) [v] (by
        intro w hw
        rw [List.mem_singleton] at hw
        subst hw
        exact ⟨⟨0, by simp, hv.1⟩, 2, by simp, hv.2⟩)
      cases h2 with
      | cons h3 h4 =>
        cases h4
        exact ⟨_, fun _ _ => h1⟩
    · exact ⟨0, fun h h' => absurd ⟨h, h'⟩ hv⟩
  choose f hf using this
  exact ⟨f, C61_integral_linear (xs := [0, 1, 2]) (ys := [0, 1, 5]) (by simp) (by simp) rfl (by norm_num) f (fun _ _ _ => .ok []) fun v h1 h2 => hf v h1 h2⟩

/-- The area under the step curve through the same points. -/
example : ∃ f : ℝ → ℝ, area (curve (finVec [0, 1, 2])) (curve (finVec [0, 1, 5])) .previous = .ok [.fin (∫ v in (0 : ℝ)..2, f v)] := by
  have : ∀ v : ℝ, ∃ w : ℝ, 0 ≤ v → interp1d (fun _ _ _ => .ok []) [.fin v] (finVec [0, 1, 2])
      (finVec [0, 1, 5]) .previous = .ok [.fin w] := by
    intro v
    by_cases hv : 0 ≤ v
    · obtain ⟨out, h1, h2⟩ := C60_previous (fun _ _ _ => .ok []) (xp := finVec [0, 1, (2 : ℝ)])
        (yp := finVec [0, 1, 5]) (sortable_finVec (by norm_num)) rfl (by simp [finVec]) [.fin v] (by
          intro w hw
          rw [List.mem_singleton] at hw
          subst hw
          exact ⟨by simp, .fin 0, by simp [finVec], Flt.fin_le_fin.2 hv⟩)
      cases h2 with
      | cons h3 h4 =>
        cases h4
        obtain ⟨i, x, -, h5, -⟩ := h3
        rw [finVec_getElem?] at h5
        obtain ⟨w, -, rfl⟩ := Option.map_eq_some_iff.1 h5
        exact ⟨w, fun _ => h1⟩
    · exact ⟨0, fun h => absurd h hv⟩
  choose f hf using this
  exact ⟨f, C61_integral_previous (xs := [0, 1, 2]) (ys := [0, 1, 5]) (by simp) (by simp) rfl (by norm_num) f (fun _ _ _ => .ok []) fun v h1 _ => hf v h1⟩

theorem curveInput_example : CurveInput [true, false, true, false] [3, 2, 2, (1 : ℚ)] (some [[1, 2, 1, 1], [1, 1, 3, 1]]) :=
  ⟨by decide, by decide, by decide +kernel, by decide +kernel⟩

example := C63_counts curveInput_example (by decide) (by decide)
example := C63_counts_any curveInput_example

end Mlp.Props

namespace Mlp.Props
open Mlp Mlp.Lemmas Mlp.Paper Mlp.Boot Mlp.Spec

/-! ### Tests and error bars -/

example := C45_student (xs := [1, 2, 4]) (c := 19 / 20) (by simp) (by norm_num) (by norm_num) ⟨1, by simp, by norm_num⟩

/-- Error bars with confidence 1/2 and 3/4. -/
example : ∃ e₁ e₂ : ℝ, tEB studentT (finVec [1, 2, 4]) (.fin (1 / 2)) = .ok (.fin e₁) ∧ tEB studentT (finVec [1, 2, 4]) (.fin (3 / 4)) = .ok (.fin e₂) ∧ e₁ ≤ e₂ := by
  obtain ⟨-, e₁, -, h1, -⟩ := C45_student (xs := [1, 2, 4]) (c := 1 / 2) (by simp) (by norm_num) (by norm_num) ⟨1, by simp, by norm_num⟩
  obtain ⟨-, e₂, -, h2, -⟩ := C45_student (xs := [1, 2, 4]) (c := 3 / 4) (by simp) (by norm_num) (by norm_num) ⟨1, by simp, by norm_num⟩
  exact ⟨e₁, e₂, h1, h2, C45_mono studentT (by simp) (studentT_isSymmetric (by simp)) (by norm_num) (by norm_num) (by norm_num) h1 h2⟩

/-- Significance is the same as an error bar that leaves out 0. -/
example : ∃ p e : ℝ, tTest studentT (finVec [1, 2, 4]) = .ok (.fin p) ∧ (p ≤ 1 - 19 / 20 ↔ e ≤ |avg [1, 2, 4]|) := by
  obtain ⟨p, e, h1, h2, -⟩ := C45_student (xs := [1, 2, 4]) (c := 19 / 20) (by simp) (by norm_num) (by norm_num) ⟨1, by simp, by norm_num⟩
  exact ⟨p, e, h1, C45_agree studentT (by simp) (studentT_isSymmetric (by simp)) (by norm_num) (by norm_num) ⟨1, by simp, by norm_num⟩ h1 h2⟩

example := C98_weights (N := 3) (by norm_num) 0 2
example := C98_mean (xs := [1, 2, 4]) (by simp)

/-! ### Tables -/

theorem exTable_summary (ref : Str) (hr : ref ∈ exTable.methods) (pw : Bool) : ∃ out, lossSummaryTable studentT exTable ref pw (.fin (19 / 20))
    .t [("L".toList, (Flt.fin 0, Flt.fin 2))] (fun _ _ => ⟨[], []⟩) = .ok out := by
  apply C52_success studentT pw (by norm_num) (by norm_num) (by simp)
  · intro _; exact studentT_isSymmetric le_rfl
  · intro h; cases h
  · exact hr
  · simp [exTable]
  · simp [exTable]
  · intro metric hm
    simp only [exTable, List.mem_singleton] at hm
    subst hm
    refine ⟨_, _, exTable_limits, by simp [ValidLimits], fun method hme => ?_⟩
    simp only [exTable, List.mem_cons, List.not_mem_nil, or_false] at hme
    rcases hme with rfl | rfl
    · exact ⟨_, exTable_A, rfl, by intro x hx; simp at hx; rcases hx with rfl | rfl <;> simp⟩
    · exact ⟨_, exTable_B, rfl, by intro x hx; simp at hx; rcases hx with rfl | rfl <;> norm_num⟩

theorem exTable_cell {ref : Str} {pw : Bool} {out : List (List (Flt ℝ × Flt ℝ × Flt ℝ))}
    (h : lossSummaryTable studentT exTable ref pw (.fin (19 / 20)) .t [("L".toList, (Flt.fin 0, Flt.fin 2))] (fun _ _ => ⟨[], []⟩) = .ok out) :
    ∃ a b, SummaryCell exTable out "L".toList "A".toList a ∧ SummaryCell exTable out "L".toList "B".toList b ∧
      IsCell studentT exTable ref pw (.fin (19 / 20)) .t [("L".toList, (Flt.fin 0, Flt.fin 2))] (fun _ _ => ⟨[], []⟩) "L".toList "B".toList b := by
  have h := C51_cells h
  simp only [exTable] at h
  cases h with
  | cons h1 h2 =>
    cases h2
    cases h1 with
    | cons ha h3 =>
      cases h3 with
      | cons hb h4 =>
        cases h4
        exact ⟨_, _, ⟨0, 0, _, rfl, rfl, rfl, rfl⟩, ⟨0, 1, _, rfl, rfl, rfl, rfl⟩, hb⟩

/-- The means do not depend on the reference. -/
example : ∃ b b', IsCell studentT exTable "A".toList true (.fin (19 / 20)) .t [("L".toList, (Flt.fin 0, Flt.fin 2))] (fun _ _ => ⟨[], []⟩) "L".toList "B".toList b ∧
    IsCell studentT exTable "B".toList false (.fin (19 / 20)) .t [("L".toList, (Flt.fin 0, Flt.fin 2))] (fun _ _ => ⟨[], []⟩) "L".toList "B".toList b' ∧ b.1 = b'.1 := by
  obtain ⟨out, h⟩ := exTable_summary "A".toList (by simp [exTable]) true
  obtain ⟨out', h'⟩ := exTable_summary "B".toList (by simp [exTable]) false
  obtain ⟨-, b, -, -, hb⟩ := exTable_cell h
  obtain ⟨-, b', -, -, hb'⟩ := exTable_cell h'
  exact ⟨b, b', hb, hb', C51_mean_unaffected hb hb'⟩

/-- The loss 1 is above the limit 3/4. -/
example : lossCell studentT (finVec [0, 1]) exTable "A".toList true (.fin (19 / 20)) .t (.fin 0) (.fin (3 / 4)) "L".toList ⟨[], []⟩ "B".toList = .error .assertion :=
  C52_reject_cell exTable_B ⟨.fin 1, by simp [finVec], Or.inr (Or.inr (by rw [Flt.fin_lt_fin]; norm_num))⟩

/-- Exchanging method and reference. -/
example : ∃ outA outB x y,
    lossSummaryTable studentT exTable "A".toList true (.fin (19 / 20)) .t [("L".toList, (Flt.fin 0, Flt.fin 2))] (fun _ _ => ⟨[], []⟩) = .ok outA ∧
    lossSummaryTable studentT exTable "B".toList true (.fin (19 / 20)) .t [("L".toList, (Flt.fin 0, Flt.fin 2))] (fun _ _ => ⟨[], []⟩) = .ok outB ∧
    SummaryCell exTable outA "L".toList "B".toList x ∧ SummaryCell exTable outB "L".toList "A".toList y ∧ x.2 = y.2 := by
  obtain ⟨outA, hA⟩ := exTable_summary "A".toList (by simp [exTable]) true
  obtain ⟨outB, hB⟩ := exTable_summary "B".toList (by simp [exTable]) true
  obtain ⟨-, x, -, hx, -⟩ := exTable_cell hA
  obtain ⟨y, -, hy, -, -⟩ := exTable_cell hB
  exact ⟨outA, outB, x, y, hA, hB, hx, hy, C145_exact hA hB rfl hx hy⟩

/-- Thousandths shifted by seven. -/
example := C146_mean_EB (c := 1000) (d := 7) (by norm_num) studentT (finVec [0, 1]) (.fin (19 / 20)) .ninf .pinf .t [] (by intro h; cases h)

end Mlp.Props

namespace Mlp.Props
open Mlp.Paper Mlp.Spec Mlp.Lemmas MeasureTheory ProbabilityTheory Set

/-! ### Normal samples -/

example := C95_t_test_exact (n := 10) (by norm_num) (gauss_sample 10) (α := 1 / 20) (by norm_num) (by norm_num)
example := C95_mean_and_EB (n := 10) (by norm_num) (gauss_sample 10) (c := 19 / 20) (by norm_num) (by norm_num) (fun _ => [])

end Mlp.Props

namespace Mlp.Props
open Mlp.Util Mlp.Spec Mlp.Classif Mlp.Lemmas

example := C102_loss (y := ⟨'i', [1, 0]⟩) (p := riskyPred) ⟨Or.inr rfl, by simp [riskyPred], by simp [riskyPred], by simp [riskyPred], fun r hr => (riskyPred_ok r hr).2, by simp [riskyPred]⟩
  (fun r hr => (riskyPred_ok r hr).1) riskyMat_ok

end Mlp.Props
