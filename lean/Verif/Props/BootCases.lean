import Verif.Props.Boot

/-!
# Concrete cases for the bootstrap theorems (C36–C43)

Each `example` applies one theorem to concrete data, which shows that its hypotheses can be met.
The data is not trivial: replicates out of order, with ties and with infinite values.
-/

namespace Mlp.Props

open Mlp Mlp.Boot Mlp.Spec Mlp.Lemmas

/-- Six bootstrap replicates, unordered, with a tie and an infinite one. -/
def caseBoot : List (Flt ℚ) := [.fin 3, .ninf, .fin 1, .fin 3, .fin (5/2), .fin 7]
/-- Replicates of a reference drawn from the same samples. -/
def caseRef : List (Flt ℚ) := [.fin 2, .fin 0, .fin 1, .fin 4, .fin 0, .pinf]

theorem caseBoot_noNaN : NoNaN caseBoot := by unfold NoNaN; decide
theorem caseRef_noNaN : NoNaN caseRef := by unfold NoNaN; decide

example := C36_reject (K := ℚ) (N := 0) (nBoot := 5) (1/10) [[], []] (by decide)
example := C36_resample (K := ℚ) (x := [5, -1, 2]) (row := [0, 2, 1]) (by decide)
  (by unfold IsMultinomial; decide)
example := C37_percentiles (K := ℚ) (c := 95/100) (by norm_num) (by norm_num)
example := C37_reject (K := ℚ) (.fin (3/2)) (by intro c h; cases h; right; norm_num)
example := C37_reject (K := ℚ) .nan (by intro c h; cases h)
example := C38_percentile (boot := caseBoot) (by decide) caseBoot_noNaN (c := 1/2) (by norm_num) (by norm_num)
example := C38_order (boot := caseBoot) (boot' := caseBoot.reverse) (List.reverse_perm _).symm (.fin (1/2))
example := (C38_reject (K := ℚ) [.fin 1, .nan] (.fin (1/2))).1 (by unfold NoNaN; decide)
example := (C38_reject (K := ℚ) caseBoot (.fin 1)).2.1 (by intro c h; cases h; right; norm_num)
example := (C38_reject (K := ℚ) caseBoot (.fin (1/2))).2.2 ⟨_, rfl, by norm_num, by norm_num⟩
example := C39_nested (boot := caseBoot) (c₁ := 1/10) (c₂ := 9/10) (by norm_num)
  (L₁ := .fin (5/2)) (U₁ := .fin 3) (L₂ := .ninf) (U₂ := .fin 7) (by decide +kernel) (by decide +kernel)
example := C39_error_bar (boot := caseBoot) (c₁ := 1/10) (c₂ := 9/10) (by norm_num) (x := 2)
  (e₁ := .fin 1) (e₂ := .pinf) (by decide +kernel) (by decide +kernel)
example := C40_finite (K := ℚ) (xs := [3, 1, 2, 7]) (by decide) (c := 1/2) (by norm_num) (by norm_num) 4
example := C41_scalar_is_constant caseBoot (by decide) (.fin 3)
example := C41_paired (boot := caseBoot) (r := caseRef) (by decide) (by decide) caseBoot_noNaN caseRef_noNaN
example := C41_negate (boot := caseBoot) (r := caseRef) (by decide) (by decide) caseBoot_noNaN caseRef_noNaN
example := C41_shift (boot := caseBoot) (r := caseRef) (by decide) (by decide) caseBoot_noNaN caseRef_noNaN 10
example := C41_order (boot := caseBoot) (r := caseRef) (boot' := caseBoot.reverse) (r' := caseRef.reverse)
  (by decide) (by decide) (List.reverse_perm (caseBoot.zip caseRef)).symm
example := C41_difference (K := ℚ) (xs := [3, 1, 2]) (rs := [2, 2, 2]) (by decide) (by decide)
example := C41_zero (boot := caseBoot) (r := caseRef) (by decide) (by decide) caseBoot_noNaN caseRef_noNaN
/-- Both sides of the criterion of C41_zero occur. -/
example : significance (finVec [1, 2, 3]) (.paired (finVec [2, 3, 4])) = .ok (.fin (0 : ℚ)) ∧
    significance caseBoot (.paired caseRef) ≠ .ok (.fin 0) := by decide +kernel
example := (C41_reject (K := ℚ) [.fin 1, .nan]).1 (.scalar (.fin 0)) (by unfold NoNaN; decide)
example := (C41_reject caseBoot).2.2.1 [.nan, .fin 1] (by unfold NoNaN; decide)
example := (C41_reject caseBoot).2.2.2 [.fin 1] (by decide)
example := C42_outside_significant (boot := caseBoot) (c := 1/2) (LB := .fin 1) (UB := .fin 3) (r := .fin 4)
  (by decide +kernel) (by decide) (by decide +kernel)
example := C43_converse_bound (boot := caseBoot) (c := 1/2) (LB := .fin 1) (UB := .fin 3) (r := .fin 5) (p := 1/3)
  (by decide +kernel) (by decide) (by decide +kernel) (by norm_num [caseBoot])

end Mlp.Props
