import Verif.Props.Shift
import Verif.Props.Header

/-!
# Concrete cases for the theorems on shifts, padding and headers (C13–C19, C23)

Each `example` applies one theorem to concrete data, which shows that its hypotheses can be met.
-/

namespace Mlp.Props

open Mlp Spec Sciprint

/-- Two estimates with error bars, one without error bar. -/
def caseMeans : List Dec := [.fin false 123 (-5), .fin true 456 (-4), .fin false 12 (-1)]
def caseErrs : List Dec := [.fin false 45 (-5), .fin false 78 (-4), .nan]

theorem casePairs_ok : ∀ p ∈ caseMeans.zip caseErrs, PairOk p := by
  simp [caseMeans, caseErrs, PairOk]

example := C17_floor_mod (-7) 3 (by decide)
example := C17_ceil_mod (-7) 3 (by decide)
example := C23_remove_chars_unique "-1,234.5(6)".toList ",.".toList "-12345(6)".toList (by decide) (by
  intro c
  rw [show "-12345(6)".toList = removeChars "-1,234.5(6)".toList ",.".toList from by decide]
  exact (C23_remove_chars _ _).2 c)
example := C13_shift_range caseMeans 3 (by decide) (by decide) (by simp [caseMeans])
example := C13_shift_range_rejects [.fin false 1 0, .nan] 3 (.inr (.inr ⟨.nan, by simp, by simp⟩))
example := C13_shift_range_rejects caseMeans 0 (.inr (.inl (by decide)))
example := C14_best_shift _ sortsByAbs_insertionSort caseMeans caseErrs 3 (by decide) (by decide) (by decide) casePairs_ok
example := C15_chosen_shift_prints _ sortsByAbs_insertionSort caseMeans caseErrs 3 (by decide) (by decide) casePairs_ok

/-- Another way to sort by absolute value: the other order of two opposite shifts. -/
theorem sortsByAbs_reverse : SortsByAbs (fun l => (l.reverse).insertionSort fun a b => |a| ≤ |b|) := by
  intro l
  obtain ⟨h1, h2⟩ := sortsByAbs_insertionSort l.reverse
  exact ⟨h1.trans (List.reverse_perm l), h2⟩

example (s t : Int) := C14_tie_order_irrelevant _ _ sortsByAbs_insertionSort sortsByAbs_reverse caseMeans caseErrs 3
  (by decide) (by decide) (by decide) casePairs_ok s t
example := C16_padding_aligns ["-55.5".toList, "1.12(34)".toList, "0".toList] '~' (by decide) (by decide)
example := (C16_padding_rejects '~').2 ["1.5".toList, ".5".toList] ".5".toList (by decide) (by decide)

example := C18_prefix (fun _ => some 3) (fun _ => some "s".toList) false "run_time".toList "s".toList 3 rfl rfl
  (by unfold HasPrefix; decide)
example := (C18_unitless (fun _ => some 2) (fun _ => none) true false "NLL".toList 2 rfl rfl).2 (by decide)
example := (C18_fallback (fun _ => some 5) (fun _ => some "s".toList) true false "t".toList "s".toList 5 rfl rfl
  (.inr (by unfold HasPrefix; decide))).2 (by decide)
example := (C18_pval (fun _ => some 5) (fun _ => none) true false "t".toList).1 5 rfl
example := C19_tab_in_tex (fun _ => some 2) (fun _ => none) true "NLL".toList 2 rfl (by decide) (.inl rfl)

end Mlp.Props
