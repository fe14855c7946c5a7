import Verif.Props.Print

/-!
# Concrete cases for the formatting theorems (C01–C12)

Each `example` applies one theorem to concrete data, which shows that its hypotheses can be met.
-/

namespace Mlp.Props

open Mlp Spec Sciprint

/-- A cell of a table: mean 1.2345…, error 0.0671…, p-value 1/4. -/
def caseCell : FpCell :=
  ⟨.fin false 5559694539867914 (-52), .fin false 4835128949218599 (-56), .fin false 1 (-2)⟩
/-- The same cell with a NaN p-value and an infinite error. -/
def caseCellInf : FpCell := ⟨.fin false 5559694539867914 (-52), .inf false, .nan⟩

theorem caseCell_ok : decimalizeCell {} none caseCell =
    .ok ⟨.fin false 1235 (-3), .fin false 68 (-3), .fin false 2500 (-4)⟩ := by decide +kernel
theorem caseCellInf_ok : decimalizeCell {} none caseCellInf =
    .ok ⟨.fin false 12345 (-4), .inf false, .nan⟩ := by decide +kernel
/-- With a limit of 10⁻² the error bar is dropped. -/
theorem caseCell_clipped : decimalizeCell {} (some (-2)) caseCell =
    .ok ⟨.fin false 12345 (-4), .inf false, .fin false 2500 (-4)⟩ := by decide +kernel
theorem caseCell_err : createDecimal caseCell.err 2 .ceiling = .ok (.fin false 68 (-3)) := by decide +kernel

theorem validClips_none : ValidClips (.inf true) (.inf false) := ⟨.inl rfl, .inl rfl, trivial⟩

example := C04_create_decimal_ceiling true 7198733653021491 (-56) 2 (by decide)
example := C04_create_decimal_half_up true 5 (-1) 1 (by decide)
example := C04_create_decimal_exact (.fin false 5 (-3)) 3 .halfUp false 625 (-3) (by decide)
  (by decide +kernel) (by decide)
example := (C04_create_decimal_special 3 .ceiling).1 (by decide)
example := C04_create_decimal_monotone true false 5 3 (-1) (-2) 1 .ceiling (.inl rfl) (by decide)
  (by norm_num [fval])
example := C05_error_never_understated {} caseCell _ _ _ _ rfl caseCell_ok
example := (C05_error_special {} none caseCellInf _ caseCellInf_ok).2 false rfl
example := C06_pval_never_understated {} none caseCell _ _ _ _ rfl caseCell_ok
example := C06_pval_assert_never_fails {} none caseCell (by decide)
  (.inr ⟨_, _, _, rfl, by norm_num [fval], by norm_num [fval]⟩) (by decide) _ (.fin false 1235 (-3)) caseCell_err
  (.inr (by norm_num [DLe, Dec.ofNat, sval])) (by decide +kernel)
example := C06_pval_nan {} none caseCellInf _ rfl caseCellInf_ok
example := C06_pval_rejected {} none ⟨.fin false 1 0, .fin false 1 (-3), .fin false 3 (-1)⟩ _ _ _ rfl
  (.inr (by norm_num [fval]))
example := C07_mean_half_up_to_error_quantum {} none caseCell _ _ _ _ rfl _ _ _ rfl (by decide) caseCell_ok
example := C07_mean_default_digits {} none caseCellInf _ _ _ _ rfl (by intro _ _ _ h; cases h) caseCellInf_ok
example := C09_eb_limit {} (-2) caseCell _ _ caseCell_clipped caseCell_err
example := C09_no_limit {} caseCell _ caseCell_ok
example := C09_clipped_mean {} (some (-2)) caseCell _ caseCell_clipped rfl
/-- Error 1/16, mean 2^-1: the rounded mean is 500 units of the last digit of the error bar. -/
example := C10_fails_iff_mean_needs_more_than_28_digits {} none ⟨.fin false 1 (-1), .fin false 1 (-4), .nan⟩
  (by decide) (by decide) (.inl rfl) _ _ _ rfl false 63 (-3) (by decide +kernel) (by norm_num [sval])
  (by intro k h; cases h) (1/2) ⟨⟨500, by norm_num⟩, by
    intro k
    have h : (1 / 2 : ℚ) - fval false 1 (-1) = 0 := by norm_num [fval]
    rw [h, abs_zero]
    refine ⟨abs_nonneg _, fun h2 => ?_⟩
    have h3 := abs_eq_zero.mp h2
    have h4 : (k : ℚ) * 10 ^ (-3 : ℤ) = 1 / 2 := by
      have : fval false 1 (-1) = 1 / 2 := by norm_num [fval]
      rw [← this]; exact sub_eq_zero.mp h3
    rw [h4]⟩
example := C10_ok_without_quantum {} (some (-2)) caseCell (by decide) (by decide) (by decide)
  (.inr ⟨_, _, _, rfl, by norm_num [fval], by norm_num [fval]⟩) _ caseCell_err
  (.inr (by norm_num [DLe, Dec.ofNat, sval])) (.inr (.inr (.inr ⟨_, rfl, by norm_num [DLt, sval]⟩)))
example := C10_infinite_mean_fails {} none ⟨.inf true, .fin false 1 (-4), .nan⟩ (by decide) true rfl
  false 63 (-3) (by decide +kernel) (by norm_num [sval]) (by intro k h; cases h)
example := C10_negative_error_rejected {} none ⟨.fin false 1 0, .fin true 1 (-4), .nan⟩ (by decide)
  (.inr ⟨_, _, _, rfl, by norm_num [fval]⟩)

example := (C03_outcome (.fin false 12345 (-3)) (.fin false 67 (-3)) 1 (.inf true) (.inf false) (fun _ => none)).2.2.2.2
  validClips_none trivial trivial
example := (C03_clipped_reads_back (.fin false 12345 (-3)) .nan (-1) (.inf true) (.fin false 1 1) (fun _ => none)
  ⟨.inl rfl, .inr ⟨_, _, _, rfl⟩, trivial⟩).1 false 1 1 rfl (by norm_num) (by norm_num [DLt, sval])
example := C01_read_back_no_error true 12345678 (-1) .nan (.inl rfl) 0 (.inf true) (.inf false) (fun _ => none) _
  (by norm_num) (by simp [DLe]) (by simp [DLe]) (rfl)
example := C02_estimate_shape true 12345678 (-1) (.fin false 90 (-1)) 0 (.inf true) (.inf false) (fun _ => none)
  "-1,234,567.8(90)".toList (by decide +kernel)
example := C02_alphabet true 12345678 (-1) (.fin false 90 (-1)) 0 (.inf true) (.inf false) (fun _ => none)
  "-1,234,567.8(90)".toList (by decide +kernel)
example := C11_print_pval false 317 (-4) (fun _ => none) (by norm_num [sval]) (by norm_num [sval])
example := (C11_print_pval_other (fun _ => none)).2.1 true 1 (-2) (by decide) (.inl (by norm_num [sval]))
/-- A p-value of 2⁻²⁰, printed as <0.0001. -/
example := C12_strict_bound {} none ⟨.fin false 1 0, .fin false 1 (-4), .fin false 1 (-20)⟩
  ⟨.fin false 1000 (-3), .fin false 63 (-3), .fin false 1 (-4)⟩ _ _ _ rfl (by decide) (by decide +kernel)
  (fun _ => none) "0.0001".toList (by decide +kernel)
example := C12_printed_not_below {} none caseCell _ _ _ _ rfl caseCell_ok (fun _ => none) "0.2500".toList
  (1/4) 4 (by decide +kernel) (by decide +kernel)
example := C08_decimalize_fits_print {} none caseCell _ caseCell_ok 2 (.inf true) (.inf false) (fun _ => none)
  validClips_none
example := C09_clipped_no_parens {} (some (-2)) caseCell _ caseCell_clipped rfl (by decide) _ _ _ rfl 2
  (fun _ => none) "123.45".toList (by decide +kernel)

end Mlp.Props
