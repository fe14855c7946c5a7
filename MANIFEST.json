{
 "claims": [
  {
   "property": "C01",
   "status": "proved",
   "theorems": [
    "Mlp.Props.C01_read_back",
    "Mlp.Props.C01_read_back_no_error"
   ],
   "note": "Floats are exact binary rationals, decimals as in Python's decimal module without Emax/Emin."
  },
  {
   "property": "C02",
   "status": "proved",
   "theorems": [
    "Mlp.Props.C02_estimate_shape",
    "Mlp.Props.C02_alphabet",
    "Mlp.Props.C02_pval"
   ],
   "note": "Floats are exact binary rationals, decimals as in Python's decimal module without Emax/Emin."
  },
  {
   "property": "C03",
   "status": "proved",
   "theorems": [
    "Mlp.Props.C03_outcome",
    "Mlp.Props.C03_clipped_reads_back",
    "Mlp.Props.C03_value_error_iff"
   ],
   "note": "Floats are exact binary rationals, decimals as in Python's decimal module without Emax/Emin."
  },
  {
   "property": "C04",
   "status": "proved",
   "theorems": [
    "Mlp.Props.C04_create_decimal_ceiling",
    "Mlp.Props.C04_create_decimal_half_up",
    "Mlp.Props.C04_create_decimal_exact",
    "Mlp.Props.C04_create_decimal_special",
    "Mlp.Props.C04_create_decimal_monotone"
   ],
   "note": "Floats are exact binary rationals, decimals as in Python's decimal module without Emax/Emin."
  },
  {
   "property": "C05",
   "status": "proved",
   "theorems": [
    "Mlp.Props.C05_error_never_understated",
    "Mlp.Props.C05_error_special"
   ],
   "note": "Floats are exact binary rationals, decimals as in Python's decimal module without Emax/Emin."
  },
  {
   "property": "C06",
   "status": "proved",
   "theorems": [
    "Mlp.Props.C06_pval_never_understated",
    "Mlp.Props.C06_pval_assert_never_fails",
    "Mlp.Props.C06_pval_nan",
    "Mlp.Props.C06_pval_rejected",
    "Mlp.Props.C06_pval_accepted"
   ],
   "note": "Floats are exact binary rationals, decimals as in Python's decimal module without Emax/Emin."
  },
  {
   "property": "C07",
   "status": "proved",
   "theorems": [
    "Mlp.Props.C07_mean_half_up_to_error_quantum",
    "Mlp.Props.C07_mean_default_digits"
   ],
   "note": "Floats are exact binary rationals, decimals as in Python's decimal module without Emax/Emin."
  },
  {
   "property": "C08",
   "status": "proved",
   "theorems": [
    "Mlp.Props.C08_decimalize_fits_print"
   ],
   "note": "Floats are exact binary rationals, decimals as in Python's decimal module without Emax/Emin."
  },
  {
   "property": "C09",
   "status": "proved",
   "theorems": [
    "Mlp.Props.C09_eb_limit",
    "Mlp.Props.C09_no_limit",
    "Mlp.Props.C09_clipped_mean",
    "Mlp.Props.C09_clipped_no_parens"
   ],
   "note": "Floats are exact binary rationals, decimals as in Python's decimal module without Emax/Emin."
  },
  {
   "property": "C10",
   "status": "proved",
   "theorems": [
    "Mlp.Props.C10_fails_iff_mean_needs_more_than_28_digits",
    "Mlp.Props.C10_ok_without_quantum",
    "Mlp.Props.C10_infinite_mean_fails",
    "Mlp.Props.C10_negative_error_rejected",
    "Mlp.Props.C10_table"
   ],
   "note": "Floats are exact binary rationals, decimals as in Python's decimal module without Emax/Emin."
  },
  {
   "property": "C11",
   "status": "proved",
   "theorems": [
    "Mlp.Props.C11_print_pval",
    "Mlp.Props.C11_print_pval_other"
   ],
   "note": "Floats are exact binary rationals, decimals as in Python's decimal module without Emax/Emin."
  },
  {
   "property": "C12",
   "status": "proved",
   "theorems": [
    "Mlp.Props.C12_strict_bound",
    "Mlp.Props.C12_printed_not_below"
   ],
   "note": "Floats are exact binary rationals, decimals as in Python's decimal module without Emax/Emin."
  },
  {
   "property": "C13",
   "status": "proved",
   "theorems": [
    "Mlp.Props.C13_shift_range",
    "Mlp.Props.C13_shift_range_rejects"
   ],
   "note": "Decimals as in Python's decimal module without Emax/Emin. The pandas export is in C99-C101."
  },
  {
   "property": "C14",
   "status": "proved",
   "theorems": [
    "Mlp.Props.C14_best_shift",
    "Mlp.Props.C14_tie_order_irrelevant"
   ],
   "note": "Decimals as in Python's decimal module without Emax/Emin. The pandas export is in C99-C101."
  },
  {
   "property": "C15",
   "status": "proved",
   "theorems": [
    "Mlp.Props.C15_chosen_shift_prints",
    "Mlp.Props.C15_find_shift_rejects"
   ],
   "note": "Decimals as in Python's decimal module without Emax/Emin. The pandas export is in C99-C101."
  },
  {
   "property": "C16",
   "status": "proved",
   "theorems": [
    "Mlp.Props.C16_padding_aligns",
    "Mlp.Props.C16_padding_rejects"
   ],
   "note": "Decimals as in Python's decimal module without Emax/Emin. The pandas export is in C99-C101."
  },
  {
   "property": "C17",
   "status": "proved",
   "theorems": [
    "Mlp.Props.C17_floor_mod",
    "Mlp.Props.C17_ceil_mod"
   ],
   "note": "Decimals as in Python's decimal module without Emax/Emin. The pandas export is in C99-C101."
  },
  {
   "property": "C18",
   "status": "proved",
   "theorems": [
    "Mlp.Props.C18_shown_name",
    "Mlp.Props.C18_prefix",
    "Mlp.Props.C18_unitless",
    "Mlp.Props.C18_fallback",
    "Mlp.Props.C18_pval",
    "Mlp.Props.C18_factor",
    "Mlp.Props.C18_headers"
   ],
   "note": "Decimals as in Python's decimal module without Emax/Emin. The pandas export is in C99-C101."
  },
  {
   "property": "C19",
   "status": "proved",
   "theorems": [
    "Mlp.Props.C19_tab_in_tex"
   ],
   "note": "Decimals as in Python's decimal module without Emax/Emin. The pandas export is in C99-C101."
  },
  {
   "property": "C20",
   "status": "proved",
   "theorems": [
    "Mlp.Props.C20_format_column",
    "Mlp.Props.C20_metric_order",
    "Mlp.Props.C20_format_table"
   ],
   "note": "Decimals as in Python's decimal module without Emax/Emin. The pandas export is in C99-C101."
  },
  {
   "property": "C21",
   "status": "proved",
   "theorems": [
    "Mlp.Props.C21_nan_mean",
    "Mlp.Props.C21_infinite_mean",
    "Mlp.Props.C21_infinite_mean_clipped",
    "Mlp.Props.C21_not_to_dot"
   ],
   "note": "Decimals as in Python's decimal module without Emax/Emin. The pandas export is in C99-C101."
  },
  {
   "property": "C22",
   "status": "proved",
   "theorems": [
    "Mlp.Props.C22_cell",
    "Mlp.Props.C22_pval_cell",
    "Mlp.Props.C22_table"
   ],
   "note": "Decimals as in Python's decimal module without Emax/Emin. The pandas export is in C99-C101."
  },
  {
   "property": "C23",
   "status": "proved",
   "theorems": [
    "Mlp.Props.C23_remove_chars",
    "Mlp.Props.C23_remove_chars_unique",
    "Mlp.Props.C23_str_print_len"
   ],
   "note": "Decimals as in Python's decimal module without Emax/Emin. The pandas export is in C99-C101."
  },
  {
   "property": "C24",
   "status": "proved",
   "theorems": [
    "Mlp.Props.C24_decimal_helpers",
    "Mlp.Props.C24_all_same"
   ],
   "note": "Decimals as in Python's decimal module without Emax/Emin. The pandas export is in C99-C101."
  },
  {
   "property": "C25",
   "status": "proved",
   "theorems": [
    "Mlp.Props.C25_partition",
    "Mlp.Props.C25_total"
   ],
   "note": "Random choices are parameters; products and quotients are rounded by an arbitrary monotone rounding where stated, otherwise exact."
  },
  {
   "property": "C26",
   "status": "proved",
   "theorems": [
    "Mlp.Props.C26_conjunction",
    "Mlp.Props.C26_order_independent"
   ],
   "note": "Random choices are parameters; products and quotients are rounded by an arbitrary monotone rounding where stated, otherwise exact."
  },
  {
   "property": "C27",
   "status": "proved",
   "theorems": [
    "Mlp.Props.C27_single",
    "Mlp.Props.C27_default_split"
   ],
   "note": "Random choices are parameters; products and quotients are rounded by an arbitrary monotone rounding where stated, otherwise exact."
  },
  {
   "property": "C28",
   "status": "proved",
   "theorems": [
    "Mlp.Props.C28_rand_subset",
    "Mlp.Props.C28_rand_subset_size",
    "Mlp.Props.C28_every_subset_possible",
    "Mlp.Props.C28_rand_mask",
    "Mlp.Props.C28_empty"
   ],
   "note": "Random choices are parameters; products and quotients are rounded by an arbitrary monotone rounding where stated, otherwise exact."
  },
  {
   "property": "C29",
   "status": "proved",
   "theorems": [
    "Mlp.Props.C29_random_split",
    "Mlp.Props.C29_equal_values"
   ],
   "note": "Random choices are parameters; products and quotients are rounded by an arbitrary monotone rounding where stated, otherwise exact."
  },
  {
   "property": "C30",
   "status": "proved",
   "theorems": [
    "Mlp.Props.C30_assume_unique"
   ],
   "note": "Random choices are parameters; products and quotients are rounded by an arbitrary monotone rounding where stated, otherwise exact."
  },
  {
   "property": "C31",
   "status": "proved",
   "theorems": [
    "Mlp.Props.C31_ordered_split",
    "Mlp.Props.C31_exact_size",
    "Mlp.Props.C31_hints"
   ],
   "note": "Random choices are parameters; products and quotients are rounded by an arbitrary monotone rounding where stated, otherwise exact."
  },
  {
   "property": "C32",
   "status": "proved",
   "theorems": [
    "Mlp.Props.C32_ordered_fails_iff",
    "Mlp.Props.C32_ordered_exact_hit"
   ],
   "note": "Random choices are parameters; products and quotients are rounded by an arbitrary monotone rounding where stated, otherwise exact."
  },
  {
   "property": "C33",
   "status": "proved",
   "theorems": [
    "Mlp.Props.C33_linear_rounded",
    "Mlp.Props.C33_linear",
    "Mlp.Props.C33_linear_consequences",
    "Mlp.Props.C33_hint"
   ],
   "note": "Random choices are parameters; products and quotients are rounded by an arbitrary monotone rounding where stated, otherwise exact."
  },
  {
   "property": "C34",
   "status": "proved",
   "theorems": [
    "Mlp.Props.C34_linear_split",
    "Mlp.Props.C34_linear_infinite",
    "Mlp.Props.C34_linear_infinite_sorted",
    "Mlp.Props.C34_linear_empty",
    "Mlp.Props.C34_ordered_split",
    "Mlp.Props.C34_ordered_split_empty",
    "Mlp.Props.C34_rand_bad_frac",
    "Mlp.Props.C34_random_split",
    "Mlp.Props.C34_split_df_assert",
    "Mlp.Props.C34_split_df_propagates",
    "Mlp.Props.C34_split_df_key_error"
   ],
   "note": "Random choices are parameters; products and quotients are rounded by an arbitrary monotone rounding where stated, otherwise exact."
  },
  {
   "property": "C35",
   "status": "proved",
   "theorems": [
    "Mlp.Props.C35_build_lag_df",
    "Mlp.Props.C35_lag_frame"
   ],
   "note": "Random choices are parameters; products and quotients are rounded by an arbitrary monotone rounding where stated, otherwise exact."
  },
  {
   "property": "C36",
   "status": "proved",
   "theorems": [
    "Mlp.Props.C36_weights",
    "Mlp.Props.C36_floor",
    "Mlp.Props.C36_reject",
    "Mlp.Props.C36_resample"
   ],
   "note": "Finite floats are exact (no rounding error); special values follow IEEE. Bootstrap draws are parameters: every outcome is covered."
  },
  {
   "property": "C37",
   "status": "proved",
   "theorems": [
    "Mlp.Props.C37_percentiles",
    "Mlp.Props.C37_reject"
   ],
   "note": "Finite floats are exact (no rounding error); special values follow IEEE. Bootstrap draws are parameters: every outcome is covered."
  },
  {
   "property": "C38",
   "status": "proved",
   "theorems": [
    "Mlp.Props.C38_percentile",
    "Mlp.Props.C38_order",
    "Mlp.Props.C38_reject"
   ],
   "note": "Finite floats are exact (no rounding error); special values follow IEEE. Bootstrap draws are parameters: every outcome is covered."
  },
  {
   "property": "C39",
   "status": "proved",
   "theorems": [
    "Mlp.Props.C39_nested",
    "Mlp.Props.C39_error_bar"
   ],
   "note": "Finite floats are exact (no rounding error); special values follow IEEE. Bootstrap draws are parameters: every outcome is covered."
  },
  {
   "property": "C40",
   "status": "proved",
   "theorems": [
    "Mlp.Props.C40_error_bar",
    "Mlp.Props.C40_finite"
   ],
   "note": "Finite floats are exact (no rounding error); special values follow IEEE. Bootstrap draws are parameters: every outcome is covered."
  },
  {
   "property": "C41",
   "status": "proved",
   "theorems": [
    "Mlp.Props.C41_scalar_is_constant",
    "Mlp.Props.C41_scalar",
    "Mlp.Props.C41_paired",
    "Mlp.Props.C41_swap",
    "Mlp.Props.C41_negate",
    "Mlp.Props.C41_shift",
    "Mlp.Props.C41_order",
    "Mlp.Props.C41_difference",
    "Mlp.Props.C41_zero",
    "Mlp.Props.C41_reject"
   ],
   "note": "Finite floats are exact (no rounding error); special values follow IEEE. Bootstrap draws are parameters: every outcome is covered."
  },
  {
   "property": "C42",
   "status": "proved",
   "theorems": [
    "Mlp.Props.C42_outside_significant"
   ],
   "note": "Finite floats are exact (no rounding error); special values follow IEEE. Bootstrap draws are parameters: every outcome is covered."
  },
  {
   "property": "C43",
   "status": "proved",
   "theorems": [
    "Mlp.Props.C43_converse_bound",
    "Mlp.Props.C43_converse_fails"
   ],
   "note": "Finite floats are exact (no rounding error); special values follow IEEE. Bootstrap draws are parameters: every outcome is covered."
  },
  {
   "property": "C44",
   "status": "proved",
   "theorems": [
    "Mlp.Props.C44_value_error",
    "Mlp.Props.C44_reject",
    "Mlp.Props.C44_clip",
    "Mlp.Props.C44_nan_estimate",
    "Mlp.Props.C44_infinite_estimate"
   ],
   "note": "Finite floats are exact (no rounding error); special values follow IEEE. Bootstrap draws are parameters: every outcome is covered."
  },
  {
   "property": "C45",
   "status": "proved",
   "theorems": [
    "Mlp.Props.C45_uninformative",
    "Mlp.Props.C45_t_test",
    "Mlp.Props.C45_t_EB",
    "Mlp.Props.C45_agree",
    "Mlp.Props.C45_zero",
    "Mlp.Props.C45_mono",
    "Mlp.Props.C45_student"
   ],
   "note": "Finite floats are exact (no rounding error); special values follow IEEE. The reference distribution is abstract (symmetric, continuous, strictly increasing); C45_student is for Student's t distribution itself."
  },
  {
   "property": "C46",
   "status": "proved",
   "theorems": [
    "Mlp.Props.C46_agree"
   ],
   "note": "Finite floats are exact (no rounding error); special values follow IEEE."
  },
  {
   "property": "C47",
   "status": "proved",
   "theorems": [
    "Mlp.Props.C47_bernstein_test",
    "Mlp.Props.C47_bernstein_EB",
    "Mlp.Props.C47_mono",
    "Mlp.Props.C47_degenerate",
    "Mlp.Props.C47_reject"
   ],
   "note": "Finite floats are exact (no rounding error); special values follow IEEE."
  },
  {
   "property": "C48",
   "status": "proved",
   "theorems": [
    "Mlp.Props.C48_shared",
    "Mlp.Props.C48_uninformative"
   ],
   "note": "Finite floats are exact (no rounding error); special values follow IEEE."
  },
  {
   "property": "C49",
   "status": "proved",
   "theorems": [
    "Mlp.Props.C49_agree",
    "Mlp.Props.C49_reject",
    "Mlp.Props.C49_dispatch"
   ],
   "note": "Finite floats are exact (no rounding error); special values follow IEEE."
  },
  {
   "property": "C50",
   "status": "proved",
   "theorems": [
    "Mlp.Props.C50_mean_and_EB",
    "Mlp.Props.C50_bar_value",
    "Mlp.Props.C50_reject"
   ],
   "note": "Finite floats are exact (no rounding error); special values follow IEEE."
  },
  {
   "property": "C51",
   "status": "proved",
   "theorems": [
    "Mlp.Props.C51_cells",
    "Mlp.Props.C51_p_missing",
    "Mlp.Props.C51_mean_unaffected",
    "Mlp.Props.C51_finite_mean"
   ],
   "note": "Finite floats are exact (no rounding error); special values follow IEEE."
  },
  {
   "property": "C52",
   "status": "proved",
   "theorems": [
    "Mlp.Props.C52_reject",
    "Mlp.Props.C52_reject_cell",
    "Mlp.Props.C52_success",
    "Mlp.Props.C52_same_infinity"
   ],
   "note": "Finite floats are exact (no rounding error); special values follow IEEE."
  },
  {
   "property": "C53",
   "status": "proved",
   "theorems": [
    "Mlp.Props.C53_row_order"
   ],
   "note": "Finite floats are exact (no rounding error); special values follow IEEE."
  },
  {
   "property": "C54",
   "status": "proved",
   "theorems": [
    "Mlp.Props.C54_one_hot",
    "Mlp.Props.C54_reject"
   ],
   "note": "Finite floats are exact (no rounding error); special values follow IEEE."
  },
  {
   "property": "C55",
   "status": "proved",
   "theorems": [
    "Mlp.Props.C55_normalize",
    "Mlp.Props.C55_unique",
    "Mlp.Props.C55_shift_invariant",
    "Mlp.Props.C55_fixed",
    "Mlp.Props.C55_idempotent",
    "Mlp.Props.C55_improper",
    "Mlp.Props.C55_reject"
   ],
   "note": "Finite floats are exact (no rounding error); special values follow IEEE."
  },
  {
   "property": "C56",
   "status": "proved",
   "theorems": [
    "Mlp.Props.C56_noise",
    "Mlp.Props.C56_reject"
   ],
   "note": "Finite floats are exact (no rounding error); special values follow IEEE."
  },
  {
   "property": "C57",
   "status": "proved",
   "theorems": [
    "Mlp.Props.C57_take_last",
    "Mlp.Props.C57_reject"
   ],
   "note": "Finite floats are exact (no rounding error); special values follow IEEE."
  },
  {
   "property": "C58",
   "status": "proved",
   "theorems": [
    "Mlp.Props.C58_strict",
    "Mlp.Props.C58_least",
    "Mlp.Props.C58_unchanged",
    "Mlp.Props.C58_reject"
   ],
   "note": "The successor function on floats is abstract, so the theorems also hold for the real nextafter."
  },
  {
   "property": "C59",
   "status": "proved",
   "theorems": [
    "Mlp.Props.C59_step",
    "Mlp.Props.C59_duplicate",
    "Mlp.Props.C59_before",
    "Mlp.Props.C59_shape",
    "Mlp.Props.C59_order"
   ],
   "note": "Finite floats are exact (no rounding error); special values follow IEEE."
  },
  {
   "property": "C60",
   "status": "proved",
   "theorems": [
    "Mlp.Props.C60_previous",
    "Mlp.Props.C60_previous_reject",
    "Mlp.Props.C60_next",
    "Mlp.Props.C60_reject",
    "Mlp.Props.C60_linear",
    "Mlp.Props.C60_linear_outside",
    "Mlp.Props.C60_between",
    "Mlp.Props.C60_through"
   ],
   "note": "Finite floats are exact (no rounding error); special values follow IEEE."
  },
  {
   "property": "C61",
   "status": "proved",
   "theorems": [
    "Mlp.Props.C61_area",
    "Mlp.Props.C61_split",
    "Mlp.Props.C61_insert",
    "Mlp.Props.C61_linear_in_y",
    "Mlp.Props.C61_bounds",
    "Mlp.Props.C61_reject",
    "Mlp.Props.C61_kind",
    "Mlp.Props.C61_zero_width",
    "Mlp.Props.C61_integral_previous",
    "Mlp.Props.C61_integral_linear"
   ],
   "note": "Finite floats are exact (no rounding error); special values follow IEEE."
  },
  {
   "property": "C62",
   "status": "proved",
   "theorems": [
    "Mlp.Props.C62_clip_chk",
    "Mlp.Props.C62_scalar"
   ],
   "note": "Finite floats are exact (no rounding error); special values follow IEEE."
  },
  {
   "property": "C63",
   "status": "proved",
   "theorems": [
    "Mlp.Props.C63_counts",
    "Mlp.Props.C63_counts_any",
    "Mlp.Props.C63_reject"
   ],
   "note": "Finite floats are exact (no rounding error); special values follow IEEE. The sort is stable as in the code; C65 shows that the order of the samples does not matter."
  },
  {
   "property": "C64",
   "status": "proved",
   "theorems": [
    "Mlp.Props.C64_roc",
    "Mlp.Props.C64_recall_precision",
    "Mlp.Props.C64_prg",
    "Mlp.Props.C64_rises"
   ],
   "note": "Finite floats are exact (no rounding error); special values follow IEEE. The sort is stable as in the code; C65 shows that the order of the samples does not matter."
  },
  {
   "property": "C65",
   "status": "proved",
   "theorems": [
    "Mlp.Props.C65_counts",
    "Mlp.Props.C65_curves"
   ],
   "note": "Finite floats are exact (no rounding error); special values follow IEEE. The sort is stable as in the code; C65 shows that the order of the samples does not matter."
  },
  {
   "property": "C66",
   "status": "proved",
   "theorems": [
    "Mlp.Props.C66_counts",
    "Mlp.Props.C66_curves"
   ],
   "note": "Finite floats are exact (no rounding error); special values follow IEEE. The sort is stable as in the code; C65 shows that the order of the samples does not matter."
  },
  {
   "property": "C67",
   "status": "proved",
   "theorems": [
    "Mlp.Props.C67_replicate",
    "Mlp.Props.C67_replicate_curves",
    "Mlp.Props.C67_scale",
    "Mlp.Props.C67_rows",
    "Mlp.Props.C67_unweighted"
   ],
   "note": "Finite floats are exact (no rounding error); special values follow IEEE. The sort is stable as in the code; C65 shows that the order of the samples does not matter."
  },
  {
   "property": "C68",
   "status": "proved",
   "theorems": [
    "Mlp.Props.C68_mann_whitney"
   ],
   "note": "Finite floats are exact (no rounding error); special values follow IEEE. The sort is stable as in the code; C65 shows that the order of the samples does not matter."
  },
  {
   "property": "C69",
   "status": "proved",
   "theorems": [
    "Mlp.Props.C69_bounds",
    "Mlp.Props.C69_flip",
    "Mlp.Props.C69_negate",
    "Mlp.Props.C69_constant",
    "Mlp.Props.C69_perfect"
   ],
   "note": "Finite floats are exact (no rounding error); special values follow IEEE. The sort is stable as in the code; C65 shows that the order of the samples does not matter."
  },
  {
   "property": "C70",
   "status": "proved",
   "theorems": [
    "Mlp.Props.C70_roc",
    "Mlp.Props.C70_precision"
   ],
   "note": "Finite floats are exact (no rounding error); special values follow IEEE. The sort is stable as in the code; C65 shows that the order of the samples does not matter."
  },
  {
   "property": "C71",
   "status": "proved",
   "theorems": [
    "Mlp.Props.C71_precision",
    "Mlp.Props.C71_area"
   ],
   "note": "Finite floats are exact (no rounding error); special values follow IEEE. The sort is stable as in the code; C65 shows that the order of the samples does not matter."
  },
  {
   "property": "C72",
   "status": "proved",
   "theorems": [
    "Mlp.Props.C72_recall_gain",
    "Mlp.Props.C72_precision_gain",
    "Mlp.Props.C72_rises"
   ],
   "note": "Finite floats are exact (no rounding error); special values follow IEEE. The sort is stable as in the code; C65 shows that the order of the samples does not matter."
  },
  {
   "property": "C73",
   "status": "proved",
   "theorems": [
    "Mlp.Props.C73_area"
   ],
   "note": "Finite floats are exact (no rounding error); special values follow IEEE. The sort is stable as in the code; C65 shows that the order of the samples does not matter."
  },
  {
   "property": "C74",
   "status": "proved",
   "theorems": [
    "Mlp.Props.C74_reject",
    "Mlp.Props.C74_reject_matrix",
    "Mlp.Props.C74_bayes",
    "Mlp.Props.C74_zero_one"
   ],
   "note": "Finite floats are exact (no rounding error); special values follow IEEE."
  },
  {
   "property": "C75",
   "status": "proved",
   "theorems": [
    "Mlp.Props.C75_value",
    "Mlp.Props.C75_nonneg",
    "Mlp.Props.C75_proper"
   ],
   "note": "Finite floats are exact (no rounding error); special values follow IEEE."
  },
  {
   "property": "C76",
   "status": "proved",
   "theorems": [
    "Mlp.Props.C76_value",
    "Mlp.Props.C76_range",
    "Mlp.Props.C76_uniform",
    "Mlp.Props.C76_proper"
   ],
   "note": "Finite floats are exact (no rounding error); special values follow IEEE."
  },
  {
   "property": "C77",
   "status": "proved",
   "theorems": [
    "Mlp.Props.C77_value",
    "Mlp.Props.C77_shift",
    "Mlp.Props.C77_range",
    "Mlp.Props.C77_uniform",
    "Mlp.Props.C77_proper"
   ],
   "note": "Finite floats are exact (no rounding error); special values follow IEEE."
  },
  {
   "property": "C78",
   "status": "proved",
   "theorems": [
    "Mlp.Props.C78_shift",
    "Mlp.Props.C78_nan",
    "Mlp.Props.C78_nan_assertion"
   ],
   "note": "Finite floats are exact (no rounding error); special values follow IEEE."
  },
  {
   "property": "C79",
   "status": "proved",
   "theorems": [
    "Mlp.Props.C79_columns",
    "Mlp.Props.C79_local",
    "Mlp.Props.C79_success_on",
    "Mlp.Props.C79_success",
    "Mlp.Props.C79_reject"
   ],
   "note": "Finite floats are exact (no rounding error); special values follow IEEE."
  },
  {
   "property": "C80",
   "status": "proved",
   "theorems": [
    "Mlp.Props.C80_noise",
    "Mlp.Props.C80_empty",
    "Mlp.Props.C80_optimal",
    "Mlp.Props.C80_reject",
    "Mlp.Props.C80_bool",
    "Mlp.Props.C80_method",
    "Mlp.Props.C80_table"
   ],
   "note": "Finite floats are exact (no rounding error); special values follow IEEE. Estimators are arbitrary functions; bootstrap draws are parameters."
  },
  {
   "property": "C81",
   "status": "proved",
   "theorems": [
    "Mlp.Props.C81_checks",
    "Mlp.Props.C81_table",
    "Mlp.Props.C81_normalised",
    "Mlp.Props.C81_floor",
    "Mlp.Props.C81_success",
    "Mlp.Props.C81_wrong_shape"
   ],
   "note": "Finite floats are exact (no rounding error); special values follow IEEE. Estimators are arbitrary functions; bootstrap draws are parameters."
  },
  {
   "property": "C82",
   "status": "proved",
   "theorems": [
    "Mlp.Props.C82_result",
    "Mlp.Props.C82_success",
    "Mlp.Props.C82_coherent",
    "Mlp.Props.C82_self",
    "Mlp.Props.C82_reject",
    "Mlp.Props.C82_finite"
   ],
   "note": "Finite floats are exact (no rounding error); special values follow IEEE. Estimators are arbitrary functions; bootstrap draws are parameters."
  },
  {
   "property": "C83",
   "status": "proved",
   "theorems": [
    "Mlp.Props.C83_cells",
    "Mlp.Props.C83_dump",
    "Mlp.Props.C83_missing",
    "Mlp.Props.C83_error_missing",
    "Mlp.Props.C83_success",
    "Mlp.Props.C83_reject",
    "Mlp.Props.C83_local"
   ],
   "note": "Finite floats are exact (no rounding error); special values follow IEEE. Estimators are arbitrary functions; bootstrap draws are parameters."
  },
  {
   "property": "C84",
   "status": "proved",
   "theorems": [
    "Mlp.Props.C84_cells",
    "Mlp.Props.C84_success",
    "Mlp.Props.C84_success_std",
    "Mlp.Props.C84_reject"
   ],
   "note": "Finite floats are exact (no rounding error); special values follow IEEE. Estimators are arbitrary functions; bootstrap draws are parameters."
  },
  {
   "property": "C85",
   "status": "proved",
   "theorems": [
    "Mlp.Props.C85_accepts",
    "Mlp.Props.C85_reject",
    "Mlp.Props.C85_square",
    "Mlp.Props.C85_abs",
    "Mlp.Props.C85_log",
    "Mlp.Props.C85_density",
    "Mlp.Props.C85_square_abs"
   ],
   "note": "Finite floats are exact (no rounding error); special values follow IEEE. Estimators are arbitrary functions."
  },
  {
   "property": "C86",
   "status": "proved",
   "theorems": [
    "Mlp.Props.C86_mean",
    "Mlp.Props.C86_scale",
    "Mlp.Props.C86_sample",
    "Mlp.Props.C86_square"
   ],
   "note": "Finite floats are exact (no rounding error); special values follow IEEE. Estimators are arbitrary functions."
  },
  {
   "property": "C87",
   "status": "proved",
   "theorems": [
    "Mlp.Props.C87_accepts",
    "Mlp.Props.C87_fit",
    "Mlp.Props.C87_predict",
    "Mlp.Props.C87_degenerate"
   ],
   "note": "Finite floats are exact (no rounding error); special values follow IEEE. Estimators are arbitrary functions."
  },
  {
   "property": "C88",
   "status": "proved",
   "theorems": [
    "Mlp.Props.C88_method",
    "Mlp.Props.C88_method_error",
    "Mlp.Props.C88_checks",
    "Mlp.Props.C88_reject",
    "Mlp.Props.C88_table",
    "Mlp.Props.C88_local",
    "Mlp.Props.C88_success",
    "Mlp.Props.C88_error",
    "Mlp.Props.C88_noise"
   ],
   "note": "Finite floats are exact (no rounding error); special values follow IEEE. Estimators are arbitrary functions."
  },
  {
   "property": "C89",
   "status": "proved",
   "theorems": [
    "Mlp.Props.C89_columns",
    "Mlp.Props.C89_local",
    "Mlp.Props.C89_success",
    "Mlp.Props.C89_reject",
    "Mlp.Props.C89_missing",
    "Mlp.Props.C89_error",
    "Mlp.Props.C89_repeated",
    "Mlp.Props.C89_standard"
   ],
   "note": "Finite floats are exact (no rounding error); special values follow IEEE. Estimators are arbitrary functions."
  },
  {
   "property": "C90",
   "status": "proved",
   "theorems": [
    "Mlp.Props.C90_class_sound",
    "Mlp.Props.C90_class_plain",
    "Mlp.Props.C90_class_resume",
    "Mlp.Props.C90_class_trained",
    "Mlp.Props.C90_class_monotone",
    "Mlp.Props.C90_class_progress",
    "Mlp.Props.C90_class_objects",
    "Mlp.Props.C90_class_idle",
    "Mlp.Props.C90_regr_sound",
    "Mlp.Props.C90_regr_plain",
    "Mlp.Props.C90_regr_resume",
    "Mlp.Props.C90_regr_trained",
    "Mlp.Props.C90_regr_monotone",
    "Mlp.Props.C90_regr_progress",
    "Mlp.Props.C90_regr_objects",
    "Mlp.Props.C90_regr_idle",
    "Mlp.Props.C90_refit"
   ],
   "note": "joblib's store is keyed by the arguments themselves (no hash collisions); a partly written result does not load."
  },
  {
   "property": "C91",
   "status": "proved",
   "theorems": [
    "Mlp.Props.C91_class",
    "Mlp.Props.C91_class_standard",
    "Mlp.Props.C91_class_reject",
    "Mlp.Props.C91_sym_logLoss",
    "Mlp.Props.C91_sym_brierLoss",
    "Mlp.Props.C91_sym_sphericalLoss",
    "Mlp.Props.C91_sym_hardLoss",
    "Mlp.Props.C91_sym_class",
    "Mlp.Props.C91_class_order",
    "Mlp.Props.C91_regr",
    "Mlp.Props.C91_regr_reject",
    "Mlp.Props.C91_regr_standard",
    "Mlp.Props.C91_sym_square",
    "Mlp.Props.C91_sym_abs",
    "Mlp.Props.C91_sym_log",
    "Mlp.Props.C91_sym_std",
    "Mlp.Props.C91_regr_order"
   ],
   "note": "Finite floats are exact (no rounding error); special values follow IEEE. Estimators are arbitrary functions; bootstrap draws are parameters."
  },
  {
   "property": "C92",
   "status": "proved",
   "theorems": [
    "Mlp.Props.C92_zero_fails",
    "Mlp.Props.C92_floor"
   ],
   "note": "Finite floats are exact (no rounding error); special values follow IEEE. Estimators are arbitrary functions; bootstrap draws are parameters."
  },
  {
   "property": "C93",
   "status": "proved",
   "theorems": [
    "Mlp.Props.C93_strict",
    "Mlp.Props.C93_coverage",
    "Mlp.Props.C93_test",
    "Mlp.Props.C93_mean_and_EB"
   ],
   "note": "Finite floats are exact (no rounding error). The data are random variables on a probability space, independent across points or rows, bounded, with equal means."
  },
  {
   "property": "C94",
   "status": "proved",
   "theorems": [
    "Mlp.Props.C94_error_bar",
    "Mlp.Props.C94_pairwise",
    "Mlp.Props.C94_p_value"
   ],
   "note": "Finite floats are exact (no rounding error). The data are random variables on a probability space, independent across points or rows, bounded, with equal means."
  },
  {
   "property": "C95",
   "status": "proved",
   "theorems": [
    "Mlp.Props.C95_t_EB_exact",
    "Mlp.Props.C95_t_test_exact",
    "Mlp.Props.C95_mean_and_EB"
   ],
   "note": "Finite floats are exact (no rounding error). The t distribution is the one constructed in Lemmas/StudentT.lean. Independent normal data."
  },
  {
   "property": "C96",
   "status": "proved",
   "theorems": [
    "Mlp.Props.C96_error_bar",
    "Mlp.Props.C96_pairwise",
    "Mlp.Props.C96_p_value"
   ],
   "note": "Finite floats are exact (no rounding error). The t distribution is the one constructed in Lemmas/StudentT.lean. Independent normal losses or differences."
  },
  {
   "property": "C97",
   "status": "proved",
   "theorems": [
    "Mlp.Props.C97_rand_subset",
    "Mlp.Props.C97_rand_mask",
    "Mlp.Props.C97_random_split",
    "Mlp.Props.C97_row",
    "Mlp.Props.C97_row_unique"
   ],
   "note": "numpy's permutation(n) is taken to be uniform; the pseudo random generator is not modelled."
  },
  {
   "property": "C98",
   "status": "proved",
   "theorems": [
    "Mlp.Props.C98_weights",
    "Mlp.Props.C98_mean",
    "Mlp.Props.C98_boot_EB"
   ],
   "note": "Moments of a replicate; coverage of the bootstrap interval has no finite sample guarantee and none is claimed."
  },
  {
   "property": "C99",
   "status": "proved",
   "theorems": [
    "Mlp.Props.C99_latex",
    "Mlp.Props.C99_scale_header"
   ],
   "note": "The pandas layout (to_latex of pandas 0.24) is written from knowledge of its source, which is not available here; it agrees with the sample output in README.rst up to blanks next to the empty corner."
  },
  {
   "property": "C100",
   "status": "proved",
   "theorems": [
    "Mlp.Props.C100_text",
    "Mlp.Props.C100_aligned",
    "Mlp.Props.C100_layout"
   ],
   "note": "The pandas layout (to_string of pandas 0.24) is written from knowledge of its source, see C99."
  },
  {
   "property": "C101",
   "status": "proved",
   "theorems": [
    "Mlp.Props.C101_field",
    "Mlp.Props.C101_text",
    "Mlp.Props.C101_latex"
   ],
   "note": "The limit is the default display.max_colwidth of pandas 0.24, see C99."
  },
  {
   "property": "C102",
   "status": "proved",
   "theorems": [
    "Mlp.Props.C102_decision",
    "Mlp.Props.C102_reject",
    "Mlp.Props.C102_loss"
   ],
   "note": "Losses of minus infinity or NaN are outside the statement."
  },
  {
   "property": "C103",
   "status": "proved",
   "theorems": [
    "Mlp.Props.C103_wide_mean"
   ],
   "note": "decimalize never produces such a mean together with a finite error (C07), so this concerns direct calls of print_estimate and format_table."
  },
  {
   "property": "C104",
   "status": "proved",
   "theorems": [
    "Mlp.Props.C104_roc",
    "Mlp.Props.C104_recall_precision",
    "Mlp.Props.C104_prg",
    "Mlp.Props.C104_failure"
   ],
   "note": "rounding is a parameter; binary64 with unbounded exponents is an instance; overflow and underflow are not modelled"
  },
  {
   "property": "C105",
   "status": "proved",
   "theorems": [
    "Mlp.Props.C105_unweighted",
    "Mlp.Props.C105_weighted",
    "Mlp.Props.C105_recall_precision",
    "Mlp.Props.C105_unweighted_double",
    "Mlp.Props.C105_bootstrap",
    "Mlp.Props.C105_fails",
    "Mlp.Props.C105_precision_fails"
   ],
   "note": "bounds are sufficient, not necessary; overflow and underflow are not modelled"
  },
  {
   "property": "C106",
   "status": "proved",
   "theorems": [
    "Mlp.Props.C106_roc",
    "Mlp.Props.C106_unweighted"
   ],
   "note": "overflow and underflow are not modelled"
  },
  {
   "property": "C107",
   "status": "proved",
   "theorems": [
    "Mlp.Props.C107_interval",
    "Mlp.Props.C107_nested",
    "Mlp.Props.C107_error_bar",
    "Mlp.Props.C107_basic",
    "Mlp.Props.C107_paired",
    "Mlp.Props.C107_pvalue",
    "Mlp.Props.C107_positions",
    "Mlp.Props.C107_exact",
    "Mlp.Props.C107_coherent",
    "Mlp.Props.C107_default"
   ],
   "note": "rounding is a parameter, binary64 an instance; overflow and underflow are not modelled"
  },
  {
   "property": "C108",
   "status": "proved",
   "theorems": [
    "Mlp.Props.C108_mean_outside",
    "Mlp.Props.C108_mean_and_EB",
    "Mlp.Props.C108_test",
    "Mlp.Props.C108_combined",
    "Mlp.Props.C108_cell",
    "Mlp.Props.C108_table"
   ],
   "note": "library functions are parameters with the contracts GoodLib, met by doubleLib; overflow and underflow are not modelled"
  },
  {
   "property": "C109",
   "status": "proved",
   "theorems": [
    "Mlp.Props.C109_fails",
    "Mlp.Props.C109_integer_limit",
    "Mlp.Props.C109_cell",
    "Mlp.Props.C109_table",
    "Mlp.Props.C109_at_most",
    "Mlp.Props.C109_at_least",
    "Mlp.Props.C109_table_grid"
   ],
   "note": "library functions are parameters with the contracts GoodLib, met by doubleLib; overflow and underflow are not modelled"
  },
  {
   "property": "C110",
   "status": "proved",
   "theorems": [
    "Mlp.Props.C110_roc",
    "Mlp.Props.C110_recall_precision",
    "Mlp.Props.C110_prg",
    "Mlp.Props.C110_percentile",
    "Mlp.Props.C110_basic",
    "Mlp.Props.C110_error_bar",
    "Mlp.Props.C110_significance",
    "Mlp.Props.C110_clip_chk",
    "Mlp.Props.C110_clip_EB",
    "Mlp.Props.C110_t_test",
    "Mlp.Props.C110_t_EB",
    "Mlp.Props.C110_bernstein_test",
    "Mlp.Props.C110_bernstein_EB",
    "Mlp.Props.C110_boot_EB_test",
    "Mlp.Props.C110_boot_test",
    "Mlp.Props.C110_boot_EB",
    "Mlp.Props.C110_mean_EB",
    "Mlp.Props.C110_test",
    "Mlp.Props.C110_mean_EB_test",
    "Mlp.Props.C110_table"
   ],
   "note": "relates the two models of the same code"
  },
  {
   "property": "C111",
   "status": "proved",
   "theorems": [
    "Mlp.Props.C111_mean",
    "Mlp.Props.C111_table",
    "Mlp.Props.C111_scale"
   ],
   "note": "overflow and underflow are not modelled"
  },
  {
   "property": "C112",
   "status": "proved",
   "theorems": [
    "Mlp.Props.C112_reject",
    "Mlp.Props.C112_accept",
    "Mlp.Props.C112_grid",
    "Mlp.Props.C112_curve_boot"
   ],
   "note": "y values of -inf are accepted, as PRG curves need"
  },
  {
   "property": "C113",
   "status": "proved",
   "theorems": [
    "Mlp.Props.C113_area",
    "Mlp.Props.C113_step",
    "Mlp.Props.C113_interp",
    "Mlp.Props.C113_curve_boot",
    "Mlp.Props.C113_table"
   ],
   "note": "overflow and underflow are not modelled"
  },
  {
   "property": "C114",
   "status": "proved",
   "theorems": [
    "Mlp.Props.C114_check",
    "Mlp.Props.C114_take_last",
    "Mlp.Props.C114_step",
    "Mlp.Props.C114_previous",
    "Mlp.Props.C114_area",
    "Mlp.Props.C114_linear"
   ],
   "note": "np.interp and np.trapz as in numpy 1.15; no overflow or underflow"
  },
  {
   "property": "C115",
   "status": "proved",
   "theorems": [
    "Mlp.Props.C115_prg_unit",
    "Mlp.Props.C115_double",
    "Mlp.Props.C115_result",
    "Mlp.Props.C115_self",
    "Mlp.Props.C115_coherent",
    "Mlp.Props.C115_paired",
    "Mlp.Props.C115_success",
    "Mlp.Props.C115_table_cells",
    "Mlp.Props.C115_table_dump",
    "Mlp.Props.C115_table_missing",
    "Mlp.Props.C115_table_reject",
    "Mlp.Props.C115_table_success"
   ],
   "note": "larger samples are not covered because C105 bounds the rounding of the cumulative sums in the worst case"
  },
  {
   "property": "C116",
   "status": "proved",
   "theorems": [
    "Mlp.Props.C116_double",
    "Mlp.Props.C116_bootstrap",
    "Mlp.Props.C116_curve_boot",
    "Mlp.Props.C116_roc",
    "Mlp.Props.C116_unweighted"
   ],
   "note": "replicates that drew no negative sample are not covered by the bound: their false positive rates are ratios of sums of tiny weights added after large ones"
  },
  {
   "property": "C117",
   "status": "proved",
   "theorems": [
    "Mlp.Props.C117_statistic",
    "Mlp.Props.C117_area",
    "Mlp.Props.C117_double"
   ],
   "note": ""
  },
  {
   "property": "C118",
   "status": "proved",
   "theorems": [
    "Mlp.Props.C118_cell",
    "Mlp.Props.C118_floats",
    "Mlp.Props.C118_not_a_number",
    "Mlp.Props.C118_unscaled",
    "Mlp.Props.C118_criterion",
    "Mlp.Props.C118_pipeline"
   ],
   "note": "Error bars and estimates are the exact values of the floats. The pipeline theorem is about the floating point model of loss_summary_table with pairwise_CI."
  },
  {
   "property": "C119",
   "status": "proved",
   "theorems": [
    "Mlp.Props.C119_normalize",
    "Mlp.Props.C119_decision",
    "Mlp.Props.C119_hard_loss",
    "Mlp.Props.C119_brier_loss",
    "Mlp.Props.C119_spherical_loss",
    "Mlp.Props.C119_std_class_loss",
    "Mlp.Props.C119_loss_table",
    "Mlp.Props.C119_class_noise",
    "Mlp.Props.C119_predictions",
    "Mlp.Props.C119_summary_table",
    "Mlp.Props.C119_std_curves",
    "Mlp.Props.C119_class_benchmark",
    "Mlp.Props.C119_square_loss",
    "Mlp.Props.C119_abs_loss",
    "Mlp.Props.C119_log_loss",
    "Mlp.Props.C119_std_regr_loss",
    "Mlp.Props.C119_regr_noise",
    "Mlp.Props.C119_regr_benchmark"
   ],
   "note": "Anything proved about the rounded model for all libraries, as in C120, therefore holds of the exact model too, and the rounded model does the same steps as the code in the same order."
  },
  {
   "property": "C120",
   "status": "proved",
   "theorems": [
    "Mlp.Props.C120_log",
    "Mlp.Props.C120_zero_one_double",
    "Mlp.Props.C120_normalize",
    "Mlp.Props.C120_brier",
    "Mlp.Props.C120_brier_certain",
    "Mlp.Props.C120_sphere",
    "Mlp.Props.C120_normalize_certain",
    "Mlp.Props.C120_sphere_certain",
    "Mlp.Props.C120_hard",
    "Mlp.Props.C120_zero_one",
    "Mlp.Props.C120_near_optimal",
    "Mlp.Props.C120_zero_one_certain"
   ],
   "note": "Overflow and underflow are not modelled. `DotError` covers any order of additions and fused operations of np.dot."
  },
  {
   "property": "C121",
   "status": "proved",
   "theorems": [
    "Mlp.Props.C121_loss_summary",
    "Mlp.Props.C121_curve_range",
    "Mlp.Props.C121_layout",
    "Mlp.Props.C121_summary",
    "Mlp.Props.C121_benchmark",
    "Mlp.Props.C121_noise",
    "Mlp.Props.C121_columns",
    "Mlp.Props.C121_loss_table",
    "Mlp.Props.C121_predictions"
   ],
   "note": "The example runs the theorem for JustNoise and a classifier that excludes a label, in double precision. Overflow and underflow are not modelled; `np.sum` may add in any order; np.log must return floats."
  },
  {
   "property": "C122",
   "status": "proved",
   "theorems": [
    "Mlp.Props.C122_loss_table",
    "Mlp.Props.C122_benchmark",
    "Mlp.Props.C122_noise_fit",
    "Mlp.Props.C122_noise_predict",
    "Mlp.Props.C122_noise_degenerate",
    "Mlp.Props.C122_noise_accident",
    "Mlp.Props.C122_log_double",
    "Mlp.Props.C122_reject",
    "Mlp.Props.C122_abs",
    "Mlp.Props.C122_square",
    "Mlp.Props.C122_square_abs",
    "Mlp.Props.C122_closer",
    "Mlp.Props.C122_log"
   ],
   "note": "Overflow and underflow are not modelled: a computed variance is 0 only if all targets equal the mean. `scipy.stats.norm.logpdf` is modelled with the float next to pi. np.sum may add in any order."
  },
  {
   "property": "C123",
   "status": "proved",
   "theorems": [
    "Mlp.Props.C123_copy",
    "Mlp.Props.C123_inplace",
    "Mlp.Props.C123_inplace_above",
    "Mlp.Props.C123_unchanged"
   ],
   "note": "Different references of the heap never share entries (no numpy views)."
  },
  {
   "property": "C124",
   "status": "proved",
   "theorems": [
    "Mlp.Props.C124_template",
    "Mlp.Props.C124_default_strings",
    "Mlp.Props.C124_lone_brace",
    "Mlp.Props.C124_bad_name",
    "Mlp.Props.C124_many",
    "Mlp.Props.C124_mixed",
    "Mlp.Props.C124_default",
    "Mlp.Props.C124_estimate",
    "Mlp.Props.C124_pval"
   ],
   "note": "`Decimal.__format__` is a parameter of which only the meaning of `,f` is used."
  },
  {
   "property": "C125",
   "status": "proved",
   "theorems": [
    "Mlp.Props.C125_logsumexp",
    "Mlp.Props.C125_normalize",
    "Mlp.Props.C125_sum_one",
    "Mlp.Props.C125_brier",
    "Mlp.Props.C125_sphere",
    "Mlp.Props.C125_noise",
    "Mlp.Props.C125_double"
   ],
   "note": "No overflow or underflow. The log loss is the negated prediction without rounding (C120_log)."
  },
  {
   "property": "C126",
   "status": "proved",
   "theorems": [
    "Mlp.Props.C126_losses",
    "Mlp.Props.C126_table",
    "Mlp.Props.C126_benchmark",
    "Mlp.Props.C126_double"
   ],
   "note": "No overflow or underflow. The zero-one loss is not in the list: rounding may create ties, for which C121 gives the range only."
  },
  {
   "property": "C127",
   "status": "proved",
   "theorems": [
    "Mlp.Props.C127_curve_boot",
    "Mlp.Props.C127_table",
    "Mlp.Props.C127_bootstrap",
    "Mlp.Props.C127_curves",
    "Mlp.Props.C127_table_success",
    "Mlp.Props.C127_doubles",
    "Mlp.Props.C127_nearest",
    "Mlp.Props.C127_overflow"
   ],
   "note": "Losses (exp, log, sqrt) are not covered: there the theorems assume that nothing overflows or underflows. The sign of zero is not modelled."
  },
  {
   "property": "C128",
   "status": "proved",
   "theorems": [
    "Mlp.Props.C128_mean_and_EB",
    "Mlp.Props.C128_test",
    "Mlp.Props.C128_combined",
    "Mlp.Props.C128_cell",
    "Mlp.Props.C128_table",
    "Mlp.Props.C128_cell_unpaired",
    "Mlp.Props.C128_table_unpaired",
    "Mlp.Props.C128_at_most",
    "Mlp.Props.C128_at_least",
    "Mlp.Props.C128_table_grid",
    "Mlp.Props.C128_ieee_paired",
    "Mlp.Props.C128_ieee_unpaired",
    "Mlp.Props.C128_ieee_integers",
    "Mlp.Props.C128_mean"
   ],
   "note": "Overflow is not part of this property: ieeeRound has no largest exponent. The contract on np.roots asks for roots with the right signs for every positive leading coefficient."
  },
  {
   "property": "C129",
   "status": "proved",
   "theorems": [
    "Mlp.Props.C129_no_overflow",
    "Mlp.Props.C129_paired",
    "Mlp.Props.C129_unpaired",
    "Mlp.Props.C129_integers",
    "Mlp.Props.C129_mean"
   ],
   "note": "The bounds 2^200 are far from sharp. Overflow inside the implementations of sqrt, log, exp, np.roots and ss.t is not modelled; what they have to return is the contract IeeeLib."
  },
  {
   "property": "C130",
   "status": "proved",
   "theorems": [
    "Mlp.Props.C130_t_EB",
    "Mlp.Props.C130_t_test",
    "Mlp.Props.C130_mean_and_EB"
   ],
   "note": "t_EB uses studentT of Spec/StudentT.lean as the reference distribution (exact in C95); real arithmetic."
  },
  {
   "property": "C131",
   "status": "proved",
   "theorems": [
    "Mlp.Props.C131_error_bar",
    "Mlp.Props.C131_pairwise",
    "Mlp.Props.C131_p_value"
   ],
   "note": "Losses of different methods in a row may depend on each other; the rows are independent."
  },
  {
   "property": "C132",
   "status": "proved",
   "theorems": [
    "Mlp.Props.C132_mean_and_EB",
    "Mlp.Props.C132_test",
    "Mlp.Props.C132_table"
   ],
   "note": "Vanishes says that a sequence of floats is eventually a number in [0, eps) for every eps. The bootstrap method is not included: its result depends on the draws."
  },
  {
   "property": "C133",
   "status": "proved",
   "theorems": [
    "Mlp.Props.C133_std",
    "Mlp.Props.C133_t_EB",
    "Mlp.Props.C133_bernstein_EB",
    "Mlp.Props.C133_mean_and_EB_bernstein",
    "Mlp.Props.C133_mean_and_EB_t",
    "Mlp.Props.C133_mean_and_EB_t_open"
   ],
   "note": "u is the unit roundoff, 2^-53 for double precision; no underflow or overflow (see C128, C129). doubleLib_quantile shows that correctly rounded quantiles meet the hypothesis."
  },
  {
   "property": "C134",
   "status": "proved",
   "theorems": [
    "Mlp.Props.C134_bernstein",
    "Mlp.Props.C134_t",
    "Mlp.Props.C134_t_open"
   ],
   "note": "B = max(|l|,|h|) for limits l, h; method 'boot' is not included (its order statistics of rounded means are covered by C111 and C115)."
  },
  {
   "property": "C135",
   "status": "proved",
   "theorems": [
    "Mlp.Props.C135_error_bar",
    "Mlp.Props.C135_pairwise",
    "Mlp.Props.C135_t"
   ],
   "note": "The exact table is not assumed to exist; only the one computed in floating point."
  },
  {
   "property": "C136",
   "status": "proved",
   "theorems": [
    "Mlp.Props.C136_cell",
    "Mlp.Props.C136_cell_nan",
    "Mlp.Props.C136_shown",
    "Mlp.Props.C136_error_bar",
    "Mlp.Props.C136_pairwise",
    "Mlp.Props.C136_t"
   ],
   "note": "Shows says that the text is the result of just_format_it on the very table that loss_summary_table returned; C137 shows that such texts exist. Nothing is promised about a cell whose error bar is left out because it exceeds its limit."
  },
  {
   "property": "C137",
   "status": "proved",
   "theorems": [
    "Mlp.Props.C137_rounded",
    "Mlp.Props.C137_same_table",
    "Mlp.Props.C137_valid",
    "Mlp.Props.C137_prints"
   ],
   "note": "The bound 10^26 is the precision of 28 decimal digits of the decimal module; beyond it the code can raise (C118)."
  },
  {
   "property": "C138",
   "status": "proved",
   "theorems": [
    "Mlp.Props.C138_bernstein_test",
    "Mlp.Props.C138_table",
    "Mlp.Props.C138_false_alarm",
    "Mlp.Props.C138_cell",
    "Mlp.Props.C138_shown",
    "Mlp.Props.C138_printed",
    "Mlp.Props.C138_double_roots"
   ],
   "note": "The accuracy of np.roots is an assumption (AccurateRoots): eigenvalues of the companion matrix have errors relative to the larger root. Without underflow, as for C133."
  },
  {
   "property": "C139",
   "status": "proved",
   "theorems": [
    "Mlp.Props.C139_t_test",
    "Mlp.Props.C139_table",
    "Mlp.Props.C139_t_stat",
    "Mlp.Props.C139_false_alarm",
    "Mlp.Props.C139_table_false_alarm",
    "Mlp.Props.C139_printed",
    "Mlp.Props.C139_double_sf"
   ],
   "note": "The accuracy of ss.t.sf is an assumption (AccurateSf). Without underflow, as for C133. In the statements on tables the losses themselves are exact and their differences rounded."
  },
  {
   "property": "C140",
   "status": "proved",
   "theorems": [
    "Mlp.Props.C140_significance",
    "Mlp.Props.C140_significance_noise",
    "Mlp.Props.C140_percentile",
    "Mlp.Props.C140_boot_test",
    "Mlp.Props.C140_boot_test_noise",
    "Mlp.Props.C140_rerun",
    "Mlp.Props.C140_boot_EB",
    "Mlp.Props.C140_table"
   ],
   "note": "The rows handed to the model are the multinomial counts of the draws (`drawCounts`), as in C98. Quantiles are described by the shares on either side (no continuity is assumed), so at atoms of the distribution exactly at level (1-c)/2 the theorem gives no value, as it must."
  },
  {
   "property": "C141",
   "status": "proved",
   "theorems": [
    "Mlp.Props.C141_error_bar",
    "Mlp.Props.C141_pairwise",
    "Mlp.Props.C141_p_value",
    "Mlp.Props.C141_error_bar_t",
    "Mlp.Props.C141_pairwise_t",
    "Mlp.Props.C141_p_value_t",
    "Mlp.Props.C141_limit",
    "Mlp.Props.C141_success",
    "Mlp.Props.C141_regr_error_bar",
    "Mlp.Props.C141_regr_pairwise",
    "Mlp.Props.C141_regr_p_value",
    "Mlp.Props.C141_regr_error_bar_t",
    "Mlp.Props.C141_regr_pairwise_t",
    "Mlp.Props.C141_regr_p_value_t",
    "Mlp.Props.C141_regr_limit",
    "Mlp.Props.C141_regr_success"
   ],
   "note": "Exact arithmetic (floating point: C133 to C139). The events are stated so that a benchmark that fails shows nothing (no false promise); C141_success and C141_regr_success show that it does succeed with limits that contain all losses. The training data is fixed, as in the code: the risk is that of the trained method."
  },
  {
   "property": "C142",
   "status": "proved",
   "theorems": [
    "Mlp.Props.C142_shown",
    "Mlp.Props.C142_auc",
    "Mlp.Props.C142_benchmark",
    "Mlp.Props.C142_meaning",
    "Mlp.Props.C142_standard"
   ],
   "note": "The labels of the test set are fixed and the cases of each label are drawn from the population of that label, which is the same as conditioning on the labels of a random test set. Exact arithmetic."
  },
  {
   "property": "C143",
   "status": "proved",
   "theorems": [
    "Mlp.Props.C143_table",
    "Mlp.Props.C143_conclusions",
    "Mlp.Props.C143_pairwise",
    "Mlp.Props.C143_p_values",
    "Mlp.Props.C143_conclusions_t",
    "Mlp.Props.C143_pairwise_t",
    "Mlp.Props.C143_p_values_t",
    "Mlp.Props.C143_regr_table",
    "Mlp.Props.C143_regr_conclusions",
    "Mlp.Props.C143_regr_pairwise",
    "Mlp.Props.C143_regr_p_values",
    "Mlp.Props.C143_regr_conclusions_t",
    "Mlp.Props.C143_regr_pairwise_t",
    "Mlp.Props.C143_regr_p_values_t"
   ],
   "note": "As C141. The package does not correct for multiple comparisons; the theorems say what the reader has to pay for them."
  },
  {
   "property": "C144",
   "status": "proved",
   "theorems": [
    "Mlp.Props.C144_overflow",
    "Mlp.Props.C144_underflow",
    "Mlp.Props.C144_normal",
    "Mlp.Props.C144_zero",
    "Mlp.Props.C144_quantize",
    "Mlp.Props.C144_quantize_special",
    "Mlp.Props.C144_scaleb",
    "Mlp.Props.C144_create_decimal",
    "Mlp.Props.C144_decimalize_cell",
    "Mlp.Props.C144_decimalize",
    "Mlp.Props.C144_print_estimate",
    "Mlp.Props.C144_find_shift",
    "Mlp.Props.C144_format_column",
    "Mlp.Props.C144_just_format_it"
   ],
   "note": "Default context of the decimal module. The user's own clips or shift steps beyond 300000 are excluded; the last example shows that the limits then matter."
  },
  {
   "property": "C145",
   "status": "proved",
   "theorems": [
    "Mlp.Props.C145_pairwise",
    "Mlp.Props.C145_table",
    "Mlp.Props.C145_p_value",
    "Mlp.Props.C145_exact",
    "Mlp.Props.C145_default",
    "Mlp.Props.C145_positions_can_differ"
   ],
   "note": "For the model with rounding (C108) and the exact one. Overflow is outside of this model; C129 shows when there is none."
  },
  {
   "property": "C146",
   "status": "proved",
   "theorems": [
    "Mlp.Props.C146_mean_EB",
    "Mlp.Props.C146_test",
    "Mlp.Props.C146_mean_EB_test",
    "Mlp.Props.C146_table"
   ],
   "note": "For the model with exact arithmetic."
  },
  {
   "property": "C147",
   "status": "proved",
   "theorems": [
    "Mlp.Props.C147_auc",
    "Mlp.Props.C147_benchmark",
    "Mlp.Props.C147_standard"
   ],
   "note": "As in C142 the labels of the test set are fixed. Exact arithmetic; C116 bounds the rounding of the AUC."
  },
  {
   "property": "C148",
   "status": "proved",
   "theorems": [
    "Mlp.Props.C148_standard",
    "Mlp.Props.C148_mean",
    "Mlp.Props.C148_order",
    "Mlp.Props.C148_auc",
    "Mlp.Props.C148_benchmark"
   ],
   "note": "Exact arithmetic; C111 and C116 bound the rounding."
  },
  {
   "property": "C149",
   "status": "proved",
   "theorems": [
    "Mlp.Props.C149_reject",
    "Mlp.Props.C149_abs",
    "Mlp.Props.C149_square",
    "Mlp.Props.C149_log",
    "Mlp.Props.C149_closer",
    "Mlp.Props.C149_agree",
    "Mlp.Props.C149_library_doubles",
    "Mlp.Props.C149_accuracy",
    "Mlp.Props.C149_library"
   ],
   "note": "Signed zeros are not modelled; the largest-exponent behaviour of logarithms is a hypothesis, which C149_library discharges for correct rounding."
  },
  {
   "property": "C150",
   "status": "proved",
   "theorems": [
    "Mlp.Props.C150_normalize",
    "Mlp.Props.C150_normalize_agree",
    "Mlp.Props.C150_normalize_reject",
    "Mlp.Props.C150_brier_reject",
    "Mlp.Props.C150_brier_agree",
    "Mlp.Props.C150_brier",
    "Mlp.Props.C150_library"
   ],
   "note": "Sums inside logsumexp and brier_loss are those of the library, rounded with gradual underflow; they add up numbers of at most 1 and stay below 2^53. The log loss and the spherical loss are not covered at the exponent limits."
  }
 ]
}