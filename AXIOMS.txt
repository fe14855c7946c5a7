Mlp.Props.C01_read_back: propext, Classical.choice, Quot.sound
Mlp.Props.C01_read_back_no_error: propext, Classical.choice, Quot.sound
Mlp.Props.C02_estimate_shape: propext, Classical.choice, Quot.sound
Mlp.Props.C02_alphabet: propext, Classical.choice, Quot.sound
Mlp.Props.C02_pval: propext, Classical.choice, Quot.sound
Mlp.Props.C03_outcome: propext, Classical.choice, Quot.sound
Mlp.Props.C03_clipped_reads_back: propext, Classical.choice, Quot.sound
Mlp.Props.C03_value_error_iff: propext, Classical.choice, Quot.sound
Mlp.Props.C04_create_decimal_ceiling: propext, Classical.choice, Quot.sound
Mlp.Props.C04_create_decimal_half_up: propext, Classical.choice, Quot.sound
Mlp.Props.C04_create_decimal_exact: propext, Classical.choice, Quot.sound
Mlp.Props.C04_create_decimal_special: propext, Classical.choice, Quot.sound
Mlp.Props.C04_create_decimal_monotone: propext, Classical.choice, Quot.sound
Mlp.Props.C05_error_never_understated: propext, Classical.choice, Quot.sound
Mlp.Props.C05_error_special: propext, Classical.choice, Quot.sound
Mlp.Props.C06_pval_never_understated: propext, Classical.choice, Quot.sound
Mlp.Props.C06_pval_assert_never_fails: propext, Classical.choice, Quot.sound
Mlp.Props.C06_pval_nan: propext, Classical.choice, Quot.sound
Mlp.Props.C06_pval_rejected: propext, Classical.choice, Quot.sound
Mlp.Props.C06_pval_accepted: propext, Classical.choice, Quot.sound
Mlp.Props.C07_mean_half_up_to_error_quantum: propext, Classical.choice, Quot.sound
Mlp.Props.C07_mean_default_digits: propext, Classical.choice, Quot.sound
Mlp.Props.C08_decimalize_fits_print: propext, Classical.choice, Quot.sound
Mlp.Props.C09_eb_limit: propext, Classical.choice, Quot.sound
Mlp.Props.C09_no_limit: propext, Classical.choice, Quot.sound
Mlp.Props.C09_clipped_mean: propext, Classical.choice, Quot.sound
Mlp.Props.C09_clipped_no_parens: propext, Classical.choice, Quot.sound
Mlp.Props.C10_fails_iff_mean_needs_more_than_28_digits: propext, Classical.choice, Quot.sound
Mlp.Props.C10_ok_without_quantum: propext, Classical.choice, Quot.sound
Mlp.Props.C10_infinite_mean_fails: propext, Classical.choice, Quot.sound
Mlp.Props.C10_negative_error_rejected: propext, Classical.choice, Quot.sound
Mlp.Props.C10_table: propext, Classical.choice, Quot.sound
Mlp.Props.C11_print_pval: propext, Classical.choice, Quot.sound
Mlp.Props.C11_print_pval_other: propext, Classical.choice, Quot.sound
Mlp.Props.C12_strict_bound: propext, Classical.choice, Quot.sound
Mlp.Props.C12_printed_not_below: propext, Classical.choice, Quot.sound
Mlp.Props.C13_shift_range: propext, Classical.choice, Quot.sound
Mlp.Props.C13_shift_range_rejects: propext, Classical.choice, Quot.sound
Mlp.Props.C14_best_shift: propext, Classical.choice, Quot.sound
Mlp.Props.C14_tie_order_irrelevant: propext, Classical.choice, Quot.sound
Mlp.Props.C15_chosen_shift_prints: propext, Classical.choice, Quot.sound
Mlp.Props.C15_find_shift_rejects: propext, Classical.choice, Quot.sound
Mlp.Props.C16_padding_aligns: propext, Classical.choice, Quot.sound
Mlp.Props.C16_padding_rejects: propext, Classical.choice, Quot.sound
Mlp.Props.C17_floor_mod: propext, Classical.choice, Quot.sound
Mlp.Props.C17_ceil_mod: propext, Classical.choice, Quot.sound
Mlp.Props.C18_shown_name: propext, Quot.sound
Mlp.Props.C18_prefix: propext, Classical.choice, Quot.sound
Mlp.Props.C18_unitless: propext, Classical.choice, Quot.sound
Mlp.Props.C18_fallback: propext, Classical.choice, Quot.sound
Mlp.Props.C18_pval: propext, Classical.choice, Quot.sound
Mlp.Props.C18_factor: propext, Classical.choice, Quot.sound
Mlp.Props.C18_headers: propext, Classical.choice, Quot.sound
Mlp.Props.C19_tab_in_tex: propext, Classical.choice, Quot.sound
Mlp.Props.C20_format_column: propext, Classical.choice, Quot.sound
Mlp.Props.C20_metric_order: propext, Classical.choice, Quot.sound
Mlp.Props.C20_format_table: propext, Classical.choice, Quot.sound
Mlp.Props.C21_nan_mean: propext, Classical.choice, Quot.sound
Mlp.Props.C21_infinite_mean: propext, Classical.choice, Quot.sound
Mlp.Props.C21_infinite_mean_clipped: propext, Classical.choice, Quot.sound
Mlp.Props.C21_not_to_dot: propext, Classical.choice, Quot.sound
Mlp.Props.C22_cell: propext, Classical.choice, Quot.sound
Mlp.Props.C22_pval_cell: propext, Classical.choice, Quot.sound
Mlp.Props.C22_table: propext, Classical.choice, Quot.sound
Mlp.Props.C23_remove_chars: propext, Quot.sound
Mlp.Props.C23_remove_chars_unique: propext, Classical.choice, Quot.sound
Mlp.Props.C23_str_print_len: propext, Quot.sound
Mlp.Props.C24_decimal_helpers: propext, Classical.choice, Quot.sound
Mlp.Props.C24_all_same: propext, Quot.sound
Mlp.Props.C25_partition: propext, Classical.choice, Quot.sound
Mlp.Props.C25_total: propext, Classical.choice, Quot.sound
Mlp.Props.C26_conjunction: propext, Classical.choice, Quot.sound
Mlp.Props.C26_order_independent: propext, Classical.choice, Quot.sound
Mlp.Props.C27_single: propext, Classical.choice, Quot.sound
Mlp.Props.C27_default_split: propext, Classical.choice, Quot.sound
Mlp.Props.C28_rand_subset: propext, Classical.choice, Quot.sound
Mlp.Props.C28_rand_subset_size: propext, Classical.choice, Quot.sound
Mlp.Props.C28_every_subset_possible: propext, Classical.choice, Quot.sound
Mlp.Props.C28_rand_mask: propext, Classical.choice, Quot.sound
Mlp.Props.C28_empty: propext, Classical.choice, Quot.sound
Mlp.Props.C29_random_split: propext, Classical.choice, Quot.sound
Mlp.Props.C29_equal_values: propext, Quot.sound
Mlp.Props.C30_assume_unique: propext, Classical.choice, Quot.sound
Mlp.Props.C31_ordered_split: propext, Classical.choice, Quot.sound
Mlp.Props.C31_exact_size: propext, Classical.choice, Quot.sound
Mlp.Props.C31_hints: propext, Classical.choice, Quot.sound
Mlp.Props.C32_ordered_fails_iff: propext, Classical.choice, Quot.sound
Mlp.Props.C32_ordered_exact_hit: propext, Classical.choice, Quot.sound
Mlp.Props.C33_linear_rounded: propext, Quot.sound
Mlp.Props.C33_linear: propext, Classical.choice, Quot.sound
Mlp.Props.C33_linear_consequences: propext, Classical.choice, Quot.sound
Mlp.Props.C33_hint: propext, Quot.sound
Mlp.Props.C34_linear_split: propext, Quot.sound
Mlp.Props.C34_linear_infinite: propext, Quot.sound
Mlp.Props.C34_linear_infinite_sorted: propext, Quot.sound
Mlp.Props.C34_linear_empty: propext, Classical.choice, Quot.sound
Mlp.Props.C34_ordered_split: propext, Quot.sound
Mlp.Props.C34_ordered_split_empty: propext, Quot.sound
Mlp.Props.C34_rand_bad_frac: propext, Quot.sound
Mlp.Props.C34_random_split: propext, Quot.sound
Mlp.Props.C34_split_df_assert: propext, Classical.choice, Quot.sound
Mlp.Props.C34_split_df_propagates: propext, Classical.choice, Quot.sound
Mlp.Props.C34_split_df_key_error: propext, Classical.choice, Quot.sound
Mlp.Props.C35_build_lag_df: propext, Quot.sound
Mlp.Props.C35_lag_frame: propext, Classical.choice, Quot.sound
Mlp.Props.C36_weights: propext, Classical.choice, Quot.sound
Mlp.Props.C36_floor: propext, Quot.sound
Mlp.Props.C36_reject: propext, Quot.sound
Mlp.Props.C36_resample: propext, Classical.choice, Quot.sound
Mlp.Props.C37_percentiles: propext, Classical.choice, Quot.sound
Mlp.Props.C37_reject: propext, Quot.sound
Mlp.Props.C38_percentile: propext, Classical.choice, Quot.sound
Mlp.Props.C38_order: propext, Classical.choice, Quot.sound
Mlp.Props.C38_reject: propext, Quot.sound
Mlp.Props.C39_nested: propext, Classical.choice, Quot.sound
Mlp.Props.C39_error_bar: propext, Classical.choice, Quot.sound
Mlp.Props.C40_error_bar: propext, Classical.choice, Quot.sound
Mlp.Props.C40_finite: propext, Classical.choice, Quot.sound
Mlp.Props.C41_scalar_is_constant: propext, Quot.sound
Mlp.Props.C41_scalar: propext, Classical.choice, Quot.sound
Mlp.Props.C41_paired: propext, Classical.choice, Quot.sound
Mlp.Props.C41_swap: propext, Quot.sound
Mlp.Props.C41_negate: propext, Classical.choice, Quot.sound
Mlp.Props.C41_shift: propext, Classical.choice, Quot.sound
Mlp.Props.C41_order: propext, Quot.sound
Mlp.Props.C41_difference: propext, Classical.choice, Quot.sound
Mlp.Props.C41_zero: propext, Classical.choice, Quot.sound
Mlp.Props.C41_reject: propext, Quot.sound
Mlp.Props.C42_outside_significant: propext, Classical.choice, Quot.sound
Mlp.Props.C43_converse_bound: propext, Classical.choice, Quot.sound
Mlp.Props.C43_converse_fails: propext, Classical.choice, Quot.sound
Mlp.Props.C44_value_error: propext, Classical.choice, Quot.sound
Mlp.Props.C44_reject: propext, Classical.choice, Quot.sound
Mlp.Props.C44_clip: propext, Classical.choice, Quot.sound
Mlp.Props.C44_nan_estimate: propext, Classical.choice, Quot.sound
Mlp.Props.C44_infinite_estimate: propext, Classical.choice, Quot.sound
Mlp.Props.C45_uninformative: propext, Classical.choice, Quot.sound
Mlp.Props.C45_t_test: propext, Classical.choice, Quot.sound
Mlp.Props.C45_t_EB: propext, Classical.choice, Quot.sound
Mlp.Props.C45_agree: propext, Classical.choice, Quot.sound
Mlp.Props.C45_zero: propext, Classical.choice, Quot.sound
Mlp.Props.C45_mono: propext, Classical.choice, Quot.sound
Mlp.Props.C45_student: propext, Classical.choice, Quot.sound
Mlp.Props.C46_agree: propext, Classical.choice, Quot.sound
Mlp.Props.C47_bernstein_test: propext, Classical.choice, Quot.sound
Mlp.Props.C47_bernstein_EB: propext, Classical.choice, Quot.sound
Mlp.Props.C47_mono: propext, Classical.choice, Quot.sound
Mlp.Props.C47_degenerate: propext, Classical.choice, Quot.sound
Mlp.Props.C47_reject: propext, Classical.choice, Quot.sound
Mlp.Props.C48_shared: propext, Classical.choice, Quot.sound
Mlp.Props.C48_uninformative: propext, Classical.choice, Quot.sound
Mlp.Props.C49_agree: propext, Classical.choice, Quot.sound
Mlp.Props.C49_reject: propext, Classical.choice, Quot.sound
Mlp.Props.C49_dispatch: propext, Classical.choice, Quot.sound
Mlp.Props.C50_mean_and_EB: propext, Classical.choice, Quot.sound
Mlp.Props.C50_bar_value: propext, Classical.choice, Quot.sound
Mlp.Props.C50_reject: propext, Classical.choice, Quot.sound
Mlp.Props.C51_cells: propext, Classical.choice, Quot.sound
Mlp.Props.C51_p_missing: propext, Classical.choice, Quot.sound
Mlp.Props.C51_mean_unaffected: propext, Classical.choice, Quot.sound
Mlp.Props.C51_finite_mean: propext, Classical.choice, Quot.sound
Mlp.Props.C52_reject: propext, Classical.choice, Quot.sound
Mlp.Props.C52_reject_cell: propext, Classical.choice, Quot.sound
Mlp.Props.C52_success: propext, Classical.choice, Quot.sound
Mlp.Props.C52_same_infinity: propext, Classical.choice, Quot.sound
Mlp.Props.C53_row_order: propext, Classical.choice, Quot.sound
Mlp.Props.C54_one_hot: propext, Classical.choice, Quot.sound
Mlp.Props.C54_reject: propext, Quot.sound
Mlp.Props.C55_normalize: propext, Classical.choice, Quot.sound
Mlp.Props.C55_unique: propext, Classical.choice, Quot.sound
Mlp.Props.C55_shift_invariant: propext, Classical.choice, Quot.sound
Mlp.Props.C55_fixed: propext, Classical.choice, Quot.sound
Mlp.Props.C55_idempotent: propext, Classical.choice, Quot.sound
Mlp.Props.C55_improper: propext, Classical.choice, Quot.sound
Mlp.Props.C55_reject: propext, Classical.choice, Quot.sound
Mlp.Props.C56_noise: propext, Classical.choice, Quot.sound
Mlp.Props.C56_reject: propext, Quot.sound
Mlp.Props.C57_take_last: propext, Classical.choice, Quot.sound
Mlp.Props.C57_reject: propext, Classical.choice, Quot.sound
Mlp.Props.C58_strict: propext, Classical.choice, Quot.sound
Mlp.Props.C58_least: propext, Classical.choice, Quot.sound
Mlp.Props.C58_unchanged: propext, Classical.choice, Quot.sound
Mlp.Props.C58_reject: propext, Classical.choice, Quot.sound
Mlp.Props.C59_step: propext, Classical.choice, Quot.sound
Mlp.Props.C59_duplicate: propext, Classical.choice, Quot.sound
Mlp.Props.C59_before: propext, Classical.choice, Quot.sound
Mlp.Props.C59_shape: propext, Quot.sound
Mlp.Props.C59_order: propext, Classical.choice, Quot.sound
Mlp.Props.C60_previous: propext, Classical.choice, Quot.sound
Mlp.Props.C60_previous_reject: propext, Classical.choice, Quot.sound
Mlp.Props.C60_next: propext, Classical.choice, Quot.sound
Mlp.Props.C60_reject: propext, Classical.choice, Quot.sound
Mlp.Props.C60_linear: propext, Classical.choice, Quot.sound
Mlp.Props.C60_linear_outside: propext, Classical.choice, Quot.sound
Mlp.Props.C60_between: propext, Classical.choice, Quot.sound
Mlp.Props.C60_through: propext, Classical.choice, Quot.sound
Mlp.Props.C61_area: propext, Classical.choice, Quot.sound
Mlp.Props.C61_split: propext, Classical.choice, Quot.sound
Mlp.Props.C61_insert: propext, Classical.choice, Quot.sound
Mlp.Props.C61_linear_in_y: propext, Classical.choice, Quot.sound
Mlp.Props.C61_bounds: propext, Classical.choice, Quot.sound
Mlp.Props.C61_reject: propext, Quot.sound
Mlp.Props.C61_kind: propext, Classical.choice, Quot.sound
Mlp.Props.C61_zero_width: propext, Classical.choice, Quot.sound
Mlp.Props.C61_integral_previous: propext, Classical.choice, Quot.sound
Mlp.Props.C61_integral_linear: propext, Classical.choice, Quot.sound
Mlp.Props.C62_clip_chk: propext, Classical.choice, Quot.sound
Mlp.Props.C62_scalar: propext, Quot.sound
Mlp.Props.C63_counts: propext, Classical.choice, Quot.sound
Mlp.Props.C63_counts_any: propext, Classical.choice, Quot.sound
Mlp.Props.C63_reject: propext, Classical.choice, Quot.sound
Mlp.Props.C64_roc: propext, Classical.choice, Quot.sound
Mlp.Props.C64_recall_precision: propext, Classical.choice, Quot.sound
Mlp.Props.C64_prg: propext, Classical.choice, Quot.sound
Mlp.Props.C64_rises: propext, Classical.choice, Quot.sound
Mlp.Props.C65_counts: propext, Classical.choice, Quot.sound
Mlp.Props.C65_curves: propext, Classical.choice, Quot.sound
Mlp.Props.C66_counts: propext, Classical.choice, Quot.sound
Mlp.Props.C66_curves: propext, Classical.choice, Quot.sound
Mlp.Props.C67_replicate: propext, Classical.choice, Quot.sound
Mlp.Props.C67_replicate_curves: propext, Classical.choice, Quot.sound
Mlp.Props.C67_scale: propext, Classical.choice, Quot.sound
Mlp.Props.C67_rows: propext, Classical.choice, Quot.sound
Mlp.Props.C67_unweighted: propext, Classical.choice, Quot.sound
Mlp.Props.C68_mann_whitney: propext, Classical.choice, Quot.sound
Mlp.Props.C69_bounds: propext, Classical.choice, Quot.sound
Mlp.Props.C69_flip: propext, Classical.choice, Quot.sound
Mlp.Props.C69_negate: propext, Classical.choice, Quot.sound
Mlp.Props.C69_constant: propext, Classical.choice, Quot.sound
Mlp.Props.C69_perfect: propext, Classical.choice, Quot.sound
Mlp.Props.C70_roc: propext, Classical.choice, Quot.sound
Mlp.Props.C70_precision: propext, Classical.choice, Quot.sound
Mlp.Props.C71_precision: propext, Classical.choice, Quot.sound
Mlp.Props.C71_area: propext, Classical.choice, Quot.sound
Mlp.Props.C72_recall_gain: propext, Classical.choice, Quot.sound
Mlp.Props.C72_precision_gain: propext, Classical.choice, Quot.sound
Mlp.Props.C72_rises: propext, Classical.choice, Quot.sound
Mlp.Props.C73_area: propext, Classical.choice, Quot.sound
Mlp.Props.C74_reject: propext, Classical.choice, Quot.sound
Mlp.Props.C74_reject_matrix: propext, Classical.choice, Quot.sound
Mlp.Props.C74_bayes: propext, Classical.choice, Quot.sound
Mlp.Props.C74_zero_one: propext, Classical.choice, Quot.sound
Mlp.Props.C75_value: propext, Classical.choice, Quot.sound
Mlp.Props.C75_nonneg: propext, Classical.choice, Quot.sound
Mlp.Props.C75_proper: propext, Classical.choice, Quot.sound
Mlp.Props.C76_value: propext, Classical.choice, Quot.sound
Mlp.Props.C76_range: propext, Classical.choice, Quot.sound
Mlp.Props.C76_uniform: propext, Classical.choice, Quot.sound
Mlp.Props.C76_proper: propext, Classical.choice, Quot.sound
Mlp.Props.C77_value: propext, Classical.choice, Quot.sound
Mlp.Props.C77_shift: propext, Classical.choice, Quot.sound
Mlp.Props.C77_range: propext, Classical.choice, Quot.sound
Mlp.Props.C77_uniform: propext, Classical.choice, Quot.sound
Mlp.Props.C77_proper: propext, Classical.choice, Quot.sound
Mlp.Props.C78_shift: propext, Classical.choice, Quot.sound
Mlp.Props.C78_nan: propext, Classical.choice, Quot.sound
Mlp.Props.C78_nan_assertion: propext, Classical.choice, Quot.sound
Mlp.Props.C79_columns: propext, Classical.choice, Quot.sound
Mlp.Props.C79_local: propext, Classical.choice, Quot.sound
Mlp.Props.C79_success_on: propext, Classical.choice, Quot.sound
Mlp.Props.C79_success: propext, Classical.choice, Quot.sound
Mlp.Props.C79_reject: propext, Classical.choice, Quot.sound
Mlp.Props.C80_noise: propext, Classical.choice, Quot.sound
Mlp.Props.C80_empty: propext, Classical.choice, Quot.sound
Mlp.Props.C80_optimal: propext, Classical.choice, Quot.sound
Mlp.Props.C80_reject: propext, Classical.choice, Quot.sound
Mlp.Props.C80_bool: propext, Classical.choice, Quot.sound
Mlp.Props.C80_method: propext, Classical.choice, Quot.sound
Mlp.Props.C80_table: propext, Classical.choice, Quot.sound
Mlp.Props.C81_checks: propext, Classical.choice, Quot.sound
Mlp.Props.C81_table: propext, Classical.choice, Quot.sound
Mlp.Props.C81_normalised: propext, Classical.choice, Quot.sound
Mlp.Props.C81_floor: propext, Classical.choice, Quot.sound
Mlp.Props.C81_success: propext, Classical.choice, Quot.sound
Mlp.Props.C81_wrong_shape: propext, Classical.choice, Quot.sound
Mlp.Props.C82_result: propext, Classical.choice, Quot.sound
Mlp.Props.C82_success: propext, Classical.choice, Quot.sound
Mlp.Props.C82_coherent: propext, Classical.choice, Quot.sound
Mlp.Props.C82_self: propext, Classical.choice, Quot.sound
Mlp.Props.C82_reject: propext, Classical.choice, Quot.sound
Mlp.Props.C82_finite: propext, Classical.choice, Quot.sound
Mlp.Props.C83_cells: propext, Quot.sound
Mlp.Props.C83_dump: propext, Quot.sound
Mlp.Props.C83_missing: propext, Classical.choice, Quot.sound
Mlp.Props.C83_error_missing: propext, Classical.choice, Quot.sound
Mlp.Props.C83_success: propext, Classical.choice, Quot.sound
Mlp.Props.C83_reject: propext, Quot.sound
Mlp.Props.C83_local: propext, Quot.sound
Mlp.Props.C84_cells: propext, Classical.choice, Quot.sound
Mlp.Props.C84_success: propext, Classical.choice, Quot.sound
Mlp.Props.C84_success_std: propext, Classical.choice, Quot.sound
Mlp.Props.C84_reject: propext, Classical.choice, Quot.sound
Mlp.Props.C85_accepts: propext, Classical.choice, Quot.sound
Mlp.Props.C85_reject: propext, Classical.choice, Quot.sound
Mlp.Props.C85_square: propext, Classical.choice, Quot.sound
Mlp.Props.C85_abs: propext, Classical.choice, Quot.sound
Mlp.Props.C85_log: propext, Classical.choice, Quot.sound
Mlp.Props.C85_density: propext, Classical.choice, Quot.sound
Mlp.Props.C85_square_abs: propext, Classical.choice, Quot.sound
Mlp.Props.C86_mean: propext, Classical.choice, Quot.sound
Mlp.Props.C86_scale: propext, Classical.choice, Quot.sound
Mlp.Props.C86_sample: propext, Classical.choice, Quot.sound
Mlp.Props.C86_square: propext, Classical.choice, Quot.sound
Mlp.Props.C87_accepts: propext, Classical.choice, Quot.sound
Mlp.Props.C87_fit: propext, Classical.choice, Quot.sound
Mlp.Props.C87_predict: propext, Classical.choice, Quot.sound
Mlp.Props.C87_degenerate: propext, Classical.choice, Quot.sound
Mlp.Props.C88_method: propext, Classical.choice, Quot.sound
Mlp.Props.C88_method_error: propext, Classical.choice, Quot.sound
Mlp.Props.C88_checks: propext, Classical.choice, Quot.sound
Mlp.Props.C88_reject: propext, Classical.choice, Quot.sound
Mlp.Props.C88_table: propext, Classical.choice, Quot.sound
Mlp.Props.C88_local: propext, Classical.choice, Quot.sound
Mlp.Props.C88_success: propext, Classical.choice, Quot.sound
Mlp.Props.C88_error: propext, Classical.choice, Quot.sound
Mlp.Props.C88_noise: propext, Classical.choice, Quot.sound
Mlp.Props.C89_columns: propext, Classical.choice, Quot.sound
Mlp.Props.C89_local: propext, Classical.choice, Quot.sound
Mlp.Props.C89_success: propext, Classical.choice, Quot.sound
Mlp.Props.C89_reject: propext, Classical.choice, Quot.sound
Mlp.Props.C89_missing: propext, Classical.choice, Quot.sound
Mlp.Props.C89_error: propext, Classical.choice, Quot.sound
Mlp.Props.C89_repeated: propext, Classical.choice, Quot.sound
Mlp.Props.C89_standard: propext, Classical.choice, Quot.sound
Mlp.Props.C90_class_sound: propext, Classical.choice, Quot.sound
Mlp.Props.C90_class_plain: propext, Classical.choice, Quot.sound
Mlp.Props.C90_class_resume: propext, Classical.choice, Quot.sound
Mlp.Props.C90_class_trained: propext, Classical.choice, Quot.sound
Mlp.Props.C90_class_monotone: propext, Classical.choice, Quot.sound
Mlp.Props.C90_class_progress: propext, Classical.choice, Quot.sound
Mlp.Props.C90_class_objects: propext, Classical.choice, Quot.sound
Mlp.Props.C90_class_idle: propext, Classical.choice, Quot.sound
Mlp.Props.C90_regr_sound: propext, Classical.choice, Quot.sound
Mlp.Props.C90_regr_plain: propext, Classical.choice, Quot.sound
Mlp.Props.C90_regr_resume: propext, Classical.choice, Quot.sound
Mlp.Props.C90_regr_trained: propext, Classical.choice, Quot.sound
Mlp.Props.C90_regr_monotone: propext, Classical.choice, Quot.sound
Mlp.Props.C90_regr_progress: propext, Classical.choice, Quot.sound
Mlp.Props.C90_regr_objects: propext, Classical.choice, Quot.sound
Mlp.Props.C90_regr_idle: propext, Classical.choice, Quot.sound
Mlp.Props.C90_refit: propext, Classical.choice, Quot.sound
Mlp.Props.C91_class: propext, Classical.choice, Quot.sound
Mlp.Props.C91_class_standard: propext, Classical.choice, Quot.sound
Mlp.Props.C91_class_reject: propext, Classical.choice, Quot.sound
Mlp.Props.C91_sym_logLoss: propext, Classical.choice, Quot.sound
Mlp.Props.C91_sym_brierLoss: propext, Classical.choice, Quot.sound
Mlp.Props.C91_sym_sphericalLoss: propext, Classical.choice, Quot.sound
Mlp.Props.C91_sym_hardLoss: propext, Classical.choice, Quot.sound
Mlp.Props.C91_sym_class: propext, Classical.choice, Quot.sound
Mlp.Props.C91_class_order: propext, Classical.choice, Quot.sound
Mlp.Props.C91_regr: propext, Classical.choice, Quot.sound
Mlp.Props.C91_regr_reject: propext, Classical.choice, Quot.sound
Mlp.Props.C91_regr_standard: propext, Classical.choice, Quot.sound
Mlp.Props.C91_sym_square: propext, Classical.choice, Quot.sound
Mlp.Props.C91_sym_abs: propext, Classical.choice, Quot.sound
Mlp.Props.C91_sym_log: propext, Classical.choice, Quot.sound
Mlp.Props.C91_sym_std: propext, Classical.choice, Quot.sound
Mlp.Props.C91_regr_order: propext, Classical.choice, Quot.sound
Mlp.Props.C92_zero_fails: propext, Classical.choice, Quot.sound
Mlp.Props.C92_floor: propext, Classical.choice, Quot.sound
Mlp.Props.C93_strict: propext, Classical.choice, Quot.sound
Mlp.Props.C93_coverage: propext, Classical.choice, Quot.sound
Mlp.Props.C93_test: propext, Classical.choice, Quot.sound
Mlp.Props.C93_mean_and_EB: propext, Classical.choice, Quot.sound
Mlp.Props.C94_error_bar: propext, Classical.choice, Quot.sound
Mlp.Props.C94_pairwise: propext, Classical.choice, Quot.sound
Mlp.Props.C94_p_value: propext, Classical.choice, Quot.sound
Mlp.Props.C95_t_EB_exact: propext, Classical.choice, Quot.sound
Mlp.Props.C95_t_test_exact: propext, Classical.choice, Quot.sound
Mlp.Props.C95_mean_and_EB: propext, Classical.choice, Quot.sound
Mlp.Props.C96_error_bar: propext, Classical.choice, Quot.sound
Mlp.Props.C96_pairwise: propext, Classical.choice, Quot.sound
Mlp.Props.C96_p_value: propext, Classical.choice, Quot.sound
Mlp.Props.C97_rand_subset: propext, Classical.choice, Quot.sound
Mlp.Props.C97_rand_mask: propext, Classical.choice, Quot.sound
Mlp.Props.C97_random_split: propext, Classical.choice, Quot.sound
Mlp.Props.C97_row: propext, Classical.choice, Quot.sound
Mlp.Props.C97_row_unique: propext, Classical.choice, Quot.sound
Mlp.Props.C98_weights: propext, Classical.choice, Quot.sound
Mlp.Props.C98_mean: propext, Classical.choice, Quot.sound
Mlp.Props.C98_boot_EB: propext, Classical.choice, Quot.sound
Mlp.Props.C99_latex: propext, Classical.choice, Quot.sound
Mlp.Props.C99_scale_header: propext, Classical.choice, Quot.sound
Mlp.Props.C100_text: propext, Classical.choice, Quot.sound
Mlp.Props.C100_aligned: propext, Classical.choice, Quot.sound
Mlp.Props.C100_layout: propext, Classical.choice, Quot.sound
Mlp.Props.C101_field: propext, Classical.choice, Quot.sound
Mlp.Props.C101_text: propext, Classical.choice, Quot.sound
Mlp.Props.C101_latex: propext, Classical.choice, Quot.sound
Mlp.Props.C102_decision: propext, Classical.choice, Quot.sound
Mlp.Props.C102_reject: propext, Classical.choice, Quot.sound
Mlp.Props.C102_loss: propext, Classical.choice, Quot.sound
Mlp.Props.C103_wide_mean: propext, Classical.choice, Quot.sound
Mlp.Props.C104_roc: propext, Classical.choice, Quot.sound
Mlp.Props.C104_recall_precision: propext, Classical.choice, Quot.sound
Mlp.Props.C104_prg: propext, Classical.choice, Quot.sound
Mlp.Props.C104_failure: propext, Classical.choice, Quot.sound
Mlp.Props.C105_unweighted: propext, Classical.choice, Quot.sound
Mlp.Props.C105_weighted: propext, Classical.choice, Quot.sound
Mlp.Props.C105_recall_precision: propext, Classical.choice, Quot.sound
Mlp.Props.C105_unweighted_double: propext, Classical.choice, Quot.sound
Mlp.Props.C105_bootstrap: propext, Classical.choice, Quot.sound
Mlp.Props.C105_fails: propext, Classical.choice, Quot.sound
Mlp.Props.C105_precision_fails: propext, Classical.choice, Quot.sound
Mlp.Props.C106_roc: propext, Classical.choice, Quot.sound
Mlp.Props.C106_unweighted: propext, Classical.choice, Quot.sound
Mlp.Props.C107_interval: propext, Classical.choice, Quot.sound
Mlp.Props.C107_nested: propext, Classical.choice, Quot.sound
Mlp.Props.C107_error_bar: propext, Classical.choice, Quot.sound
Mlp.Props.C107_basic: propext, Classical.choice, Quot.sound
Mlp.Props.C107_paired: propext, Classical.choice, Quot.sound
Mlp.Props.C107_pvalue: propext, Classical.choice, Quot.sound
Mlp.Props.C107_positions: propext, Classical.choice, Quot.sound
Mlp.Props.C107_exact: propext, Classical.choice, Quot.sound
Mlp.Props.C107_coherent: propext, Classical.choice, Quot.sound
Mlp.Props.C107_default: propext, Classical.choice, Quot.sound
Mlp.Props.C108_mean_outside: propext, Classical.choice, Quot.sound
Mlp.Props.C108_mean_and_EB: propext, Classical.choice, Quot.sound
Mlp.Props.C108_test: propext, Classical.choice, Quot.sound
Mlp.Props.C108_combined: propext, Classical.choice, Quot.sound
Mlp.Props.C108_cell: propext, Classical.choice, Quot.sound
Mlp.Props.C108_table: propext, Classical.choice, Quot.sound
Mlp.Props.C109_fails: propext, Classical.choice, Quot.sound
Mlp.Props.C109_integer_limit: propext, Classical.choice, Quot.sound
Mlp.Props.C109_cell: propext, Classical.choice, Quot.sound
Mlp.Props.C109_table: propext, Classical.choice, Quot.sound
Mlp.Props.C109_at_most: propext, Classical.choice, Quot.sound
Mlp.Props.C109_at_least: propext, Classical.choice, Quot.sound
Mlp.Props.C109_table_grid: propext, Classical.choice, Quot.sound
Mlp.Props.C110_roc: propext, Quot.sound
Mlp.Props.C110_recall_precision: propext, Quot.sound
Mlp.Props.C110_prg: propext, Quot.sound
Mlp.Props.C110_percentile: propext, Quot.sound
Mlp.Props.C110_basic: propext, Quot.sound
Mlp.Props.C110_error_bar: propext, Quot.sound
Mlp.Props.C110_significance: propext, Quot.sound
Mlp.Props.C110_clip_chk: propext, Classical.choice, Quot.sound
Mlp.Props.C110_clip_EB: propext, Classical.choice, Quot.sound
Mlp.Props.C110_t_test: propext, Classical.choice, Quot.sound
Mlp.Props.C110_t_EB: propext, Classical.choice, Quot.sound
Mlp.Props.C110_bernstein_test: propext, Classical.choice, Quot.sound
Mlp.Props.C110_bernstein_EB: propext, Classical.choice, Quot.sound
Mlp.Props.C110_boot_EB_test: propext, Classical.choice, Quot.sound
Mlp.Props.C110_boot_test: propext, Classical.choice, Quot.sound
Mlp.Props.C110_boot_EB: propext, Classical.choice, Quot.sound
Mlp.Props.C110_mean_EB: propext, Classical.choice, Quot.sound
Mlp.Props.C110_test: propext, Classical.choice, Quot.sound
Mlp.Props.C110_mean_EB_test: propext, Classical.choice, Quot.sound
Mlp.Props.C110_table: propext, Classical.choice, Quot.sound
Mlp.Props.C111_mean: propext, Classical.choice, Quot.sound
Mlp.Props.C111_table: propext, Classical.choice, Quot.sound
Mlp.Props.C111_scale: propext, Classical.choice, Quot.sound
Mlp.Props.C112_reject: propext, Classical.choice, Quot.sound
Mlp.Props.C112_accept: propext, Classical.choice, Quot.sound
Mlp.Props.C112_grid: propext, Classical.choice, Quot.sound
Mlp.Props.C112_curve_boot: propext, Classical.choice, Quot.sound
Mlp.Props.C113_area: propext, Quot.sound
Mlp.Props.C113_step: propext, Quot.sound
Mlp.Props.C113_interp: propext, Quot.sound
Mlp.Props.C113_curve_boot: propext, Classical.choice, Quot.sound
Mlp.Props.C113_table: propext, Classical.choice, Quot.sound
Mlp.Props.C114_check: propext, Classical.choice, Quot.sound
Mlp.Props.C114_take_last: propext, Classical.choice, Quot.sound
Mlp.Props.C114_step: propext, Classical.choice, Quot.sound
Mlp.Props.C114_previous: propext, Classical.choice, Quot.sound
Mlp.Props.C114_area: propext, Classical.choice, Quot.sound
Mlp.Props.C114_linear: propext, Classical.choice, Quot.sound
Mlp.Props.C115_prg_unit: propext, Classical.choice, Quot.sound
Mlp.Props.C115_double: propext, Classical.choice, Quot.sound
Mlp.Props.C115_result: propext, Classical.choice, Quot.sound
Mlp.Props.C115_self: propext, Classical.choice, Quot.sound
Mlp.Props.C115_coherent: propext, Classical.choice, Quot.sound
Mlp.Props.C115_paired: propext, Classical.choice, Quot.sound
Mlp.Props.C115_success: propext, Classical.choice, Quot.sound
Mlp.Props.C115_table_cells: propext, Quot.sound
Mlp.Props.C115_table_dump: propext, Quot.sound
Mlp.Props.C115_table_missing: propext, Classical.choice, Quot.sound
Mlp.Props.C115_table_reject: propext, Quot.sound
Mlp.Props.C115_table_success: propext, Classical.choice, Quot.sound
Mlp.Props.C116_double: propext, Classical.choice, Quot.sound
Mlp.Props.C116_bootstrap: propext, Classical.choice, Quot.sound
Mlp.Props.C116_curve_boot: propext, Classical.choice, Quot.sound
Mlp.Props.C116_roc: propext, Classical.choice, Quot.sound
Mlp.Props.C116_unweighted: propext, Classical.choice, Quot.sound
Mlp.Props.C117_statistic: propext, Classical.choice, Quot.sound
Mlp.Props.C117_area: propext, Classical.choice, Quot.sound
Mlp.Props.C117_double: propext, Classical.choice, Quot.sound
Mlp.Props.C118_cell: propext, Classical.choice, Quot.sound
Mlp.Props.C118_floats: propext, Classical.choice, Quot.sound
Mlp.Props.C118_not_a_number: propext, Classical.choice, Quot.sound
Mlp.Props.C118_unscaled: propext, Classical.choice, Quot.sound
Mlp.Props.C118_criterion: propext, Classical.choice, Quot.sound
Mlp.Props.C118_pipeline: propext, Classical.choice, Quot.sound
Mlp.Props.C119_normalize: propext, Classical.choice, Quot.sound
Mlp.Props.C119_decision: propext, Classical.choice, Quot.sound
Mlp.Props.C119_hard_loss: propext, Classical.choice, Quot.sound
Mlp.Props.C119_brier_loss: propext, Classical.choice, Quot.sound
Mlp.Props.C119_spherical_loss: propext, Classical.choice, Quot.sound
Mlp.Props.C119_std_class_loss: propext, Classical.choice, Quot.sound
Mlp.Props.C119_loss_table: propext, Classical.choice, Quot.sound
Mlp.Props.C119_class_noise: propext, Classical.choice, Quot.sound
Mlp.Props.C119_predictions: propext, Classical.choice, Quot.sound
Mlp.Props.C119_summary_table: propext, Classical.choice, Quot.sound
Mlp.Props.C119_std_curves: propext, Classical.choice, Quot.sound
Mlp.Props.C119_class_benchmark: propext, Classical.choice, Quot.sound
Mlp.Props.C119_square_loss: propext, Classical.choice, Quot.sound
Mlp.Props.C119_abs_loss: propext, Classical.choice, Quot.sound
Mlp.Props.C119_log_loss: propext, Classical.choice, Quot.sound
Mlp.Props.C119_std_regr_loss: propext, Classical.choice, Quot.sound
Mlp.Props.C119_regr_noise: propext, Classical.choice, Quot.sound
Mlp.Props.C119_regr_benchmark: propext, Classical.choice, Quot.sound
Mlp.Props.C120_log: propext, Classical.choice, Quot.sound
Mlp.Props.C120_zero_one_double: propext, Classical.choice, Quot.sound
Mlp.Props.C120_normalize: propext, Classical.choice, Quot.sound
Mlp.Props.C120_brier: propext, Classical.choice, Quot.sound
Mlp.Props.C120_brier_certain: propext, Classical.choice, Quot.sound
Mlp.Props.C120_sphere: propext, Classical.choice, Quot.sound
Mlp.Props.C120_normalize_certain: propext, Classical.choice, Quot.sound
Mlp.Props.C120_sphere_certain: propext, Classical.choice, Quot.sound
Mlp.Props.C120_hard: propext, Classical.choice, Quot.sound
Mlp.Props.C120_zero_one: propext, Classical.choice, Quot.sound
Mlp.Props.C120_near_optimal: propext, Classical.choice, Quot.sound
Mlp.Props.C120_zero_one_certain: propext, Classical.choice, Quot.sound
Mlp.Props.C121_loss_summary: propext, Classical.choice, Quot.sound
Mlp.Props.C121_curve_range: propext, Classical.choice, Quot.sound
Mlp.Props.C121_layout: propext, Classical.choice, Quot.sound
Mlp.Props.C121_summary: propext, Classical.choice, Quot.sound
Mlp.Props.C121_benchmark: propext, Classical.choice, Quot.sound
Mlp.Props.C121_noise: propext, Classical.choice, Quot.sound
Mlp.Props.C121_columns: propext, Classical.choice, Quot.sound
Mlp.Props.C121_loss_table: propext, Classical.choice, Quot.sound
Mlp.Props.C121_predictions: propext, Classical.choice, Quot.sound
Mlp.Props.C122_loss_table: propext, Classical.choice, Quot.sound
Mlp.Props.C122_benchmark: propext, Classical.choice, Quot.sound
Mlp.Props.C122_noise_fit: propext, Classical.choice, Quot.sound
Mlp.Props.C122_noise_predict: propext, Classical.choice, Quot.sound
Mlp.Props.C122_noise_degenerate: propext, Classical.choice, Quot.sound
Mlp.Props.C122_noise_accident: propext, Classical.choice, Quot.sound
Mlp.Props.C122_log_double: propext, Classical.choice, Quot.sound
Mlp.Props.C122_reject: propext, Classical.choice, Quot.sound
Mlp.Props.C122_abs: propext, Classical.choice, Quot.sound
Mlp.Props.C122_square: propext, Classical.choice, Quot.sound
Mlp.Props.C122_square_abs: propext, Classical.choice, Quot.sound
Mlp.Props.C122_closer: propext, Classical.choice, Quot.sound
Mlp.Props.C122_log: propext, Classical.choice, Quot.sound
Mlp.Props.C123_copy: propext, Classical.choice, Quot.sound
Mlp.Props.C123_inplace: propext, Classical.choice, Quot.sound
Mlp.Props.C123_inplace_above: propext, Classical.choice, Quot.sound
Mlp.Props.C123_unchanged: propext, Classical.choice, Quot.sound
Mlp.Props.C124_template: propext, Quot.sound
Mlp.Props.C124_default_strings: propext, Classical.choice, Quot.sound
Mlp.Props.C124_lone_brace: propext
Mlp.Props.C124_bad_name: propext, Quot.sound
Mlp.Props.C124_many: propext, Quot.sound
Mlp.Props.C124_mixed: propext, Quot.sound
Mlp.Props.C124_default: propext, Classical.choice, Quot.sound
Mlp.Props.C124_estimate: propext, Classical.choice, Quot.sound
Mlp.Props.C124_pval: propext, Classical.choice, Quot.sound
Mlp.Props.C125_logsumexp: propext, Classical.choice, Quot.sound
Mlp.Props.C125_normalize: propext, Classical.choice, Quot.sound
Mlp.Props.C125_sum_one: propext, Classical.choice, Quot.sound
Mlp.Props.C125_brier: propext, Classical.choice, Quot.sound
Mlp.Props.C125_sphere: propext, Classical.choice, Quot.sound
Mlp.Props.C125_noise: propext, Classical.choice, Quot.sound
Mlp.Props.C125_double: propext, Classical.choice, Quot.sound
Mlp.Props.C126_losses: propext, Classical.choice, Quot.sound
Mlp.Props.C126_table: propext, Classical.choice, Quot.sound
Mlp.Props.C126_benchmark: propext, Classical.choice, Quot.sound
Mlp.Props.C126_double: propext, Classical.choice, Quot.sound
Mlp.Props.C127_curve_boot: propext, Classical.choice, Quot.sound
Mlp.Props.C127_table: propext, Classical.choice, Quot.sound
Mlp.Props.C127_bootstrap: propext, Classical.choice, Quot.sound
Mlp.Props.C127_curves: propext, Classical.choice, Quot.sound
Mlp.Props.C127_table_success: propext, Classical.choice, Quot.sound
Mlp.Props.C127_doubles: propext, Classical.choice, Quot.sound
Mlp.Props.C127_nearest: propext, Classical.choice, Quot.sound
Mlp.Props.C127_overflow: propext, Classical.choice, Quot.sound
Mlp.Props.C128_mean_and_EB: propext, Classical.choice, Quot.sound
Mlp.Props.C128_test: propext, Classical.choice, Quot.sound
Mlp.Props.C128_combined: propext, Classical.choice, Quot.sound
Mlp.Props.C128_cell: propext, Classical.choice, Quot.sound
Mlp.Props.C128_table: propext, Classical.choice, Quot.sound
Mlp.Props.C128_cell_unpaired: propext, Classical.choice, Quot.sound
Mlp.Props.C128_table_unpaired: propext, Classical.choice, Quot.sound
Mlp.Props.C128_at_most: propext, Classical.choice, Quot.sound
Mlp.Props.C128_at_least: propext, Classical.choice, Quot.sound
Mlp.Props.C128_table_grid: propext, Classical.choice, Quot.sound
Mlp.Props.C128_ieee_paired: propext, Classical.choice, Quot.sound
Mlp.Props.C128_ieee_unpaired: propext, Classical.choice, Quot.sound
Mlp.Props.C128_ieee_integers: propext, Classical.choice, Quot.sound
Mlp.Props.C128_mean: propext, Classical.choice, Quot.sound
Mlp.Props.C129_no_overflow: propext, Classical.choice, Quot.sound
Mlp.Props.C129_paired: propext, Classical.choice, Quot.sound
Mlp.Props.C129_unpaired: propext, Classical.choice, Quot.sound
Mlp.Props.C129_integers: propext, Classical.choice, Quot.sound
Mlp.Props.C129_mean: propext, Classical.choice, Quot.sound
Mlp.Props.C130_t_EB: propext, Classical.choice, Quot.sound
Mlp.Props.C130_t_test: propext, Classical.choice, Quot.sound
Mlp.Props.C130_mean_and_EB: propext, Classical.choice, Quot.sound
Mlp.Props.C131_error_bar: propext, Classical.choice, Quot.sound
Mlp.Props.C131_pairwise: propext, Classical.choice, Quot.sound
Mlp.Props.C131_p_value: propext, Classical.choice, Quot.sound
Mlp.Props.C132_mean_and_EB: propext, Classical.choice, Quot.sound
Mlp.Props.C132_test: propext, Classical.choice, Quot.sound
Mlp.Props.C132_table: propext, Classical.choice, Quot.sound
Mlp.Props.C133_std: propext, Classical.choice, Quot.sound
Mlp.Props.C133_t_EB: propext, Classical.choice, Quot.sound
Mlp.Props.C133_bernstein_EB: propext, Classical.choice, Quot.sound
Mlp.Props.C133_mean_and_EB_bernstein: propext, Classical.choice, Quot.sound
Mlp.Props.C133_mean_and_EB_t: propext, Classical.choice, Quot.sound
Mlp.Props.C133_mean_and_EB_t_open: propext, Classical.choice, Quot.sound
Mlp.Props.C134_bernstein: propext, Classical.choice, Quot.sound
Mlp.Props.C134_t: propext, Classical.choice, Quot.sound
Mlp.Props.C134_t_open: propext, Classical.choice, Quot.sound
Mlp.Props.C135_error_bar: propext, Classical.choice, Quot.sound
Mlp.Props.C135_pairwise: propext, Classical.choice, Quot.sound
Mlp.Props.C135_t: propext, Classical.choice, Quot.sound
Mlp.Props.C136_cell: propext, Classical.choice, Quot.sound
Mlp.Props.C136_cell_nan: propext, Classical.choice, Quot.sound
Mlp.Props.C136_shown: propext, Classical.choice, Quot.sound
Mlp.Props.C136_error_bar: propext, Classical.choice, Quot.sound
Mlp.Props.C136_pairwise: propext, Classical.choice, Quot.sound
Mlp.Props.C136_t: propext, Classical.choice, Quot.sound
Mlp.Props.C137_rounded: propext, Classical.choice, Quot.sound
Mlp.Props.C137_same_table: propext, Classical.choice, Quot.sound
Mlp.Props.C137_valid: propext, Classical.choice, Quot.sound
Mlp.Props.C137_prints: propext, Classical.choice, Quot.sound
Mlp.Props.C138_bernstein_test: propext, Classical.choice, Quot.sound
Mlp.Props.C138_table: propext, Classical.choice, Quot.sound
Mlp.Props.C138_false_alarm: propext, Classical.choice, Quot.sound
Mlp.Props.C138_cell: propext, Classical.choice, Quot.sound
Mlp.Props.C138_shown: propext, Classical.choice, Quot.sound
Mlp.Props.C138_printed: propext, Classical.choice, Quot.sound
Mlp.Props.C138_double_roots: propext, Classical.choice, Quot.sound
Mlp.Props.C139_t_test: propext, Classical.choice, Quot.sound
Mlp.Props.C139_table: propext, Classical.choice, Quot.sound
Mlp.Props.C139_t_stat: propext, Classical.choice, Quot.sound
Mlp.Props.C139_false_alarm: propext, Classical.choice, Quot.sound
Mlp.Props.C139_table_false_alarm: propext, Classical.choice, Quot.sound
Mlp.Props.C139_printed: propext, Classical.choice, Quot.sound
Mlp.Props.C139_double_sf: propext, Classical.choice, Quot.sound
Mlp.Props.C140_significance: propext, Classical.choice, Quot.sound
Mlp.Props.C140_significance_noise: propext, Classical.choice, Quot.sound
Mlp.Props.C140_percentile: propext, Classical.choice, Quot.sound
Mlp.Props.C140_boot_test: propext, Classical.choice, Quot.sound
Mlp.Props.C140_boot_test_noise: propext, Classical.choice, Quot.sound
Mlp.Props.C140_rerun: propext, Classical.choice, Quot.sound
Mlp.Props.C140_boot_EB: propext, Classical.choice, Quot.sound
Mlp.Props.C140_table: propext, Classical.choice, Quot.sound
Mlp.Props.C141_error_bar: propext, Classical.choice, Quot.sound
Mlp.Props.C141_pairwise: propext, Classical.choice, Quot.sound
Mlp.Props.C141_p_value: propext, Classical.choice, Quot.sound
Mlp.Props.C141_error_bar_t: propext, Classical.choice, Quot.sound
Mlp.Props.C141_pairwise_t: propext, Classical.choice, Quot.sound
Mlp.Props.C141_p_value_t: propext, Classical.choice, Quot.sound
Mlp.Props.C141_limit: propext, Classical.choice, Quot.sound
Mlp.Props.C141_success: propext, Classical.choice, Quot.sound
Mlp.Props.C141_regr_error_bar: propext, Classical.choice, Quot.sound
Mlp.Props.C141_regr_pairwise: propext, Classical.choice, Quot.sound
Mlp.Props.C141_regr_p_value: propext, Classical.choice, Quot.sound
Mlp.Props.C141_regr_error_bar_t: propext, Classical.choice, Quot.sound
Mlp.Props.C141_regr_pairwise_t: propext, Classical.choice, Quot.sound
Mlp.Props.C141_regr_p_value_t: propext, Classical.choice, Quot.sound
Mlp.Props.C141_regr_limit: propext, Classical.choice, Quot.sound
Mlp.Props.C141_regr_success: propext, Classical.choice, Quot.sound
Mlp.Props.C142_shown: propext, Classical.choice, Quot.sound
Mlp.Props.C142_auc: propext, Classical.choice, Quot.sound
Mlp.Props.C142_benchmark: propext, Classical.choice, Quot.sound
Mlp.Props.C142_meaning: propext, Classical.choice, Quot.sound
Mlp.Props.C142_standard: propext, Classical.choice, Quot.sound
Mlp.Props.C143_table: propext, Classical.choice, Quot.sound
Mlp.Props.C143_conclusions: propext, Classical.choice, Quot.sound
Mlp.Props.C143_pairwise: propext, Classical.choice, Quot.sound
Mlp.Props.C143_p_values: propext, Classical.choice, Quot.sound
Mlp.Props.C143_conclusions_t: propext, Classical.choice, Quot.sound
Mlp.Props.C143_pairwise_t: propext, Classical.choice, Quot.sound
Mlp.Props.C143_p_values_t: propext, Classical.choice, Quot.sound
Mlp.Props.C143_regr_table: propext, Classical.choice, Quot.sound
Mlp.Props.C143_regr_conclusions: propext, Classical.choice, Quot.sound
Mlp.Props.C143_regr_pairwise: propext, Classical.choice, Quot.sound
Mlp.Props.C143_regr_p_values: propext, Classical.choice, Quot.sound
Mlp.Props.C143_regr_conclusions_t: propext, Classical.choice, Quot.sound
Mlp.Props.C143_regr_pairwise_t: propext, Classical.choice, Quot.sound
Mlp.Props.C143_regr_p_values_t: propext, Classical.choice, Quot.sound
Mlp.Props.C144_overflow: propext, Classical.choice, Quot.sound
Mlp.Props.C144_underflow: propext, Classical.choice, Quot.sound
Mlp.Props.C144_normal: propext, Classical.choice, Quot.sound
Mlp.Props.C144_zero: propext, Classical.choice, Quot.sound
Mlp.Props.C144_quantize: propext, Classical.choice, Quot.sound
Mlp.Props.C144_quantize_special: propext, Classical.choice, Quot.sound
Mlp.Props.C144_scaleb: propext, Classical.choice, Quot.sound
Mlp.Props.C144_create_decimal: propext, Classical.choice, Quot.sound
Mlp.Props.C144_decimalize_cell: propext, Classical.choice, Quot.sound
Mlp.Props.C144_decimalize: propext, Classical.choice, Quot.sound
Mlp.Props.C144_print_estimate: propext, Classical.choice, Quot.sound
Mlp.Props.C144_find_shift: propext, Classical.choice, Quot.sound
Mlp.Props.C144_format_column: propext, Classical.choice, Quot.sound
Mlp.Props.C144_just_format_it: propext, Classical.choice, Quot.sound
Mlp.Props.C145_pairwise: propext, Classical.choice, Quot.sound
Mlp.Props.C145_table: propext, Classical.choice, Quot.sound
Mlp.Props.C145_p_value: propext, Classical.choice, Quot.sound
Mlp.Props.C145_exact: propext, Classical.choice, Quot.sound
Mlp.Props.C145_default: propext, Classical.choice, Quot.sound
Mlp.Props.C145_positions_can_differ: propext, Classical.choice, Quot.sound
Mlp.Props.C146_mean_EB: propext, Classical.choice, Quot.sound
Mlp.Props.C146_test: propext, Classical.choice, Quot.sound
Mlp.Props.C146_mean_EB_test: propext, Classical.choice, Quot.sound
Mlp.Props.C146_table: propext, Classical.choice, Quot.sound
Mlp.Props.C147_auc: propext, Classical.choice, Quot.sound
Mlp.Props.C147_benchmark: propext, Classical.choice, Quot.sound
Mlp.Props.C147_standard: propext, Classical.choice, Quot.sound
Mlp.Props.C148_standard: propext, Classical.choice, Quot.sound
Mlp.Props.C148_mean: propext, Classical.choice, Quot.sound
Mlp.Props.C148_order: propext, Classical.choice, Quot.sound
Mlp.Props.C148_auc: propext, Classical.choice, Quot.sound
Mlp.Props.C148_benchmark: propext, Classical.choice, Quot.sound
Mlp.Props.C149_reject: propext, Classical.choice, Quot.sound
Mlp.Props.C149_abs: propext, Classical.choice, Quot.sound
Mlp.Props.C149_square: propext, Classical.choice, Quot.sound
Mlp.Props.C149_log: propext, Classical.choice, Quot.sound
Mlp.Props.C149_closer: propext, Classical.choice, Quot.sound
Mlp.Props.C149_agree: propext, Classical.choice, Quot.sound
Mlp.Props.C149_library_doubles: propext, Classical.choice, Quot.sound
Mlp.Props.C149_accuracy: propext, Classical.choice, Quot.sound
Mlp.Props.C149_library: propext, Classical.choice, Quot.sound
Mlp.Props.C150_normalize: propext, Classical.choice, Quot.sound
Mlp.Props.C150_normalize_agree: propext, Classical.choice, Quot.sound
Mlp.Props.C150_normalize_reject: propext, Classical.choice, Quot.sound
Mlp.Props.C150_brier_reject: propext, Classical.choice, Quot.sound
Mlp.Props.C150_brier_agree: propext, Classical.choice, Quot.sound
Mlp.Props.C150_brier: propext, Classical.choice, Quot.sound
Mlp.Props.C150_library: propext, Classical.choice, Quot.sound
