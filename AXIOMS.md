# Axioms

Generated by `tools/axioms.py` with `#print axioms` for every theorem named in `MANIFEST.json`.

## none

4 theorems: `C11_best_empty`, `C43_copy`, `C46_refuted`, `C70_transpose`.

## `propext`

17 theorems: `C11_nan_refuted`, `C18_refuted`, `C26_refuted`, `C34_refuted`, `C35_interior_gap`, `C42_unknown`, `C44_unparsable`, `C71_panic`, `C74_exist`, `C74_max_64bit`, `C96_estimate`, `C96_panics`, `C103_other_files`, `C103_silent`, `C103_refuted`, `C133_refuted`, `C152_runs`.

## `Quot.sound`, `propext`

46 theorems: `C01_numFeatures`, `C01_panic_iff`, `C10_never_shrinks`, `C10_panics_iff`, `C12_torn_read_refutes`, `C12_root_rows_refutes`, `C12_overflow_refutes`, `C15_unfair_run`, `C16_capacity_one_panics`, `C17_refuted`, `C18_cutoff_ignored`, `C19_keeps_below_mean`, `C30_get`, `C30_toBools`, `C32_empty`, `C34_fullMatrix`, `C36_argmin`, `C36_argmax`, `C36_argsort`, `C39_union`, `C39_nodup`, `C42_not_target`, `C43_panic`, `C47_nodes_symm`, `C72_saved`, `C72_progress`, `C74_all`, `C74_equal`, `C74_sum`, `C74_max`, `C74_min`, `C77_no_samples`, `C93_sharp`, `C97_node`, `C103_missing`, `C103_command`, `C111_sharp`, `C121_octal`, `C122_same_columns_partial`, `C122_given_root`, `C122_other_columns`, `C122_refuted`, `C122_nil`, `C126_rows`, `C133_total`, `C134_refuted`.

## `Classical.choice`, `Quot.sound`, `propext`

773 theorems: `C01_gcs_greatest`, `C01_lcs_least`, `C01_card_between`, `C02_aic_mono`, `C02_aicc_mono`, `C02_bic_mono`, `C02_aic_le_aicc`, `C02_aicc_formula`, `C02_penalty`, `C03_aicc`, `C03_aic`, `C03_no_panic`, `C03_panic_no_feature`, `C03_rssTol_needed`, `C04_panic_iff`, `C04_length`, `C04_least_squares`, `C04_rss`, `C05_nested`, `C05_truncation_refutes`, `C06_every_model_once`, `C06_own_score`, `C07_sorted`, `C07_best`, `C08_sorted`, `C08_stable`, `C09_top_scores`, `C09_order`, `C09_dropped_not_better`, `C10_capacity`, `C10_effective_capacity`, `C10_zero_capacity`, `C11_best_is_max`, `C11_best_monotone`, `C12_no_better_model_extended`, `C12_no_better_model`, `C12_best_is_real`, `C12_regression`, `C13_each_model_once`, `C13_own_score`, `C13_at_most`, `C14_no_deadlock`, `C15_bounded_work`, `C15_work_enabled`, `C15_terminates`, `C16_clean_exit`, `C16_exit_only_when_done`, `C16_no_panic`, `C17_root_never_listed`, `C17_root_partial`, `C18_prune_rule_partial`, `C19_not_emptied`, `C19_shrinks_partial`, `C19_bound_refuted`, `C20_monotone`, `C20_exact`, `C20_lag`, `C21_snapshot`, `C21_no_mix`, `C21_no_deadlock`, `C22_adds`, `C22_fold`, `C22_order`, `C23_no_panic`, `C23_no_duplicates`, `C23_grows`, `C24_worst`, `C24_best`, `C24_best_of_all`, `C24_best_item`, `C25_keeps_best`, `C26_selection_score`, `C26_no_overflow_partial`, `C27_legal`, `C27_no_panic`, `C27_accepted`, `C28_matching`, `C29_best_item_partial`, `C29_refuted`, `C30_flip_twice`, `C30_negative_index`, `C31_selected`, `C31_inverse`, `C31_model`, `C31_inverse`, `C31_panic`, `C31_same`, `C32_columns`, `C32_predict`, `C33_product_partial`, `C33_single_partial`, `C33_count`, `C33_rows`, `C33_position_three`, `C33_refuted`, `C33_exact`, `C34_monomials_partial`, `C34_four_columns`, `C34_six_columns`, `C34_four_five_columns`, `C35_permutation`, `C37_distribution`, `C37_monotone`, `C37_shift`, `C37_argument`, `C38_geometric`, `C38_increasing`, `C40_symmetric`, `C40_range_partial`, `C40_full_refuted`, `C41_each_once`, `C41_never_twice`, `C41_no_deadlock`, `C41_terminates`, `C41_count`, `C41_best`, `C42_inverse`, `C42_injective`, `C43_features`, `C43_target`, `C43_wellFormed`, `C43_compose`, `C44_round_trip`, `C44_write_again`, `C44_out_of_range`, `C44_text_round_trip`, `C44_text_values`, `C44_text_crlf`, `C45_struct_round_trip`, `C45_round_trip`, `C45_text_round_trip`, `C45_text_damaged`, `C46_text_node`, `C46_text_list_partial`, `C46_text_full_list`, `C46_text_damaged`, `C46_node`, `C46_node_no_panic`, `C46_list_partial`, `C46_full_list`, `C46_distinct`, `C47_nodes_refl`, `C47_nodes_sound_partial`, `C47_list_sound`, `C47_list_refl_symm`, `C47_data_refl_symm`, `C47_data_sound_partial`, `C47_refuted_flip`, `C47_refuted_names`, `C47_refuted_nan`, `C47_not_transitive`, `C48_array`, `C48_twice`, `C48_constant_array`, `C48_cols`, `C48_panic`, `C48_constant_column`, `C48_dataset`, `C48_bias`, `C48_dataset_twice`, `C49_predict_partial`, `C49_otherwise`, `C49_refuted`, `C50_names_partial`, `C50_rounds_partial`, `C50_refuted`, `C51_shrinks`, `C51_rounds`, `C51_stops`, `C51_empty_path`, `C51_after_partial`, `C51_count`, `C51_returns`, `C51_refuted`, `C52_growth`, `C52_minimiser`, `C52_odd`, `C52_zero`, `C52_nonexpansive`, `C53_covDotBeta`, `C53_covDotBeta_sweep`, `C53_indices`, `C53_coordinate`, `C53_descent`, `C53_zero`, `C54_fixed_point`, `C54_zero`, `C55_selected_partial`, `C55_gap_partial`, `C55_refuted`, `C56_x0_ignored`, `C56_x0_overwritten`, `C56_first_feature`, `C56_orthogonal_partial`, `C56_refuted`, `C57_no_panic`, `C57_no_deadlock`, `C57_terminates`, `C57_each_once`, `C57_never_twice`, `C57_result`, `C57_deterministic`, `C57_worker`, `C57_nodes`, `C57_stateless`, `C57_worker_total`, `C58_no_panic`, `C58_no_deadlock`, `C58_terminates`, `C58_each_once`, `C58_mean`, `C58_returns`, `C58_threshold`, `C59_apply`, `C59_count`, `C59_idempotent`, `C60_symmetric`, `C60_centred`, `C60_empirical`, `C60_covariance`, `C61_panic`, `C61_partition`, `C62_panic`, `C62_order`, `C62_coeff`, `C62_best_on_order`, `C62_greedy`, `C62_no_overrun`, `C62_stop_partial`, `C62_zero_column`, `C62_refuted`, `C63_path`, `C63_terminates`, `C63_empty`, `C64_equicorrelation`, `C64_optimal`, `C64_estimator`, `C64_path`, `C65_pseudoInverse`, `C65_pseudoInverseXTX`, `C65_minimum_norm`, `C65_small_values`, `C65_contract`, `C65_any_decomposition`, `C66_projection`, `C66_diagonal`, `C67_features`, `C67_enough`, `C68_extract`, `C68_criteria_partial`, `C68_refuted`, `C69_pure`, `C69_elastic`, `C69_cLasso`, `C69_projection_unique`, `C69_cLasso_zero`, `C69_cLasso_linear`, `C69_cLasso_update`, `C70_colView`, `C70_at`, `C70_compose`, `C70_identity`, `C70_sliceVec`, `C70_vecView`, `C70_vecCompose`, `C71_average`, `C72_bounded`, `C72_terminates`, `C73_reported_pruned_partial`, `C73_refuted`, `C75_fixed_point`, `C75_descent_partial`, `C75_zero_partial`, `C75_refuted`, `C75_diverges`, `C76_entries`, `C76_panic`, `C76_refuted`, `C76_psd_partial`, `C76_dominant_partial`, `C77_halves`, `C77_full`, `C77_mean`, `C78_hat`, `C78_leave_one_out`, `C78_between_partial`, `C78_refuted`, `C79_lines_partial`, `C79_last_missing`, `C79_refuted`, `C80_range`, `C80_entrances`, `C80_panic`, `C81_range_partial`, `C81_refuted`, `C82_enough_rows_partial`, `C82_few_rows`, `C82_refuted`, `C82_large_step`, `C83_returns_partial`, `C83_optimal_partial`, `C83_refuted`, `C84_complete_partial`, `C84_refuted`, `C85_no_memory`, `C85_valid`, `C85_rows`, `C85_thresholded_panics`, `C86_identity`, `C87_saved`, `C87_lambdas`, `C87_cd`, `C88_written`, `C88_unknown`, `C88_lars`, `C89_table`, `C89_command`, `C89_exact`, `C90_errors_partial`, `C90_offset`, `C90_refuted`, `C91_file`, `C91_best_coeff_partial`, `C91_coeff_partial`, `C91_stale`, `C91_refuted`, `C92_can_end`, `C92_initial_omitted`, `C92_optimal_partial`, `C92_best_lost`, `C92_refuted`, `C93_queue_length`, `C93_no_eviction`, `C93_defaults`, `C93_can_end`, `C93_optimal`, `C94_text_load`, `C94_text_damaged`, `C94_load`, `C94_malformed`, `C94_missing`, `C94_quality`, `C94_deviations`, `C94_lambdas`, `C94_command`, `C95_figures_partial`, `C95_images`, `C95_range_ignored`, `C95_refuted`, `C96_largest`, `C96_nodes`, `C96_search`, `C97_coefficients`, `C97_predictions`, `C97_errors`, `C97_squared_akaike`, `C98_kappa`, `C98_report`, `C98_panics`, `C98_progress`, `C98_single_deviation`, `C98_ends`, `C98_refuted`, `C99_optimal`, `C99_file_partial`, `C99_no_exact_fit`, `C99_reload_partial`, `C99_lost`, `C99_refuted`, `C100_data`, `C100_criteria_partial`, `C100_written`, `C100_default_paths`, `C100_always`, `C100_refuted`, `C101_large`, `C101_kappa`, `C101_result_partial`, `C101_nothing`, `C101_refuted`, `C102_unset`, `C102_set`, `C102_no_iterations`, `C102_reported`, `C102_eta_unused`, `C102_new`, `C102_getX`, `C102_string`, `C102_determined_partial`, `C102_refuted`, `C103_round_trip_partial`, `C103_save_panics`, `C103_text_round_trip_partial`, `C104_path_partial`, `C104_nodes_partial`, `C104_estimator`, `C104_refuted`, `C105_endless`, `C105_returns_partial`, `C105_orthogonal`, `C105_command`, `C105_refuted`, `C106_never_back`, `C106_limit_partial`, `C106_solution_partial`, `C106_stops_partial`, `C106_warning`, `C106_no_stop`, `C106_refuted`, `C107_fit_partial`, `C107_search_partial`, `C107_ranking_partial`, `C107_tiny`, `C107_refuted`, `C108_unique`, `C108_scale`, `C108_agree_partial`, `C108_path_partial`, `C108_orthogonal_partial`, `C108_refuted`, `C109_rule`, `C109_sound_partial`, `C109_refuted`, `C110_path_partial`, `C110_units_partial`, `C110_small`, `C110_refuted`, `C111_within`, `C111_rounding`, `C111_exact_search`, `C111_rounded_aicc_mono`, `C111_monotone`, `C112_numeral`, `C112_exact`, `C112_no_number`, `C112_table`, `C112_ragged`, `C112_numbers_partial`, `C112_blanks`, `C112_readme`, `C112_refuted`, `C113_returns_partial`, `C113_never`, `C113_iff`, `C113_refuted`, `C114_reached_partial`, `C114_best_partial`, `C114_few_rows`, `C114_refuted`, `C115_words`, `C115_read`, `C115_never`, `C115_no_result`, `C115_iff`, `C115_refuted`, `C115_lasso_partial`, `C115_constant`, `C115_starts`, `C116_best`, `C116_len`, `C116_saved_partial`, `C116_quiet`, `C116_insert`, `C116_refuted`, `C117_metropolis`, `C117_boltzmann`, `C117_converges`, `C117_low_temperature`, `C118_listed_partial`, `C118_last_column`, `C118_refuted`, `C119_best_score`, `C119_best_model`, `C119_regression`, `C120_support`, `C120_error`, `C120_exact`, `C120_coherent`, `C121_int`, `C121_two_dashes_partial`, `C121_one_dash`, `C121_refuted`, `C121_documented_partial`, `C121_unknown`, `C121_invalid`, `C121_end`, `C121_help`, `C123_geometric`, `C123_tends`, `C123_uniform`, `C124_columns`, `C124_error`, `C124_random`, `C125_support`, `C125_error`, `C125_signs`, `C125_lars`, `C125_random`, `C126_orders`, `C126_split`, `C126_halves`, `C126_unbiased`, `C126_consistent`, `C126_partitions`, `C127_monotone`, `C127_predictions`, `C127_path`, `C128_fit`, `C128_lasso`, `C128_order`, `C128_paths`, `C129_errors`, `C129_panics_iff`, `C129_no_panic_partial`, `C129_reads`, `C129_zero_value`, `C129_own_files`, `C129_refuted`, `C129_capacity_refuted`, `C129_int`, `C129_entry`, `C129_capacity`, `C130_unbiased`, `C130_best`, `C130_only_best`, `C130_predictions`, `C130_rss`, `C130_variance`, `C131_underfit`, `C131_select`, `C131_bic`, `C131_silent`, `C131_sa_bic`, `C131_sa_aicc`, `C131_tends_aicc`, `C131_tends_bic`, `C131_consistent`, `C132_only_line_252_partial`, `C132_return`, `C132_runs`, `C132_refuted`, `C132_score_refuted`, `C133_sorted`, `C133_stable`, `C133_len`, `C133_nan_first`, `C133_number_first_partial`, `C133_best_number_partial`, `C133_stuck`, `C133_missing_partial`, `C134_first_number_partial`, `C134_best_score_partial`, `C134_nan_means_all`, `C134_response`, `C134_finite`, `C134_finite_bounds`, `C134_finite_search`, `C135_no_rounding`, `C135_panic`, `C135_exact`, `C135_small`, `C135_refused_partial`, `C135_ones`, `C135_accepted`, `C135_refuted`, `C135_response`, `C135_response_refuted`, `C136_predict`, `C136_dot`, `C136_rss`, `C136_aicc`, `C136_penalty`, `C136_search`, `C136_numbers`, `C137_contract`, `C137_nearest`, `C137_accuracy`, `C137_too_large`, `C137_text`, `C137_large`, `C137_number_iff`, `C137_file`, `C137_data`, `C137_last`, `C138_exists`, `C138_seventeen`, `C138_fifteen`, `C138_text`, `C138_sum`, `C138_dataset`, `C138_node`, `C139_mean`, `C139_std`, `C139_normalized`, `C139_dataset`, `C139_binary64`, `C140_exact`, `C140_objective`, `C140_selected`, `C140_normalised`, `C140_binary64`, `C141_feature`, `C141_response`, `C141_finite`, `C141_identity`, `C141_identity_partial`, `C141_refuted`, `C142_passes_partial`, `C142_no_column`, `C142_endless`, `C142_ends`, `C142_refuted`, `C143_no_node`, `C143_noticed`, `C143_complete`, `C144_lucky`, `C144_almost_surely`, `C145_accurate_partial`, `C145_monotone`, `C145_overflow`, `C145_billion`, `C145_refuted`, `C146_range_partial`, `C146_sum`, `C146_accurate`, `C146_nan`, `C146_refuted`, `C147_accurate`, `C147_ordered`, `C147_nan_first`, `C147_nan_all`, `C147_no_file`, `C147_binary64`, `C148_kappa`, `C148_full`, `C148_mean`, `C148_chosen`, `C149_overfit`, `C149_select`, `C149_consistent_partial`, `C149_inconsistent`, `C149_refuted`, `C150_positive_partial`, `C150_kappa_nan`, `C150_best`, `C150_all`, `C150_refuted`, `C151_passes_partial`, `C151_first`, `C151_first_returns`, `C151_refuted`, `C152_cov`, `C152_cohen_partial`, `C152_cohen_distinct`, `C152_cohen_return`, `C152_cohen_refuted`, `C152_path_partial`, `C152_path_return`, `C152_path_refuted`, `C153_prediction`, `C153_sparse`, `C153_orthogonal`, `C153_lars`, `C153_crd`, `C153_random`, `C153_random_sparse`, `C153_noise`, `C154_same`, `C154_group_partial`, `C154_group_cLasso_partial`, `C154_copy`, `C154_never`, `C154_optimum`, `C154_refuted`, `C154_tiny`, `C155_path_partial`, `C155_refuted`, `C156_score`, `C156_select`, `C156_brute`, `C156_omp_partial`, `C156_refuted`, `C157_error`, `C157_size`, `C157_log`, `C157_coherence`, `C158_rate`, `C158_iterations`, `C158_all_selected`, `C158_normalised`, `C158_linear`, `C158_coefficients`, `C159_report`, `C159_list`, `C159_regression`, `C160_size`, `C160_few`, `C160_strong`, `C160_rows`, `C160_lars_rows`, `C160_lars`, `C160_random`, `C161_exponential`, `C161_choice`, `C161_samples`, `C162_errors`, `C162_choice`, `C162_samples`, `C163_length`, `C163_combinations`, `C163_selection`, `C163_attained`, `C164_recovers`, `C164_quadratic`, `C164_definite`, `C164_frobenius`, `C164_probability`, `C164_samples`, `C165_elastic`, `C165_cLasso`, `C165_unique`, `C166_best`, `C166_runs`, `C167_monotone`, `C167_chance`, `C167_tail`, `C168_exact`, `C168_near`, `C168_nested`, `C169_search`, `C170_fit`, `C170_search`, `C170_annealing`, `C170_crd`, `C170_lars`, `C170_rows`, `C170_omp`, `C171_fit`, `C171_ranking`, `C172_rss`, `C172_scores`, `C172_best`, `C172_search`, `C173_bic`, `C173_aicc`, `C173_bic_aicc`, `C173_brute`, `C173_path`, `C173_select`, `C174_omp`, `C175_truncate`, `C175_change`, `C176_fit`, `C176_aic`, `C176_bic`, `C176_aicc`, `C176_brute`, `C176_select`, `C177_fit`, `C177_brute`, `C177_select`, `C178_restrict`, `C178_path`, `C179_omp`, `C180_omp`, `C181_objective`, `C181_solutions`, `C181_path`, `C182_prefix`, `C182_same`, `C182_error`, `C183_larger`, `C183_prefix`.
