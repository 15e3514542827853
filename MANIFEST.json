{
 "claims": [
  {
   "property": "C01",
   "status": "proved",
   "theorems": [
    "GoSelect.C01_numFeatures",
    "GoSelect.C01_gcs_greatest",
    "GoSelect.C01_lcs_least",
    "GoSelect.C01_card_between",
    "GoSelect.C01_panic_iff"
   ],
   "note": "Capacity of the argument slice is taken to be its length."
  },
  {
   "property": "C02",
   "status": "proved",
   "theorems": [
    "GoSelect.C02_aic_mono",
    "GoSelect.C02_aicc_mono",
    "GoSelect.C02_bic_mono",
    "GoSelect.C02_aic_le_aicc",
    "GoSelect.C02_aicc_formula",
    "GoSelect.C02_penalty"
   ],
   "note": "Over the reals; positive RSS."
  },
  {
   "property": "C03",
   "status": "proved",
   "theorems": [
    "GoSelect.C03_aicc",
    "GoSelect.C03_aic",
    "GoSelect.C03_no_panic",
    "GoSelect.C03_panic_no_feature",
    "GoSelect.C03_rssTol_needed"
   ],
   "note": "C03_rssTol_needed shows that the hypothesis on RssTol cannot be dropped. The upper bound needs RSS <= MaxFloat64."
  },
  {
   "property": "C04",
   "status": "proved",
   "theorems": [
    "GoSelect.C04_panic_iff",
    "GoSelect.C04_length",
    "GoSelect.C04_least_squares",
    "GoSelect.C04_rss"
   ],
   "note": "The SVD is a parameter with its contract; singular values are 0 or above 1e-6."
  },
  {
   "property": "C05",
   "status": "proved",
   "theorems": [
    "GoSelect.C05_nested",
    "GoSelect.C05_truncation_refutes"
   ],
   "note": "C05_truncation_refutes gives the failure caused by truncation."
  },
  {
   "property": "C06",
   "status": "proved",
   "theorems": [
    "GoSelect.C06_every_model_once",
    "GoSelect.C06_own_score"
   ],
   "note": "Fit, Rss and Aicc are arbitrary functions of the model; scores from any linear order."
  },
  {
   "property": "C07",
   "status": "proved",
   "theorems": [
    "GoSelect.C07_sorted",
    "GoSelect.C07_best"
   ],
   "note": "Fit, Rss and Aicc are arbitrary functions of the model; scores from any linear order."
  },
  {
   "property": "C08",
   "status": "proved",
   "theorems": [
    "GoSelect.C08_sorted",
    "GoSelect.C08_stable"
   ],
   "note": "Scores from any linear order (no NaN; with NaN: C133)."
  },
  {
   "property": "C09",
   "status": "proved",
   "theorems": [
    "GoSelect.C09_top_scores",
    "GoSelect.C09_order",
    "GoSelect.C09_dropped_not_better"
   ],
   "note": "Scores from any linear order (no NaN; with NaN: C133)."
  },
  {
   "property": "C10",
   "status": "proved",
   "theorems": [
    "GoSelect.C10_capacity",
    "GoSelect.C10_effective_capacity",
    "GoSelect.C10_never_shrinks",
    "GoSelect.C10_panics_iff",
    "GoSelect.C10_zero_capacity"
   ],
   "note": "Scores from any linear order (no NaN)."
  },
  {
   "property": "C11",
   "status": "proved",
   "theorems": [
    "GoSelect.C11_best_is_max",
    "GoSelect.C11_best_monotone",
    "GoSelect.C11_best_empty",
    "GoSelect.C11_nan_refuted"
   ],
   "note": "Scores from any linear order; C11_nan_refuted shows that NaN scores break the claim; what holds then is C133."
  },
  {
   "property": "C12",
   "status": "proved",
   "theorems": [
    "GoSelect.C12_no_better_model_extended",
    "GoSelect.C12_no_better_model",
    "GoSelect.C12_best_is_real",
    "GoSelect.C12_torn_read_refutes",
    "GoSelect.C12_root_rows_refutes",
    "GoSelect.C12_overflow_refutes",
    "GoSelect.C12_regression"
   ],
   "note": "Bounds validity is a hypothesis (C03 gives it for exact fits). C12_torn_read_refutes, C12_root_rows_refutes, C12_overflow_refutes show that the three side conditions are needed."
  },
  {
   "property": "C13",
   "status": "proved",
   "theorems": [
    "GoSelect.C13_each_model_once",
    "GoSelect.C13_own_score",
    "GoSelect.C13_at_most"
   ],
   "note": "Fit, Rss, Aicc and bounds are arbitrary functions."
  },
  {
   "property": "C14",
   "status": "proved",
   "theorems": [
    "GoSelect.C14_no_deadlock"
   ],
   "note": "For every comparison of criterion values, so also with NaN among them; the same holds for C15 and C16."
  },
  {
   "property": "C15",
   "status": "proved",
   "theorems": [
    "GoSelect.C15_bounded_work",
    "GoSelect.C15_work_enabled",
    "GoSelect.C15_terminates",
    "GoSelect.C15_unfair_run"
   ],
   "note": "Strong fairness of the select statement is assumed in C15_terminates; C15_unfair_run shows that it is needed."
  },
  {
   "property": "C16",
   "status": "proved",
   "theorems": [
    "GoSelect.C16_clean_exit",
    "GoSelect.C16_exit_only_when_done",
    "GoSelect.C16_no_panic",
    "GoSelect.C16_capacity_one_panics"
   ],
   "note": "For MaxItems other than 1; C16_capacity_one_panics covers 1."
  },
  {
   "property": "C17",
   "status": "partial",
   "theorems": [
    "GoSelect.C17_refuted",
    "GoSelect.C17_root_never_listed",
    "GoSelect.C17_root_partial"
   ],
   "note": "False as stated: C17_refuted. C17_root_never_listed says what happens, C17_root_partial gives the claim when another model is at least as good."
  },
  {
   "property": "C18",
   "status": "partial",
   "theorems": [
    "GoSelect.C18_cutoff_ignored",
    "GoSelect.C18_prune_rule_partial",
    "GoSelect.C18_refuted"
   ],
   "note": "False as stated: C18_refuted. C18_cutoff_ignored shows that the cutoff has no effect, C18_prune_rule_partial gives the actual rule."
  },
  {
   "property": "C19",
   "status": "partial",
   "theorems": [
    "GoSelect.C19_keeps_below_mean",
    "GoSelect.C19_not_emptied",
    "GoSelect.C19_shrinks_partial",
    "GoSelect.C19_bound_refuted"
   ],
   "note": "Order, mean rule and non-emptiness proved. The size claim is false: C19_bound_refuted; C19_shrinks_partial gives what holds."
  },
  {
   "property": "C20",
   "status": "proved",
   "theorems": [
    "GoSelect.C20_monotone",
    "GoSelect.C20_exact",
    "GoSelect.C20_lag"
   ],
   "note": ""
  },
  {
   "property": "C21",
   "status": "proved",
   "theorems": [
    "GoSelect.C21_snapshot",
    "GoSelect.C21_no_mix",
    "GoSelect.C21_no_deadlock"
   ],
   "note": "The RWMutex is a labelled transition system; one interleaving step per shared access."
  },
  {
   "property": "C22",
   "status": "proved",
   "theorems": [
    "GoSelect.C22_adds",
    "GoSelect.C22_fold",
    "GoSelect.C22_order"
   ],
   "note": "Exact real arithmetic."
  },
  {
   "property": "C23",
   "status": "proved",
   "theorems": [
    "GoSelect.C23_no_panic",
    "GoSelect.C23_no_duplicates",
    "GoSelect.C23_grows"
   ],
   "note": ""
  },
  {
   "property": "C24",
   "status": "proved",
   "theorems": [
    "GoSelect.C24_worst",
    "GoSelect.C24_best",
    "GoSelect.C24_best_of_all",
    "GoSelect.C24_best_item"
   ],
   "note": "Scores from any linear order (no NaN)."
  },
  {
   "property": "C25",
   "status": "proved",
   "theorems": [
    "GoSelect.C25_keeps_best"
   ],
   "note": "Equal selections have equal scores, as in SelectModelSA."
  },
  {
   "property": "C26",
   "status": "partial",
   "theorems": [
    "GoSelect.C26_selection_score",
    "GoSelect.C26_no_overflow_partial",
    "GoSelect.C26_refuted"
   ],
   "note": "False as stated: C26_refuted (coefficients of an overwritten entry survive). C26_selection_score holds always, C26_no_overflow_partial gives the full claim as long as the list does not overflow."
  },
  {
   "property": "C27",
   "status": "proved",
   "theorems": [
    "GoSelect.C27_legal",
    "GoSelect.C27_no_panic",
    "GoSelect.C27_accepted"
   ],
   "note": "Exact real arithmetic; costs at most MaxFloat64."
  },
  {
   "property": "C28",
   "status": "proved",
   "theorems": [
    "GoSelect.C28_matching"
   ],
   "note": "Exact real arithmetic; costs at most MaxFloat64."
  },
  {
   "property": "C29",
   "status": "partial",
   "theorems": [
    "GoSelect.C29_best_item_partial",
    "GoSelect.C29_refuted"
   ],
   "note": "BestItem has the smallest accepted cost. Selected need not be that model: C29_refuted."
  },
  {
   "property": "C30",
   "status": "proved",
   "theorems": [
    "GoSelect.C30_get",
    "GoSelect.C30_toBools",
    "GoSelect.C30_flip_twice",
    "GoSelect.C30_negative_index"
   ],
   "note": ""
  },
  {
   "property": "C31",
   "status": "proved",
   "theorems": [
    "GoSelect.C31_selected",
    "GoSelect.C31_inverse",
    "GoSelect.C31_model",
    "GoSelect.C31_inverse",
    "GoSelect.C31_panic",
    "GoSelect.C31_same"
   ],
   "note": "The selection written by MarshalJSON is part of C46."
  },
  {
   "property": "C32",
   "status": "proved",
   "theorems": [
    "GoSelect.C32_columns",
    "GoSelect.C32_predict",
    "GoSelect.C32_empty"
   ],
   "note": ""
  },
  {
   "property": "C33",
   "status": "partial",
   "theorems": [
    "GoSelect.C33_product_partial",
    "GoSelect.C33_single_partial",
    "GoSelect.C33_count",
    "GoSelect.C33_rows",
    "GoSelect.C33_position_three",
    "GoSelect.C33_refuted",
    "GoSelect.C33_exact"
   ],
   "note": "Holds for repeat up to 3 (C33_product_partial). From repeat 4 on append writes into spare capacity shared between items and products are lost (C33_refuted); C33_exact says which positions are overwritten; number and length of the results hold for all inputs (C33_count, C33_rows)."
  },
  {
   "property": "C34",
   "status": "partial",
   "theorems": [
    "GoSelect.C34_monomials_partial",
    "GoSelect.C34_fullMatrix",
    "GoSelect.C34_four_columns",
    "GoSelect.C34_six_columns",
    "GoSelect.C34_four_five_columns",
    "GoSelect.C34_refuted"
   ],
   "note": "Holds for matrices with up to three columns (C34_monomials_partial). With four columns the power table produced by IterProduct is wrong (C34_refuted): four or five columns get p+1 copies of the p-th power of column 3 (C34_four_columns, C34_four_five_columns), six or more get nothing (C34_six_columns)."
  },
  {
   "property": "C35",
   "status": "proved",
   "theorems": [
    "GoSelect.C35_permutation",
    "GoSelect.C35_interior_gap"
   ],
   "note": ""
  },
  {
   "property": "C36",
   "status": "proved",
   "theorems": [
    "GoSelect.C36_argmin",
    "GoSelect.C36_argmax",
    "GoSelect.C36_argsort"
   ],
   "note": ""
  },
  {
   "property": "C37",
   "status": "proved",
   "theorems": [
    "GoSelect.C37_distribution",
    "GoSelect.C37_monotone",
    "GoSelect.C37_shift",
    "GoSelect.C37_argument"
   ],
   "note": ""
  },
  {
   "property": "C38",
   "status": "proved",
   "theorems": [
    "GoSelect.C38_geometric",
    "GoSelect.C38_increasing"
   ],
   "note": ""
  },
  {
   "property": "C39",
   "status": "proved",
   "theorems": [
    "GoSelect.C39_union",
    "GoSelect.C39_nodup"
   ],
   "note": ""
  },
  {
   "property": "C40",
   "status": "partial",
   "theorems": [
    "GoSelect.C40_symmetric",
    "GoSelect.C40_range_partial",
    "GoSelect.C40_full_refuted"
   ],
   "note": "Two selections of all features make the denominator zero: the result is NaN (C40_full_refuted). The range holds in all other cases."
  },
  {
   "property": "C41",
   "status": "proved",
   "theorems": [
    "GoSelect.C41_each_once",
    "GoSelect.C41_never_twice",
    "GoSelect.C41_no_deadlock",
    "GoSelect.C41_terminates",
    "GoSelect.C41_count",
    "GoSelect.C41_best"
   ],
   "note": "Goroutines that outlive the call are not a deadlock of the caller; see DESIGN.md."
  },
  {
   "property": "C42",
   "status": "proved",
   "theorems": [
    "GoSelect.C42_inverse",
    "GoSelect.C42_injective",
    "GoSelect.C42_not_target",
    "GoSelect.C42_unknown"
   ],
   "note": ""
  },
  {
   "property": "C43",
   "status": "proved",
   "theorems": [
    "GoSelect.C43_features",
    "GoSelect.C43_target",
    "GoSelect.C43_wellFormed",
    "GoSelect.C43_compose",
    "GoSelect.C43_panic",
    "GoSelect.C43_copy"
   ],
   "note": ""
  },
  {
   "property": "C44",
   "status": "proved",
   "theorems": [
    "GoSelect.C44_round_trip",
    "GoSelect.C44_write_again",
    "GoSelect.C44_out_of_range",
    "GoSelect.C44_unparsable",
    "GoSelect.C44_text_round_trip",
    "GoSelect.C44_text_values",
    "GoSelect.C44_text_crlf"
   ],
   "note": "C44_round_trip and C44_write_again hold for any CSV text layer and number format that meet the contracts; C44_text_round_trip and C44_text_values are for the models of encoding/csv, %f and ParseFloat (finite numbers, any format in which decimal numbers are converted to a closest number). C44_text_crlf: the line break \\r\\n in a name is read as \\n."
  },
  {
   "property": "C45",
   "status": "proved",
   "theorems": [
    "GoSelect.C45_struct_round_trip",
    "GoSelect.C45_round_trip",
    "GoSelect.C45_text_round_trip",
    "GoSelect.C45_text_damaged"
   ],
   "note": "For every JSON codec that reads what it writes (C45_round_trip), and for the text format of encoding/json itself (C45_text_round_trip); there the only contract is that the digits written for a number are read as this number."
  },
  {
   "property": "C46",
   "status": "partial",
   "theorems": [
    "GoSelect.C46_text_node",
    "GoSelect.C46_text_list_partial",
    "GoSelect.C46_text_full_list",
    "GoSelect.C46_text_damaged",
    "GoSelect.C46_node",
    "GoSelect.C46_node_no_panic",
    "GoSelect.C46_list_partial",
    "GoSelect.C46_full_list",
    "GoSelect.C46_distinct",
    "GoSelect.C46_refuted"
   ],
   "note": "Nodes: full. Lists: false for full lists whose last node is strictly worst (C46_refuted); they lose exactly that node (C46_full_list); all other lists are restored (C46_list_partial, C46_distinct). Also on the level of characters (C46_text_...), where a text that was cut off or continued is an error (C46_text_damaged)."
  },
  {
   "property": "C47",
   "status": "partial",
   "theorems": [
    "GoSelect.C47_nodes_refl",
    "GoSelect.C47_nodes_symm",
    "GoSelect.C47_nodes_sound_partial",
    "GoSelect.C47_list_sound",
    "GoSelect.C47_list_refl_symm",
    "GoSelect.C47_data_refl_symm",
    "GoSelect.C47_data_sound_partial",
    "GoSelect.C47_refuted_flip",
    "GoSelect.C47_refuted_names",
    "GoSelect.C47_refuted_nan",
    "GoSelect.C47_not_transitive"
   ],
   "note": "Reflexive, symmetric, panic free. WasFlipped and the column names are not compared (C47_refuted_flip, C47_refuted_names), and a NaN score equals every score (C47_refuted_nan)."
  },
  {
   "property": "C48",
   "status": "proved",
   "theorems": [
    "GoSelect.C48_array",
    "GoSelect.C48_twice",
    "GoSelect.C48_constant_array",
    "GoSelect.C48_cols",
    "GoSelect.C48_panic",
    "GoSelect.C48_constant_column",
    "GoSelect.C48_dataset",
    "GoSelect.C48_bias",
    "GoSelect.C48_dataset_twice"
   ],
   "note": "Exact for real numbers. The standard deviation threshold 1e-10 is part of the statement. Rounding is not modelled."
  },
  {
   "property": "C49",
   "status": "partial",
   "theorems": [
    "GoSelect.C49_predict_partial",
    "GoSelect.C49_otherwise",
    "GoSelect.C49_refuted"
   ],
   "note": "Holds when the first column of the design matrix is all ones. C49_refuted and C49_otherwise show that without such a column the constant term is lost or scaled."
  },
  {
   "property": "C50",
   "status": "partial",
   "theorems": [
    "GoSelect.C50_names_partial",
    "GoSelect.C50_rounds_partial",
    "GoSelect.C50_refuted"
   ],
   "note": "Proved for a target in the last column, and for every round after the first: the reported paths are the LARS paths of nested column sets, numbered as in the original. False for other target columns (C50_refuted): MapSelectionByName looks columns up in the names, which include the target."
  },
  {
   "property": "C51",
   "status": "partial",
   "theorems": [
    "GoSelect.C51_shrinks",
    "GoSelect.C51_rounds",
    "GoSelect.C51_stops",
    "GoSelect.C51_empty_path",
    "GoSelect.C51_after_partial",
    "GoSelect.C51_count",
    "GoSelect.C51_returns",
    "GoSelect.C51_refuted"
   ],
   "note": "Shrinking, termination, the number of rounds (C51_count) and (under explicit conditions) normal return are proved. False: the caller's matrix and response are normalised in place by line 69 (C51_refuted); an empty path with more than two features to keep panics (C51_empty_path)."
  },
  {
   "property": "C52",
   "status": "proved",
   "theorems": [
    "GoSelect.C52_growth",
    "GoSelect.C52_minimiser",
    "GoSelect.C52_odd",
    "GoSelect.C52_zero",
    "GoSelect.C52_nonexpansive"
   ],
   "note": "Over any linear ordered field. Rounding is not modelled."
  },
  {
   "property": "C53",
   "status": "proved",
   "theorems": [
    "GoSelect.C53_covDotBeta",
    "GoSelect.C53_covDotBeta_sweep",
    "GoSelect.C53_indices",
    "GoSelect.C53_coordinate",
    "GoSelect.C53_descent",
    "GoSelect.C53_zero"
   ],
   "note": "Exact arithmetic, empirical covariance matrix, pure lasso for the objective; the covDotBeta invariant holds for every correction."
  },
  {
   "property": "C54",
   "status": "proved",
   "theorems": [
    "GoSelect.C54_fixed_point",
    "GoSelect.C54_zero"
   ],
   "note": "Exact arithmetic, empirical covariance matrix."
  },
  {
   "property": "C55",
   "status": "partial",
   "theorems": [
    "GoSelect.C55_selected_partial",
    "GoSelect.C55_gap_partial",
    "GoSelect.C55_refuted"
   ],
   "note": "Holds for the selected features (C55_selected_partial). Missing: the features that are not selected; C55_refuted gives normalised data for which convergence is reported while an unselected feature violates its condition by a factor of two. C55_gap_partial bounds how far the result is from optimal in terms of the largest violation among the unselected features."
  },
  {
   "property": "C56",
   "status": "partial",
   "theorems": [
    "GoSelect.C56_x0_ignored",
    "GoSelect.C56_x0_overwritten",
    "GoSelect.C56_first_feature",
    "GoSelect.C56_orthogonal_partial",
    "GoSelect.C56_refuted"
   ],
   "note": "False: the starting vector is ignored and overwritten with zeros, and the first feature is never selected (C56_x0_ignored, C56_x0_overwritten, C56_first_feature, C56_refuted). Every other feature can be selected (C56_orthogonal_partial)."
  },
  {
   "property": "C57",
   "status": "proved",
   "theorems": [
    "GoSelect.C57_no_panic",
    "GoSelect.C57_no_deadlock",
    "GoSelect.C57_terminates",
    "GoSelect.C57_each_once",
    "GoSelect.C57_never_twice",
    "GoSelect.C57_result",
    "GoSelect.C57_deterministic",
    "GoSelect.C57_worker",
    "GoSelect.C57_nodes",
    "GoSelect.C57_stateless",
    "GoSelect.C57_worker_total"
   ],
   "note": "Worker pool as a transition system over all schedules. Solving one problem is a relation that PathSolve constrains (unique indices in range, one coefficient per index); C57_worker shows coordinate descent meets it for every correction and correction state. A correction with state shared by the workers (CLasso) is read and written without synchronisation; that data race is outside the model. Workers are never stopped (workChan is not closed)."
  },
  {
   "property": "C58",
   "status": "proved",
   "theorems": [
    "GoSelect.C58_no_panic",
    "GoSelect.C58_no_deadlock",
    "GoSelect.C58_terminates",
    "GoSelect.C58_each_once",
    "GoSelect.C58_mean",
    "GoSelect.C58_returns",
    "GoSelect.C58_threshold"
   ],
   "note": "Worker pool over all schedules; random partitions are any sequence. Exact arithmetic, so the order in which results arrive does not matter. After the last result one more workload is handed out; its worker and the idle ones are never stopped (workChannel is not closed). The grid needs a point (step at most 9), see C82."
  },
  {
   "property": "C59",
   "status": "proved",
   "theorems": [
    "GoSelect.C59_apply",
    "GoSelect.C59_count",
    "GoSelect.C59_idempotent"
   ],
   "note": ""
  },
  {
   "property": "C60",
   "status": "proved",
   "theorems": [
    "GoSelect.C60_symmetric",
    "GoSelect.C60_centred",
    "GoSelect.C60_empirical",
    "GoSelect.C60_covariance"
   ],
   "note": "Exact arithmetic."
  },
  {
   "property": "C61",
   "status": "proved",
   "theorems": [
    "GoSelect.C61_panic",
    "GoSelect.C61_partition"
   ],
   "note": "Any permutation as outcome of the shuffle. The call panics when one part would be empty (C61_panic)."
  },
  {
   "property": "C62",
   "status": "partial",
   "theorems": [
    "GoSelect.C62_panic",
    "GoSelect.C62_order",
    "GoSelect.C62_coeff",
    "GoSelect.C62_best_on_order",
    "GoSelect.C62_greedy",
    "GoSelect.C62_no_overrun",
    "GoSelect.C62_stop_partial",
    "GoSelect.C62_zero_column",
    "GoSelect.C62_refuted"
   ],
   "note": "Distinct features, zero coefficients outside Order, the fit (least squares when untruncated) on Order, greedy choice and no iteration after the tolerance is reached are proved for all data. The clause on early stops is refuted: a zero first column gives NaN at index 0, Argmax then always returns 0 and the run stops with Order [0]. For non-zero columns and exact fits an early stop means the tolerance was reached or no coefficients do better."
  },
  {
   "property": "C63",
   "status": "proved",
   "theorems": [
    "GoSelect.C63_path",
    "GoSelect.C63_terminates",
    "GoSelect.C63_empty"
   ],
   "note": "For every estimator, also one with state. C63_terminates: the loop ends for lambMin >= 0. Exact arithmetic with IEEE division by zero."
  },
  {
   "property": "C64",
   "status": "proved",
   "theorems": [
    "GoSelect.C64_equicorrelation",
    "GoSelect.C64_optimal",
    "GoSelect.C64_estimator",
    "GoSelect.C64_path"
   ],
   "note": "Path level: every selected feature of every node has correlation plus or minus lambda; optimality from sign and bound conditions; MorsePenroseCD proved to solve the normal equations under the SVD contract."
  },
  {
   "property": "C65",
   "status": "proved",
   "theorems": [
    "GoSelect.C65_pseudoInverse",
    "GoSelect.C65_pseudoInverseXTX",
    "GoSelect.C65_minimum_norm",
    "GoSelect.C65_small_values",
    "GoSelect.C65_contract",
    "GoSelect.C65_any_decomposition"
   ],
   "note": "Exact arithmetic, SVD contract. Singular values between 0 and 1e-3 are used unreciprocated in MorsePenroseCD.C (C65_small_values).  Every real matrix has a decomposition meeting the contract (C65_contract) and the result does not depend on which one is found (C65_any_decomposition)."
  },
  {
   "property": "C66",
   "status": "proved",
   "theorems": [
    "GoSelect.C66_projection",
    "GoSelect.C66_diagonal"
   ],
   "note": "Exact arithmetic, SVD contract."
  },
  {
   "property": "C67",
   "status": "proved",
   "theorems": [
    "GoSelect.C67_features",
    "GoSelect.C67_enough"
   ],
   "note": "The result can be longer than numFeat; 0 and negative numbers give the first node."
  },
  {
   "property": "C68",
   "status": "partial",
   "theorems": [
    "GoSelect.C68_extract",
    "GoSelect.C68_criteria_partial",
    "GoSelect.C68_refuted"
   ],
   "note": "ExtractPath is proved. GetCriteria is proved for ascending selections and false for others (C68_refuted): columns are taken in ascending order, coefficients as listed."
  },
  {
   "property": "C69",
   "status": "proved",
   "theorems": [
    "GoSelect.C69_pure",
    "GoSelect.C69_elastic",
    "GoSelect.C69_cLasso",
    "GoSelect.C69_projection_unique",
    "GoSelect.C69_cLasso_zero",
    "GoSelect.C69_cLasso_linear",
    "GoSelect.C69_cLasso_update"
   ],
   "note": "CLasso up to its own cut-off 1e-10 on the squared norm."
  },
  {
   "property": "C70",
   "status": "proved",
   "theorems": [
    "GoSelect.C70_colView",
    "GoSelect.C70_at",
    "GoSelect.C70_compose",
    "GoSelect.C70_identity",
    "GoSelect.C70_transpose",
    "GoSelect.C70_sliceVec",
    "GoSelect.C70_vecView",
    "GoSelect.C70_vecCompose"
   ],
   "note": ""
  },
  {
   "property": "C71",
   "status": "proved",
   "theorems": [
    "GoSelect.C71_average",
    "GoSelect.C71_panic"
   ],
   "note": ""
  },
  {
   "property": "C72",
   "status": "proved",
   "theorems": [
    "GoSelect.C72_saved",
    "GoSelect.C72_progress",
    "GoSelect.C72_bounded",
    "GoSelect.C72_terminates"
   ],
   "note": "Transition system of the search goroutine, the ticker and the main loop over all schedules; C72_terminates under fair scheduling with any number of ticks, C72_bounded without fairness. Periodic saves race with insertions and may write anything; the final save is exact. Search without panic, writing the file without error."
  },
  {
   "property": "C73",
   "status": "partial",
   "theorems": [
    "GoSelect.C73_reported_pruned_partial",
    "GoSelect.C73_refuted"
   ],
   "note": "False as stated: C73_refuted; C73_reported_pruned_partial gives the bound 2*2^ncols - 1, which is attained (C73_refuted)."
  },
  {
   "property": "C74",
   "status": "proved",
   "theorems": [
    "GoSelect.C74_all",
    "GoSelect.C74_exist",
    "GoSelect.C74_equal",
    "GoSelect.C74_sum",
    "GoSelect.C74_max",
    "GoSelect.C74_min",
    "GoSelect.C74_max_64bit"
   ],
   "note": ""
  },
  {
   "property": "C75",
   "status": "partial",
   "theorems": [
    "GoSelect.C75_fixed_point",
    "GoSelect.C75_descent_partial",
    "GoSelect.C75_zero_partial",
    "GoSelect.C75_refuted",
    "GoSelect.C75_diverges"
   ],
   "note": "Descent holds when Lamb is at most every diagonal entry of the covariance matrix; false otherwise (C75_refuted): with one feature besides the first and a large weight the coefficient and the objective grow without bound with the number of iterations (C75_diverges). The fixed point part holds for every weight (C75_fixed_point)."
  },
  {
   "property": "C76",
   "status": "partial",
   "theorems": [
    "GoSelect.C76_entries",
    "GoSelect.C76_panic",
    "GoSelect.C76_refuted",
    "GoSelect.C76_psd_partial",
    "GoSelect.C76_dominant_partial"
   ],
   "note": "Entries, symmetry and the panic are proved; positive semidefiniteness is false (C76_refuted) and proved only for thresholds that remove no non-zero entry and for results that are diagonally dominant (C76_dominant_partial)."
  },
  {
   "property": "C77",
   "status": "proved",
   "theorems": [
    "GoSelect.C77_halves",
    "GoSelect.C77_no_samples",
    "GoSelect.C77_full",
    "GoSelect.C77_mean"
   ],
   "note": "GetSelection is a function of the indices; exact arithmetic."
  },
  {
   "property": "C78",
   "status": "partial",
   "theorems": [
    "GoSelect.C78_hat",
    "GoSelect.C78_leave_one_out",
    "GoSelect.C78_between_partial",
    "GoSelect.C78_refuted"
   ],
   "note": "The full statement is false (C78_refuted): the squared residual is divided by 1-h instead of its square. Proved: the leave-one-out residual is e/(1-h), and Gcv lies between the root mean square residual and the leave-one-out score."
  },
  {
   "property": "C79",
   "status": "partial",
   "theorems": [
    "GoSelect.C79_lines_partial",
    "GoSelect.C79_last_missing",
    "GoSelect.C79_refuted"
   ],
   "note": "False (C79_refuted, C79_last_missing): the largest feature never has a line. All other lines are proved right."
  },
  {
   "property": "C80",
   "status": "proved",
   "theorems": [
    "GoSelect.C80_range",
    "GoSelect.C80_entrances",
    "GoSelect.C80_panic"
   ],
   "note": "Logarithms of the regularization above -MaxFloat64; feature numbers up to MaxInt32. A path without features panics (C80_panic)."
  },
  {
   "property": "C81",
   "status": "partial",
   "theorems": [
    "GoSelect.C81_range_partial",
    "GoSelect.C81_refuted"
   ],
   "note": "False in both parts (C81_refuted): the grid is exp(-10 + j*step), values between exp(-10) and exp(-1) (C81_range_partial), and maxThreshold is ignored."
  },
  {
   "property": "C82",
   "status": "partial",
   "theorems": [
    "GoSelect.C82_enough_rows_partial",
    "GoSelect.C82_few_rows",
    "GoSelect.C82_refuted",
    "GoSelect.C82_large_step"
   ],
   "note": "Proved for four or more rows; false for two and three rows (C82_few_rows, C82_refuted), where the first part has no rows and the matrix constructor panics. A step above 9 leaves an empty grid (C82_large_step)."
  },
  {
   "property": "C83",
   "status": "partial",
   "theorems": [
    "GoSelect.C83_returns_partial",
    "GoSelect.C83_optimal_partial",
    "GoSelect.C83_refuted"
   ],
   "note": "Proved when no iteration is degenerate (independent columns, no event within the tolerance of the current lambda, one event at a time); false in general: with two joining times closer than lassoTol a zero crossing is ignored and all later nodes have a wrong sign."
  },
  {
   "property": "C84",
   "status": "partial",
   "theorems": [
    "GoSelect.C84_complete_partial",
    "GoSelect.C84_refuted"
   ],
   "note": "Proved when no iteration is degenerate; false in general: with two joining times closer than lassoTol the loop stops far above lambMin."
  },
  {
   "property": "C85",
   "status": "proved",
   "theorems": [
    "GoSelect.C85_no_memory",
    "GoSelect.C85_valid",
    "GoSelect.C85_rows",
    "GoSelect.C85_thresholded_panics"
   ],
   "note": "Exact arithmetic; a constant sampled response (NaN) selects nothing. C85_thresholded_panics: with the thresholded covariance of the full data every sample of another size panics, so that Cohen's kappa cannot be used with it."
  },
  {
   "property": "C86",
   "status": "proved",
   "theorems": [
    "GoSelect.C86_identity"
   ],
   "note": "Exact arithmetic; Identity.Get and PureLasso."
  },
  {
   "property": "C87",
   "status": "proved",
   "theorems": [
    "GoSelect.C87_saved",
    "GoSelect.C87_lambdas",
    "GoSelect.C87_cd"
   ],
   "note": "Exact arithmetic; response not constant. Covers LARS, coordinate descent with the three covariances, and unknown algorithms; the path of coordinate descent under every schedule."
  },
  {
   "property": "C88",
   "status": "proved",
   "theorems": [
    "GoSelect.C88_written",
    "GoSelect.C88_unknown",
    "GoSelect.C88_lars"
   ],
   "note": "Exact arithmetic. C88_lars asks for exact, untruncated decompositions and a first column that is constant or has a standard deviation of at least 1e-10."
  },
  {
   "property": "C89",
   "status": "proved",
   "theorems": [
    "GoSelect.C89_table",
    "GoSelect.C89_command",
    "GoSelect.C89_exact"
   ],
   "note": "Any sort that is a permutation without inversions on values other than NaN."
  },
  {
   "property": "C90",
   "status": "partial",
   "theorems": [
    "GoSelect.C90_errors_partial",
    "GoSelect.C90_offset",
    "GoSelect.C90_refuted"
   ],
   "note": "Proved for data with a first column of ones. False otherwise (C90_refuted): without a constant column the intercept is lost and n*bias^2 is added to the errors of every node (C90_offset), so that the saved criteria do not rank the fits."
  },
  {
   "property": "C91",
   "status": "partial",
   "theorems": [
    "GoSelect.C91_file",
    "GoSelect.C91_best_coeff_partial",
    "GoSelect.C91_coeff_partial",
    "GoSelect.C91_stale",
    "GoSelect.C91_refuted"
   ],
   "note": "Proved: number, distinctness, scores, BestItem, and the coefficients of all entries when at most ten different models were accepted, those of BestItem when no two models tie. False otherwise (C91_refuted): a better eleventh model is saved with the coefficients of the worst of the first ten (C91_stale), even with the wrong number of them."
  },
  {
   "property": "C92",
   "status": "partial",
   "theorems": [
    "GoSelect.C92_can_end",
    "GoSelect.C92_initial_omitted",
    "GoSelect.C92_optimal_partial",
    "GoSelect.C92_best_lost",
    "GoSelect.C92_refuted"
   ],
   "note": "Proved for every model except the one that simulated annealing found, for data that fit without numerical trouble and have fewer columns than rows, a queue of at least 2^(ncols-1) and no torn read. False for the start model (C92_refuted): it is never in the saved list (C92_initial_omitted), so that an optimum found by the first search is lost (C92_best_lost)."
  },
  {
   "property": "C93",
   "status": "proved",
   "theorems": [
    "GoSelect.C93_queue_length",
    "GoSelect.C93_no_eviction",
    "GoSelect.C93_defaults",
    "GoSelect.C93_can_end",
    "GoSelect.C93_optimal",
    "GoSelect.C93_sharp"
   ],
   "note": "C93_optimal inherits the torn-read exception of C12."
  },
  {
   "property": "C94",
   "status": "proved",
   "theorems": [
    "GoSelect.C94_text_load",
    "GoSelect.C94_text_damaged",
    "GoSelect.C94_load",
    "GoSelect.C94_malformed",
    "GoSelect.C94_missing",
    "GoSelect.C94_quality",
    "GoSelect.C94_deviations",
    "GoSelect.C94_lambdas",
    "GoSelect.C94_command"
   ],
   "note": "For every JSON codec that reads what it writes (C94_load), and for the text format of encoding/json itself with numbers rounded to a number format (C94_text_load).  Finite numbers only."
  },
  {
   "property": "C95",
   "status": "partial",
   "theorems": [
    "GoSelect.C95_figures_partial",
    "GoSelect.C95_images",
    "GoSelect.C95_range_ignored",
    "GoSelect.C95_refuted"
   ],
   "note": "Proved: which figures are drawn and their points (C95_figures_partial, the last feature of the path excepted, see C79).  False for the range (C95_refuted): coeffmin and coeffmax are read before the flags are parsed and have no effect (C95_range_ignored)."
  },
  {
   "property": "C96",
   "status": "proved",
   "theorems": [
    "GoSelect.C96_estimate",
    "GoSelect.C96_panics",
    "GoSelect.C96_largest",
    "GoSelect.C96_nodes",
    "GoSelect.C96_search"
   ],
   "note": "Memory is what EstimateMemory counts, not what the Go runtime allocates."
  },
  {
   "property": "C97",
   "status": "proved",
   "theorems": [
    "GoSelect.C97_coefficients",
    "GoSelect.C97_predictions",
    "GoSelect.C97_errors",
    "GoSelect.C97_squared_akaike",
    "GoSelect.C97_node"
   ],
   "note": "Akaike weights are proportional to exp(-AIC/2); the code uses exp(-AIC) (C97_squared_akaike)."
  },
  {
   "property": "C98",
   "status": "partial",
   "theorems": [
    "GoSelect.C98_kappa",
    "GoSelect.C98_report",
    "GoSelect.C98_panics",
    "GoSelect.C98_progress",
    "GoSelect.C98_single_deviation",
    "GoSelect.C98_ends",
    "GoSelect.C98_refuted"
   ],
   "note": "Proved except for the absence of panics, which is false (C98_refuted).  The command can panic exactly when some division of the rows in halves leaves a half without rows or with a constant column (C98_panics), e.g. always when a column has a single deviating value (C98_single_deviation).  Without such a division it cannot panic and ends (C98_ends, C98_progress).  Finite normalised response assumed."
  },
  {
   "property": "C99",
   "status": "partial",
   "theorems": [
    "GoSelect.C99_optimal",
    "GoSelect.C99_file_partial",
    "GoSelect.C99_no_exact_fit",
    "GoSelect.C99_reload_partial",
    "GoSelect.C99_lost",
    "GoSelect.C99_refuted"
   ],
   "note": "Proved: optimality with exact fits (C99_optimal, for data with fewer columns than rows or RSS at least RssTol), when the file can be read (C99_file_partial: iff no listed model, nor any model below it, fits exactly) and that it then restores the list (C99_reload_partial, capacity as in C46).  False in general (C99_refuted): if a model other than the root fits exactly, every run ends with an empty file (C99_lost), because the error of json.Marshal is ignored."
  },
  {
   "property": "C100",
   "status": "partial",
   "theorems": [
    "GoSelect.C100_data",
    "GoSelect.C100_criteria_partial",
    "GoSelect.C100_written",
    "GoSelect.C100_default_paths",
    "GoSelect.C100_always",
    "GoSelect.C100_refuted"
   ],
   "note": "Proved: the saved data set is the normalised one (C100_data); the criteria are those of the saved coefficients with their best intercept on the data of the user, the squared error divided by the variance of the response and the intercept not counted (C100_criteria_partial); no file is written iff a node fits exactly up to an intercept (C100_written), which LassoLars with exact decompositions and no truncated singular value rules out (C100_always).  The number of paths with the default fraction is bounded (C100_default_paths).  False as stated (C100_refuted): the coefficients are in the units of the user, the data set is not, so neither the saved data nor the original data give the saved criteria.  C100_criteria_partial and later assume the target in the last column and a first column that is constant or varies by at least 1e-10."
  },
  {
   "property": "C101",
   "status": "partial",
   "theorems": [
    "GoSelect.C101_large",
    "GoSelect.C101_kappa",
    "GoSelect.C101_result_partial",
    "GoSelect.C101_nothing",
    "GoSelect.C101_refuted"
   ],
   "note": "False as stated (C101_refuted): on normalised data a regularisation of at least 1 selects nothing, whatever the rows (C101_large), two empty selections agree perfectly (C101_kappa), and the largest regularisation of the default grid is 1; it is evaluated first, and under some schedule it is returned (C101_nothing).  Proved: with a regularisation of at least 1 in the grid, the one that is returned selects the same features in both halves of all its samples (C101_result_partial).  Finite normalised response assumed."
  },
  {
   "property": "C102",
   "status": "partial",
   "theorems": [
    "GoSelect.C102_unset",
    "GoSelect.C102_set",
    "GoSelect.C102_no_iterations",
    "GoSelect.C102_reported",
    "GoSelect.C102_eta_unused",
    "GoSelect.C102_new",
    "GoSelect.C102_getX",
    "GoSelect.C102_string",
    "GoSelect.C102_determined_partial",
    "GoSelect.C102_refuted"
   ],
   "note": "False as stated (C102_refuted): the field Eta is reported but never read (C102_eta_unused); the eta that acts is that of the correction.  Proved when the caller gives the correction the reported eta (C102_determined_partial).  C102_reported, C102_unset, C102_set and C102_no_iterations hold as stated; C102_set is for the empirical covariance and rows of the data.  C102_new, C102_getX and C102_string hold as stated; C102_string needs a number format without spaces, as %5.3e."
  },
  {
   "property": "C103",
   "status": "partial",
   "theorems": [
    "GoSelect.C103_round_trip_partial",
    "GoSelect.C103_other_files",
    "GoSelect.C103_silent",
    "GoSelect.C103_save_panics",
    "GoSelect.C103_missing",
    "GoSelect.C103_command",
    "GoSelect.C103_refuted",
    "GoSelect.C103_text_round_trip_partial"
   ],
   "note": "False as stated (C103_refuted): if the file cannot be created, Save returns as if it had succeeded (C103_silent).  The rest is proved: the round trip for a file that can be created (C103_round_trip_partial), other files, the panics of Save, and nil for a missing file with the panic of the commands (C103_missing).  The text formats are parameters with the contracts of C44; with the models of the standard library: C103_text_round_trip_partial."
  },
  {
   "property": "C104",
   "status": "partial",
   "theorems": [
    "GoSelect.C104_path_partial",
    "GoSelect.C104_nodes_partial",
    "GoSelect.C104_estimator",
    "GoSelect.C104_refuted"
   ],
   "note": "False as stated (C104_refuted): a negative correlation between -lassoTol and -lambMin never enters the path, with normalised data and the default limit of the lasso command.  Proved for data without such a correlation (C104_path_partial, C104_nodes_partial).  C104_estimator: MorsePenroseCD is such an estimator if the squared column lengths are 0 or above 1e-6, under the contract of the SVD."
  },
  {
   "property": "C105",
   "status": "partial",
   "theorems": [
    "GoSelect.C105_endless",
    "GoSelect.C105_returns_partial",
    "GoSelect.C105_orthogonal",
    "GoSelect.C105_command",
    "GoSelect.C105_refuted"
   ],
   "note": "False for fractions of 1 or more (C105_refuted): if all of three or more features enter the path, every round keeps all of them and the loop never ends (C105_endless; C105_orthogonal for every orthogonal data set whose features are all relevant; C105_command for the command with any singular value decompositions meeting the contract, which exist).  Proved for fractions below 1 (C51_returns) and, for every fraction, if each path leaves out a feature (C105_returns_partial)."
  },
  {
   "property": "C106",
   "status": "partial",
   "theorems": [
    "GoSelect.C106_never_back",
    "GoSelect.C106_limit_partial",
    "GoSelect.C106_solution_partial",
    "GoSelect.C106_stops_partial",
    "GoSelect.C106_warning",
    "GoSelect.C106_no_stop",
    "GoSelect.C106_refuted"
   ],
   "note": "False as stated.  A feature that an iteration leaves at zero never comes back (C106_never_back), so that the result can stay away from the minimum for every tolerance and limit (C106_refuted, normalised data); with more features than rows the loop can go on for ever at an exact solution (C106_no_stop); an exact zero solution always gives the warning (C106_warning).  Proved: without a tolerance the objective tends to the minimum over the vectors that agree with the result on the features that are not selected (C106_limit_partial), over all if all stay selected (C106_solution_partial); with a tolerance a bound on the number of iterations until one changes little or nothing is selected (C106_stops_partial)."
  },
  {
   "property": "C107",
   "status": "partial",
   "theorems": [
    "GoSelect.C107_fit_partial",
    "GoSelect.C107_search_partial",
    "GoSelect.C107_ranking_partial",
    "GoSelect.C107_tiny",
    "GoSelect.C107_refuted"
   ],
   "note": "Proved for data whose fits are not truncated in either of the units (C107_fit_partial, C107_search_partial, C107_ranking_partial).  False in general (C107_refuted): Fit drops singular values up to 1e-6, so that features in units that make their numbers tiny are ignored; if all are tiny, every model is as good as none (C107_tiny)."
  },
  {
   "property": "C108",
   "status": "partial",
   "theorems": [
    "GoSelect.C108_unique",
    "GoSelect.C108_scale",
    "GoSelect.C108_agree_partial",
    "GoSelect.C108_path_partial",
    "GoSelect.C108_orthogonal_partial",
    "GoSelect.C108_refuted"
   ],
   "note": "False as stated (C108_refuted): the regularisation of LassoLars is that of LassoCrdDesc times the number of rows (C108_scale), and LassoCrdDesc never uses the first feature, so that no regularisation gives the coefficients of a node that uses it.  Uniqueness is proved (C108_unique).  With the regularisation divided by the number of rows coordinate descent converges to the node if the features it gives up have the coefficient they have in the node (C108_agree_partial, C108_path_partial), and on orthogonal columns, zero at most the first, both agree exactly on all features but the first (C108_orthogonal_partial)."
  },
  {
   "property": "C109",
   "status": "partial",
   "theorems": [
    "GoSelect.C109_rule",
    "GoSelect.C109_sound_partial",
    "GoSelect.C109_refuted"
   ],
   "note": "False as stated (C109_refuted): the fit is scaled with the number of features instead of the number of rows, so that a feature whose condition holds can be listed; features without a coefficient and features whose coefficient is too small are never listed.  C109_rule says what is listed.  Proved: with as many features as rows and a lasso or elastic net problem every listed feature violates its condition (C109_sound_partial)."
  },
  {
   "property": "C110",
   "status": "partial",
   "theorems": [
    "GoSelect.C110_path_partial",
    "GoSelect.C110_units_partial",
    "GoSelect.C110_small",
    "GoSelect.C110_refuted"
   ],
   "note": "False in general (C110_refuted): without a constant column a shift of the response is lost, and in units in which the standard deviation of a column is below 1e-10 the command panics (C110_small: for every data set with two columns there are such units).  Proved: the path follows any change of units as long as no column but a constant first one is nearly constant (C110_path_partial); predictions, criteria, table and file follow with a first column of ones, or without a constant first column when only scales change (C110_units_partial)."
  },
  {
   "property": "C111",
   "status": "proved",
   "theorems": [
    "GoSelect.C111_within",
    "GoSelect.C111_rounding",
    "GoSelect.C111_exact_search",
    "GoSelect.C111_rounded_aicc_mono",
    "GoSelect.C111_monotone",
    "GoSelect.C111_sharp"
   ],
   "note": "For any search with errors at most e: C111_within; for data with rounding in sums of squares and criterion: C111_rounding; the factor two is attained: C111_sharp; monotone rounding of the criterion: C111_rounded_aicc_mono and C111_monotone. C111_exact_search ties the search with computed numbers to that of C12. How large the errors are: C136."
  },
  {
   "property": "C112",
   "status": "partial",
   "theorems": [
    "GoSelect.C112_numeral",
    "GoSelect.C112_exact",
    "GoSelect.C112_no_number",
    "GoSelect.C112_table",
    "GoSelect.C112_ragged",
    "GoSelect.C112_numbers_partial",
    "GoSelect.C112_blanks",
    "GoSelect.C112_readme",
    "GoSelect.C112_refuted"
   ],
   "note": "False as stated (C112_refuted): blanks are not ignored. A field with a blank is no number (C112_no_number) and is read as 0 without a message, so the file that the README gives as an example of a valid file is read as zeros only, with names that contain # and blanks (C112_readme, C112_blanks). Without blanks in the numbers the claim is proved: C112_numbers_partial, C112_table, C112_numeral, C112_exact; lines of different lengths: C112_ragged. encoding/csv and ParseFloat as modelled in Model/CsvText.lean and Model/FloatText.lean."
  },
  {
   "property": "C113",
   "status": "partial",
   "theorems": [
    "GoSelect.C113_returns_partial",
    "GoSelect.C113_never",
    "GoSelect.C113_iff",
    "GoSelect.C113_refuted"
   ],
   "note": "False as stated (C113_refuted): with no or a negative number of sweeps and at least two columns the search never ends, whatever the random numbers (C113_never).  Proved: with at least one sweep, or with a single column, it returns (C113_returns_partial); C113_iff says exactly when."
  },
  {
   "property": "C114",
   "status": "partial",
   "theorems": [
    "GoSelect.C114_reached_partial",
    "GoSelect.C114_best_partial",
    "GoSelect.C114_few_rows",
    "GoSelect.C114_refuted"
   ],
   "note": "False as stated (C114_refuted): with fewer than six rows the search never leaves the model with the first column only (C114_few_rows), although for four and five rows every model with one feature belongs to its search space.  Proved for at least six rows: C114_reached_partial, C114_best_partial."
  },
  {
   "property": "C115",
   "status": "partial",
   "theorems": [
    "GoSelect.C115_words",
    "GoSelect.C115_read",
    "GoSelect.C115_never",
    "GoSelect.C115_no_result",
    "GoSelect.C115_iff",
    "GoSelect.C115_refuted",
    "GoSelect.C115_lasso_partial",
    "GoSelect.C115_constant",
    "GoSelect.C115_starts"
   ],
   "note": "False as stated (C115_refuted): with one value NaN or infinite in the response SelectModelSA never accepts a model and never returns, whatever the random numbers and whatever gonum computes from such values (C115_never, C115_no_result), so sasearch and bnb hang without a message; with Aicc it returns if and only if all values are finite (C115_iff).  Proved: which texts are read as such values (C115_words, C115_read), and that the lasso command writes no file (C115_lasso_partial).  A response of equal values is normalised to NaN: then a result without nodes is written (C115_constant); when the lasso loop is entered: C115_starts."
  },
  {
   "property": "C116",
   "status": "partial",
   "theorems": [
    "GoSelect.C116_best",
    "GoSelect.C116_len",
    "GoSelect.C116_saved_partial",
    "GoSelect.C116_quiet",
    "GoSelect.C116_insert",
    "GoSelect.C116_refuted"
   ],
   "note": "Proved on the memory of container/list, write by write: insertions never panic and refine those of the list model (C116_insert), BestScore returns the best score of a list of some moment within the call (C116_best), Len (C116_len), and MarshalJSON is right while nothing is inserted (C116_quiet).  False for MarshalJSON during an insertion (C116_refuted): it can panic with an index out of range, save null entries, or save a list that never was; C116_saved_partial: what it saves, if it does not panic, are inserted nodes in order of their scores, followed by null entries."
  },
  {
   "property": "C117",
   "status": "proved",
   "theorems": [
    "GoSelect.C117_metropolis",
    "GoSelect.C117_boltzmann",
    "GoSelect.C117_converges",
    "GoSelect.C117_low_temperature"
   ],
   "note": "The kernel of one iteration as Lebesgue measure of the accepting random numbers averaged over the indices (C117_metropolis), detailed balance and stationarity (C117_boltzmann), convergence from every model for at least six rows (C117_converges), concentration (C117_low_temperature).  Before the first accepted model the current cost is MaxFloat64 and the hypothesis acc not empty fails."
  },
  {
   "property": "C118",
   "status": "partial",
   "theorems": [
    "GoSelect.C118_listed_partial",
    "GoSelect.C118_last_column",
    "GoSelect.C118_refuted"
   ],
   "note": "False as stated (C118_refuted): the second best model can be missing from a list with room for it that contains worse models, because nodes are compared with the best score instead of the worst listed one; C118_last_column: on data, a model that differs from its parent in the last column is dropped exactly if its AICc exceeds the best one so far.  C118_listed_partial: a model is listed, or the list is full of models at least as good, if no bound on the way to it exceeds the best AICc."
  },
  {
   "property": "C119",
   "status": "proved",
   "theorems": [
    "GoSelect.C119_best_score",
    "GoSelect.C119_best_model",
    "GoSelect.C119_regression"
   ],
   "note": "From C12, C13, C06 and C07; C119_regression is the statement for data sets."
  },
  {
   "property": "C120",
   "status": "proved",
   "theorems": [
    "GoSelect.C120_support",
    "GoSelect.C120_error",
    "GoSelect.C120_exact",
    "GoSelect.C120_coherent"
   ],
   "note": "C120_support, C120_error and C120_exact; C120_coherent shows a data set beyond the condition on which the first choice is wrong, whatever the decomposition and the tolerance."
  },
  {
   "property": "C121",
   "status": "partial",
   "theorems": [
    "GoSelect.C121_int",
    "GoSelect.C121_octal",
    "GoSelect.C121_two_dashes_partial",
    "GoSelect.C121_one_dash",
    "GoSelect.C121_refuted",
    "GoSelect.C121_documented_partial",
    "GoSelect.C121_unknown",
    "GoSelect.C121_invalid",
    "GoSelect.C121_end",
    "GoSelect.C121_help"
   ],
   "note": "False for the lines of the help texts (C121_refuted): options with one dash are read letter by letter, so that -csv is the unknown option c.  With two dashes everything holds (C121_two_dashes_partial, C121_documented_partial, C121_help, C121_end, C121_unknown, C121_invalid, C121_one_dash).  Whole numbers are read as written (C121_int), except that leading zeros mean octal digits (C121_octal)."
  },
  {
   "property": "C122",
   "status": "partial",
   "theorems": [
    "GoSelect.C122_same_columns_partial",
    "GoSelect.C122_given_root",
    "GoSelect.C122_other_columns",
    "GoSelect.C122_refuted",
    "GoSelect.C122_nil"
   ],
   "note": "False as stated (C122_refuted): the first call without root model writes an all-false one of its width into the parameters of the caller, and every later call with another number of columns panics (C122_other_columns).  C122_same_columns_partial: calls on data of one width; C122_given_root: a root model that was given; C122_nil: nil parameters."
  },
  {
   "property": "C123",
   "status": "proved",
   "theorems": [
    "GoSelect.C123_geometric",
    "GoSelect.C123_tends",
    "GoSelect.C123_uniform"
   ],
   "note": "C123_geometric, C123_tends; C123_uniform shows that independent uniform columns and multiples of 2^-53 meet the hypotheses.  The proof uses a sequence of draws that visits every model whatever the model before (universal_word), and independent blocks of draws in the first round.  With fewer than six rows the search finds one model only (C114_few_rows)."
  },
  {
   "property": "C124",
   "status": "proved",
   "theorems": [
    "GoSelect.C124_columns",
    "GoSelect.C124_error",
    "GoSelect.C124_random"
   ],
   "note": "C124_columns, C124_error; C124_random by Markov's inequality, with the outer measure of the set of failures."
  },
  {
   "property": "C125",
   "status": "proved",
   "theorems": [
    "GoSelect.C125_support",
    "GoSelect.C125_error",
    "GoSelect.C125_signs",
    "GoSelect.C125_lars",
    "GoSelect.C125_random"
   ],
   "note": "C125_support, C125_error, C125_signs for every minimiser; C125_lars for the nodes and interpolations of a path, with the condition of C83_optimal_partial that no iteration is degenerate; C125_random by Chebyshev's inequality and the union bound."
  },
  {
   "property": "C126",
   "status": "proved",
   "theorems": [
    "GoSelect.C126_orders",
    "GoSelect.C126_split",
    "GoSelect.C126_halves",
    "GoSelect.C126_unbiased",
    "GoSelect.C126_consistent",
    "GoSelect.C126_partitions",
    "GoSelect.C126_rows"
   ],
   "note": "C126_orders, C126_split, C126_halves (counting), C126_unbiased, C126_consistent (Chebyshev), C126_partitions, C126_rows. rand.Shuffle is modelled as documented, with the code's swap function; GetSelection is a function of the indices; exact arithmetic."
  },
  {
   "property": "C127",
   "status": "proved",
   "theorems": [
    "GoSelect.C127_monotone",
    "GoSelect.C127_predictions",
    "GoSelect.C127_path"
   ],
   "note": "C127_monotone, C127_predictions for every minimiser; C127_path for runs of LassoLars in which no iteration is degenerate."
  },
  {
   "property": "C128",
   "status": "proved",
   "theorems": [
    "GoSelect.C128_fit",
    "GoSelect.C128_lasso",
    "GoSelect.C128_order",
    "GoSelect.C128_paths"
   ],
   "note": "C128_fit (truncated singular values included), C128_lasso, C128_order for every minimiser; C128_paths for runs of LassoLars in which no iteration is degenerate. Exact arithmetic."
  },
  {
   "property": "C129",
   "status": "partial",
   "theorems": [
    "GoSelect.C129_errors",
    "GoSelect.C129_panics_iff",
    "GoSelect.C129_no_panic_partial",
    "GoSelect.C129_reads",
    "GoSelect.C129_zero_value",
    "GoSelect.C129_own_files",
    "GoSelect.C129_refuted",
    "GoSelect.C129_capacity_refuted",
    "GoSelect.C129_int",
    "GoSelect.C129_entry",
    "GoSelect.C129_capacity"
   ],
   "note": "False in general (C129_refuted): feature numbers out of range, a negative number of features, null entries, capacity 1 or a zero-value receiver make it panic, and a list longer than the capacity of the text stays longer (C129_capacity_refuted). Proved: exactly when it panics (C129_panics_iff, C129_zero_value), that it does not otherwise (C129_no_panic_partial), exactly when it returns an error and that the list is unchanged then (C129_errors), what is read (C129_reads), what counts as a number, an entry and the capacity (C129_int, C129_entry, C129_capacity), and that files of the program are read (C129_own_files)."
  },
  {
   "property": "C130",
   "status": "proved",
   "theorems": [
    "GoSelect.C130_unbiased",
    "GoSelect.C130_best",
    "GoSelect.C130_only_best",
    "GoSelect.C130_predictions",
    "GoSelect.C130_rss",
    "GoSelect.C130_variance"
   ],
   "note": "Gauss-Markov theorem for the modelled Fit (svd with truncation at 1e-6 as parameter with its contract), exact real arithmetic."
  },
  {
   "property": "C131",
   "status": "proved",
   "theorems": [
    "GoSelect.C131_underfit",
    "GoSelect.C131_select",
    "GoSelect.C131_bic",
    "GoSelect.C131_silent",
    "GoSelect.C131_sa_bic",
    "GoSelect.C131_sa_aicc",
    "GoSelect.C131_tends_aicc",
    "GoSelect.C131_tends_bic",
    "GoSelect.C131_consistent"
   ],
   "note": "Proofs by Chebyshev's inequality for the linear part of the noise and Markov's for the part taken up by a model; C131_silent bounds the probability that the noise is too quiet; examples with fair coins and alternating columns."
  },
  {
   "property": "C132",
   "status": "partial",
   "theorems": [
    "GoSelect.C132_only_line_252_partial",
    "GoSelect.C132_return",
    "GoSelect.C132_runs",
    "GoSelect.C132_refuted",
    "GoSelect.C132_score_refuted"
   ],
   "note": "Freedom from data races is false (C132_refuted: a child worker reads the highscore list while the main loop inserts a node, with three features and an empty list). C132_score_refuted: a child worker reads the score of an inserted node, unordered with its write. C132_only_line_252_partial: these are the only kinds of races in all runs: line 252 against the insertion in line 125, or against the write of the score in line 225. C132_return: when SelectModel returns, all accesses happen before the return, and no step of any goroutine is possible. C132_runs: the runs with accesses are exactly those of the transition system of C14 to C19. Happens-before is the transitive closure of the order of the events of each goroutine, where a send on an unbuffered channel and its receive are one event of both."
  },
  {
   "property": "C133",
   "status": "partial",
   "theorems": [
    "GoSelect.C133_sorted",
    "GoSelect.C133_stable",
    "GoSelect.C133_len",
    "GoSelect.C133_total",
    "GoSelect.C133_nan_first",
    "GoSelect.C133_number_first_partial",
    "GoSelect.C133_best_number_partial",
    "GoSelect.C133_stuck",
    "GoSelect.C133_missing_partial",
    "GoSelect.C133_refuted"
   ],
   "note": "False as stated (C133_refuted): after MaxItems NaNs every number is lost, and a single NaN suffices that a larger number is dropped while a smaller one is kept. Proved: the numbers in the list are in descending order (C133_sorted), equal scores in the order of insertion (C133_stable); no panic and the length (C133_total, C133_len); if the first node inserted is NaN, BestScore() is NaN for ever (C133_nan_first), otherwise it is the largest number inserted (C133_number_first_partial); the first number of the list is the largest one inserted if one of the first MaxItems nodes has a number (C133_best_number_partial), else the list never changes again (C133_stuck); with k NaNs the largest MaxItems-1-k numbers are kept (C133_missing_partial)."
  },
  {
   "property": "C134",
   "status": "partial",
   "theorems": [
    "GoSelect.C134_first_number_partial",
    "GoSelect.C134_best_score_partial",
    "GoSelect.C134_nan_means_all",
    "GoSelect.C134_response",
    "GoSelect.C134_finite",
    "GoSelect.C134_finite_bounds",
    "GoSelect.C134_finite_search",
    "GoSelect.C134_refuted"
   ],
   "note": "False as stated (C134_refuted: if the first column has missing values, the first node inserted is NaN, BestScore() stays NaN, and a list of capacity 2 can end without any number). Proved: if there is a number in the list, its first number is the best one (C134_first_number_partial), and BestScore() is if it is a number (C134_best_score_partial); if BestScore() is NaN no model was pruned, all were inserted (C134_nan_means_all). With a NaN or infinite value in the response all models with fewer features than rows are inserted (2^columns - 1 if there are more rows than columns) and all scores are NaN or minus infinity (C134_response). C134_finite, C134_finite_bounds and C134_finite_search: for finite responses the criterion, the bounds and the whole search are those of C12. What gonum makes of a matrix with NaN is not modelled: models with such a column have any criterion in the theorems."
  },
  {
   "property": "C135",
   "status": "partial",
   "theorems": [
    "GoSelect.C135_no_rounding",
    "GoSelect.C135_panic",
    "GoSelect.C135_exact",
    "GoSelect.C135_small",
    "GoSelect.C135_refused_partial",
    "GoSelect.C135_ones",
    "GoSelect.C135_accepted",
    "GoSelect.C135_refuted",
    "GoSelect.C135_response",
    "GoSelect.C135_response_refuted"
   ],
   "note": "False as stated (C135_refuted): three rows with 1000000.2 have a computed standard deviation above 1e-10, are not refused and become three equal numbers between 1/2 and 1; the same for the response (C135_response_refuted). C135_accepted: every constant column that is not refused becomes a column of equal numbers. Proved: mean and standard deviation are exact if the constant has few binary digits (C135_exact: m*2^q with rows*|m| <= 2^53, e.g. whole numbers), the standard deviation is below 1e-10 for all constants up to 2^16/(rows+1) (C135_small); such columns are refused (C135_refused_partial), ones in the first column are always the constant term (C135_ones). C135_panic: exactly when the panic occurs. C135_no_rounding: without rounding the model is that of C48."
  },
  {
   "property": "C136",
   "status": "proved",
   "theorems": [
    "GoSelect.C136_predict",
    "GoSelect.C136_dot",
    "GoSelect.C136_rss",
    "GoSelect.C136_aicc",
    "GoSelect.C136_penalty",
    "GoSelect.C136_search",
    "GoSelect.C136_numbers"
   ],
   "note": "Rounding is any function with the given relative error; binary64 outside the subnormal range is one (rnd53_rel, rnd53_eq). The errors of Fit (singular value decomposition) enter as the hypothesis on the computed coefficients."
  },
  {
   "property": "C137",
   "status": "proved",
   "theorems": [
    "GoSelect.C137_contract",
    "GoSelect.C137_nearest",
    "GoSelect.C137_accuracy",
    "GoSelect.C137_too_large",
    "GoSelect.C137_text",
    "GoSelect.C137_large",
    "GoSelect.C137_number_iff",
    "GoSelect.C137_file",
    "GoSelect.C137_data",
    "GoSelect.C137_last"
   ],
   "note": "C137_contract: float64 (binary64 with subnormal numbers, strconv's rounding to nearest even, overflow as an error) meets the contract that C44, C103 and C112 assume of a number format. C137_nearest, C137_accuracy and C137_too_large: conversion of decimal numbers; C137_nearest also says that it is the rounding rnd64 of C111, C135 and C136. C137_text and C137_file: text that is read and saved; C137_last: 8589934592.000001, just above 2^33, is saved as 8589934592.000002. C137_large, C137_number_iff and C137_data: values that are saved and read. Hexadecimal numbers are not modelled."
  },
  {
   "property": "C138",
   "status": "proved",
   "theorems": [
    "GoSelect.C138_exists",
    "GoSelect.C138_seventeen",
    "GoSelect.C138_fifteen",
    "GoSelect.C138_text",
    "GoSelect.C138_sum",
    "GoSelect.C138_dataset",
    "GoSelect.C138_node"
   ],
   "note": "Spec.Shortest is what strconv documents for the shortest digits: read back exactly, no fewer digits possible, none with no more digits closer. C138_exists: such digits exist for float64, so C45, C46, C94, C99 and C129 (which assume digits that are read back) hold for it. C138_seventeen, C138_fifteen and C138_sum: numbers of digits; C138_text: literals; C138_dataset and C138_node: files. How strconv finds the digits is not modelled."
  },
  {
   "property": "C139",
   "status": "proved",
   "theorems": [
    "GoSelect.C139_mean",
    "GoSelect.C139_std",
    "GoSelect.C139_normalized",
    "GoSelect.C139_dataset",
    "GoSelect.C139_binary64"
   ],
   "note": "Spec.NormalizedUpTo: size, mean and error of each number, against the exact mean and standard deviation. C139_mean, C139_std: Mean and Std; C139_normalized: one list; C139_dataset: NewNormalizedData for any rounding with relative error u; C139_binary64: 53 binary digits, without underflow and overflow. The dependence on the mean divided by the standard deviation is not avoidable: subtracting a rounded mean cancels leading digits."
  },
  {
   "property": "C140",
   "status": "proved",
   "theorems": [
    "GoSelect.C140_exact",
    "GoSelect.C140_objective",
    "GoSelect.C140_selected",
    "GoSelect.C140_normalised",
    "GoSelect.C140_binary64"
   ],
   "note": "every operation is rounded with relative error u; C140_objective and C140_selected hold for any stored covariance matrix close to the exact one, C140_normalised for data of unit scale, C140_binary64 from raw data; overflow and underflow are not modelled, nor the fused multiply-add of other platforms than amd64"
  },
  {
   "property": "C141",
   "status": "partial",
   "theorems": [
    "GoSelect.C141_feature",
    "GoSelect.C141_response",
    "GoSelect.C141_finite",
    "GoSelect.C141_identity",
    "GoSelect.C141_identity_partial",
    "GoSelect.C141_refuted"
   ],
   "note": "refuted for the empirical covariance matrix (C141_refuted; C141_feature shows that one gap always empties the selection, whatever the response, penalty, correction and number of iterations; C141_response the same for a gap in the response and any covariance matrix); C141_identity_partial proves the claim for the identity covariance matrix and the plain lasso, C141_finite that complete data give the algorithm for numbers. Assumed of gonum: inner products are exact for numbers and NaN when NaN meets a factor other than 0"
  },
  {
   "property": "C142",
   "status": "partial",
   "theorems": [
    "GoSelect.C142_passes_partial",
    "GoSelect.C142_no_column",
    "GoSelect.C142_endless",
    "GoSelect.C142_ends",
    "GoSelect.C142_refuted"
   ],
   "note": "refuted: with two columns, a gap in the second and columns drawn in turn the search goes on forever, since exactly half of the proposals is accepted (C142_endless, C142_refuted); with no column without gaps it never returns (C142_no_column). C142_passes_partial proves the rest: whatever is returned or listed is a model of columns without gaps, with its own coefficients and score; C142_ends shows a search that ends. Assumed of gonum: the product of a row with NaN or an infinite value and a vector is not a number (GapSpreads)"
  },
  {
   "property": "C143",
   "status": "proved",
   "theorems": [
    "GoSelect.C143_no_node",
    "GoSelect.C143_noticed",
    "GoSelect.C143_complete"
   ],
   "note": "C143_no_node: with a gap in a feature the joining times of the first iteration panic, whatever the estimator returns; C143_noticed: the command panics or fails to write; C143_complete ties the model to the path for numbers (first iteration). Finite numbers are exact; assumed of gonum: an inner product with NaN against a value that is not 0 is NaN (GonumDot)"
  },
  {
   "property": "C144",
   "status": "proved",
   "theorems": [
    "GoSelect.C144_lucky",
    "GoSelect.C144_almost_surely"
   ],
   "note": "C144_almost_surely; C144_lucky is the same for given draws in which every word of columns occurs again and again together with small numbers. Data, gonum's part and the cost are as in GapData: no panic on gaps, the product of a row with a gap is not a number. Drawn in turn the columns need not lead to an end (C142_endless). The temperature is exact and has no upper limit"
  },
  {
   "property": "C145",
   "status": "partial",
   "theorems": [
    "GoSelect.C145_accurate_partial",
    "GoSelect.C145_monotone",
    "GoSelect.C145_overflow",
    "GoSelect.C145_billion",
    "GoSelect.C145_refuted"
   ],
   "note": "C145_accurate_partial (at most 1023 columns), C145_billion (binary64: less than 1/1000 off after a billion pruned branches), C145_monotone (any number of columns). C145_refuted: with 1024 columns a search reports plus infinity after one pruned branch, since 2^1024 overflows; C145_overflow: whenever the first pruned branch lies 1024 or more levels above the leaves, all further reports are plus infinity. Overflow and infinities as in IEEE 754; math.Pow and math.Log2 are parameters with an error bound; zeros have no sign"
  },
  {
   "property": "C146",
   "status": "partial",
   "theorems": [
    "GoSelect.C146_range_partial",
    "GoSelect.C146_sum",
    "GoSelect.C146_accurate",
    "GoSelect.C146_nan",
    "GoSelect.C146_refuted"
   ],
   "note": "C146_range_partial, C146_sum, C146_accurate for lists with at least one number and no NaN and no minus infinity. C146_refuted and C146_nan: one criterion of minus infinity (an exact fit) or NaN makes every weight NaN. Rounding, overflow and infinities as in IEEE 754, math.Exp is a parameter with an error bound; exp64_monotone and exp64_accurate: correctly rounded binary64"
  },
  {
   "property": "C147",
   "status": "proved",
   "theorems": [
    "GoSelect.C147_accurate",
    "GoSelect.C147_ordered",
    "GoSelect.C147_nan_first",
    "GoSelect.C147_nan_all",
    "GoSelect.C147_no_file",
    "GoSelect.C147_binary64"
   ],
   "note": "C147_accurate, C147_ordered, C147_binary64, C147_nan_first, C147_nan_all, C147_no_file. math.Log and math.Exp are parameters with error bounds (and monotone for the order); coordinate descent with the rules of IEEE 754 for NaN and infinities; of Path2Unnormalized only that it keeps Lamb is used"
  },
  {
   "property": "C148",
   "status": "proved",
   "theorems": [
    "GoSelect.C148_kappa",
    "GoSelect.C148_full",
    "GoSelect.C148_mean",
    "GoSelect.C148_chosen"
   ],
   "note": "C148_kappa, C148_mean, C148_chosen; C148_full: NaN when both selections consist of all features, as in C40. roundOff64: binary64 meets the contract, 1000 features and 1000 samples meet the size condition. Products of counters do not overflow"
  },
  {
   "property": "C149",
   "status": "partial",
   "theorems": [
    "GoSelect.C149_overfit",
    "GoSelect.C149_select",
    "GoSelect.C149_consistent_partial",
    "GoSelect.C149_inconsistent",
    "GoSelect.C149_refuted"
   ],
   "note": "C149_consistent_partial: true when all features belong to the signal. Otherwise false (C149_refuted, C149_inconsistent): with normal noise and a column that is not a combination of those of the signal the probability stays below 199/200. C149_overfit: for 1000 or more rows (and at least 5(k+1)(k+2)+k+2 for k features of the signal) some model with superfluous features has a smaller Aicc with probability at least 1/200; C149_select: then no run of SelectModel has the right model first"
  },
  {
   "property": "C150",
   "status": "partial",
   "theorems": [
    "GoSelect.C150_positive_partial",
    "GoSelect.C150_kappa_nan",
    "GoSelect.C150_best",
    "GoSelect.C150_all",
    "GoSelect.C150_refuted"
   ],
   "note": "C150_positive_partial: true for positive ends. Otherwise false (C150_refuted): with an end that is not positive and numLamb at least 2 the last target has the regularisation NaN, which selects nothing and always gets the kappa 1, and the recommended target has a kappa that is not smaller (C150_kappa_nan, C150_best); with lambMin 0 or negative all kappas are 1 and every finished run recommends NaN (C150_all)"
  },
  {
   "property": "C151",
   "status": "partial",
   "theorems": [
    "GoSelect.C151_passes_partial",
    "GoSelect.C151_first",
    "GoSelect.C151_first_returns",
    "GoSelect.C151_refuted"
   ],
   "note": "C151_passes_partial: true if the first column is complete. Otherwise false (C151_refuted): with NaN in the first column Omp chooses that column only, and all other coefficients are 0 (C151_first), provided the fit of that column returns at all (C151_first_returns)"
  },
  {
   "property": "C152",
   "status": "partial",
   "theorems": [
    "GoSelect.C152_runs",
    "GoSelect.C152_cov",
    "GoSelect.C152_cohen_partial",
    "GoSelect.C152_cohen_distinct",
    "GoSelect.C152_cohen_return",
    "GoSelect.C152_cohen_refuted",
    "GoSelect.C152_path_partial",
    "GoSelect.C152_path_return",
    "GoSelect.C152_path_refuted"
   ],
   "note": "True of L2ConsistentCovTO (C152_cov) and, for different targets that do not share a CLasso, of CalculateCohenSequence (C152_cohen_distinct). C152_path_partial and C152_cohen_partial name the only places where races can be. C152_path_refuted: every run of LassoCrdDescPath with two or more regularisations has a race, because the first ten jobs are given the same slice as start vector and each of them writes it; also on the state of a CLasso correction and of a SparseThresholded covariance. C152_cohen_refuted: the same target passed twice among the first sixteen always races. The statements on the return hold (C152_path_return, C152_cohen_return)"
  },
  {
   "property": "C153",
   "status": "proved",
   "theorems": [
    "GoSelect.C153_prediction",
    "GoSelect.C153_sparse",
    "GoSelect.C153_orthogonal",
    "GoSelect.C153_lars",
    "GoSelect.C153_crd",
    "GoSelect.C153_random",
    "GoSelect.C153_random_sparse",
    "GoSelect.C153_noise"
   ],
   "note": "C153_prediction for all competing coefficients, also for coefficients that only come near the smallest objective; C153_sparse under the compatibility condition, which C153_orthogonal gives for nearly orthogonal columns; C153_lars, C153_crd for the code; C153_random, C153_random_sparse for random noise, C153_noise: normal and bounded noise qualify. Exact arithmetic."
  },
  {
   "property": "C154",
   "status": "partial",
   "theorems": [
    "GoSelect.C154_same",
    "GoSelect.C154_group_partial",
    "GoSelect.C154_group_cLasso_partial",
    "GoSelect.C154_copy",
    "GoSelect.C154_never",
    "GoSelect.C154_optimum",
    "GoSelect.C154_refuted",
    "GoSelect.C154_tiny"
   ],
   "note": "False: C154_refuted. Every minimiser of the elastic net gives identical features the same coefficient (C154_optimum), but LassoCrdDesc gives a copy (with either sign, possibly shrunk) of the feature before it the coefficient zero in every call with every correction (C154_copy, C154_never): the first sweep sets it to zero, and a feature at zero is never visited again. True: when convergence is reported, the coefficients of two selected features differ by at most the difference of their correlations with the residual divided by the weight, up to the tolerance (C154_group_partial, C154_group_cLasso_partial). The covariance lasso is the elastic net, whatever state an earlier call left it in, unless coefficients have a positive sum of squares below 1e-10 (C154_same; C154_tiny: the exception matters). Exact arithmetic."
  },
  {
   "property": "C155",
   "status": "partial",
   "theorems": [
    "GoSelect.C155_path_partial",
    "GoSelect.C155_refuted"
   ],
   "note": "False: C155_refuted. When a feature leaves the path, a copy of it joins at the same regularisation, because only the feature that has just left is kept from joining; that the coefficient of the copy has the wrong sign from there on is not noticed (the crossing is at the current regularisation), and later nodes do not minimise the lasso objective, although all nodes of the path without the copy do. True (C155_path_partial): as long as no feature of a node is missing in the next one, the path with the copies is the same and the only one. Exact arithmetic: the joining time of a copy of a selected feature has the form 0/0 there, which the code discards as not a number; with rounding it is the quotient of two rounding errors."
  },
  {
   "property": "C156",
   "status": "partial",
   "theorems": [
    "GoSelect.C156_score",
    "GoSelect.C156_select",
    "GoSelect.C156_brute",
    "GoSelect.C156_omp_partial",
    "GoSelect.C156_refuted"
   ],
   "note": "True for the criteria (C156_score), for the branch-and-bound search (C156_select: complete runs without overflow, from the empty model) and for the exhaustive search (C156_brute). False for Omp: C156_refuted; when the selected features fit as well as all features but the tolerance is not reached, all correlations are zero and the first column wins the tie. C156_omp_partial: this is the only case, the superfluous feature is feature 0, and it is the last one selected. Exact arithmetic."
  },
  {
   "property": "C157",
   "status": "proved",
   "theorems": [
    "GoSelect.C157_error",
    "GoSelect.C157_size",
    "GoSelect.C157_log",
    "GoSelect.C157_coherence"
   ],
   "note": "C157_error: the factor; C157_size and C157_log: the number of features; C157_coherence: nearly orthogonal columns meet the condition. No assumption on the target. Exact arithmetic, exact fits of the selected features."
  },
  {
   "property": "C158",
   "status": "proved",
   "theorems": [
    "GoSelect.C158_rate",
    "GoSelect.C158_iterations",
    "GoSelect.C158_all_selected",
    "GoSelect.C158_normalised",
    "GoSelect.C158_linear",
    "GoSelect.C158_coefficients"
   ],
   "note": "C158_rate; C158_iterations: the number of iterations for a given accuracy; C158_all_selected: all vectors (whose first entry is 0) if all features are selected; C158_normalised: normalised data; C158_linear and C158_coefficients: independent columns. Empirical covariance, exact arithmetic; the penalty is positive except in the last two."
  },
  {
   "property": "C159",
   "status": "proved",
   "theorems": [
    "GoSelect.C159_report",
    "GoSelect.C159_list",
    "GoSelect.C159_regression"
   ],
   "note": "C159_report, C159_list for any search with valid bounds; C159_regression for data sets."
  },
  {
   "property": "C160",
   "status": "proved",
   "theorems": [
    "GoSelect.C160_size",
    "GoSelect.C160_few",
    "GoSelect.C160_strong",
    "GoSelect.C160_rows",
    "GoSelect.C160_lars_rows",
    "GoSelect.C160_lars",
    "GoSelect.C160_random"
   ],
   "note": "C160_size, C160_few, C160_strong, C160_rows for every minimiser; C160_random for random noise; C160_lars, C160_lars_rows for runs of LassoLars in which no iteration is degenerate. Exact arithmetic."
  },
  {
   "property": "C161",
   "status": "proved",
   "theorems": [
    "GoSelect.C161_exponential",
    "GoSelect.C161_choice",
    "GoSelect.C161_samples"
   ],
   "note": "C161_exponential, C161_choice, C161_samples; the random numbers of every target are fair and independent, the numbers of rows and columns are the same for all targets, and the kappas are exact."
  },
  {
   "property": "C162",
   "status": "proved",
   "theorems": [
    "GoSelect.C162_errors",
    "GoSelect.C162_choice",
    "GoSelect.C162_samples"
   ],
   "note": "C162_errors (bound of the errors), C162_choice, C162_samples; exact arithmetic, fair and independent random numbers. The choice is among the thresholds of the grid that the code searches (see C81)."
  },
  {
   "property": "C163",
   "status": "proved",
   "theorems": [
    "GoSelect.C163_length",
    "GoSelect.C163_combinations",
    "GoSelect.C163_selection",
    "GoSelect.C163_attained"
   ],
   "note": "C163_length (every estimator), C163_combinations, C163_selection (non-degenerate runs, the condition of C83, which is part of the statement), C163_attained (two features); exact arithmetic."
  },
  {
   "property": "C164",
   "status": "proved",
   "theorems": [
    "GoSelect.C164_recovers",
    "GoSelect.C164_quadratic",
    "GoSelect.C164_definite",
    "GoSelect.C164_frobenius",
    "GoSelect.C164_probability",
    "GoSelect.C164_samples"
   ],
   "note": "C164_recovers, C164_quadratic, C164_definite, C164_frobenius, C164_probability, C164_samples; exact arithmetic, rows drawn independently and with replacement. Complements C76, where positive semidefiniteness is refuted in general."
  },
  {
   "property": "C165",
   "status": "proved",
   "theorems": [
    "GoSelect.C165_elastic",
    "GoSelect.C165_cLasso",
    "GoSelect.C165_unique"
   ],
   "note": "C165_elastic, C165_cLasso, C165_unique; exact arithmetic, empirical covariances. Complements C75 and C154; that unselected features may be wrongly unselected is C55 and C154."
  },
  {
   "property": "C166",
   "status": "proved",
   "theorems": [
    "GoSelect.C166_best",
    "GoSelect.C166_runs"
   ],
   "note": "C166_best, C166_runs; exact arithmetic, empirical covariances."
  },
  {
   "property": "C167",
   "status": "proved",
   "theorems": [
    "GoSelect.C167_monotone",
    "GoSelect.C167_chance",
    "GoSelect.C167_tail"
   ],
   "note": "C167_monotone, C167_chance, C167_tail; exact arithmetic. Random selections are counted: sums over all subsets of the given size."
  },
  {
   "property": "C168",
   "status": "proved",
   "theorems": [
    "GoSelect.C168_exact",
    "GoSelect.C168_near",
    "GoSelect.C168_nested"
   ],
   "note": "C168_exact, C168_near, C168_nested; exact arithmetic. The sums of norms are stated by their squares, (p + q)^2 being the least value of (1 + t) p^2 + (1 + 1/t) q^2 over t > 0. Complements C04 and C05, whose exact forms need that no singular value is discarded."
  },
  {
   "property": "C169",
   "status": "proved",
   "theorems": [
    "GoSelect.C169_search"
   ],
   "note": "C169_search; exact arithmetic, empty cutoff map, MaxItems at least 2. The size of the criterion includes 2 n log(1 + tau). Complements C12, which needs that no singular value is discarded, and C111, which assumes a bound on the errors; here it follows from C168."
  },
  {
   "property": "C170",
   "status": "proved",
   "theorems": [
    "GoSelect.C170_fit",
    "GoSelect.C170_search",
    "GoSelect.C170_annealing",
    "GoSelect.C170_crd",
    "GoSelect.C170_lars",
    "GoSelect.C170_rows",
    "GoSelect.C170_omp"
   ],
   "note": "C170_fit, C170_search, C170_annealing, C170_omp, C170_lars, C170_crd for data with the same sums; C170_rows: another order of the rows gives such data. Exact arithmetic, at least one row. For the lasso the entries beyond the last column are taken to be 0."
  },
  {
   "property": "C171",
   "status": "proved",
   "theorems": [
    "GoSelect.C171_fit",
    "GoSelect.C171_ranking"
   ],
   "note": "C171_fit for every nonempty model and C171_ranking for BruteForceSelect (every model's residual sum of squares positive). Exact arithmetic; units of columns other than 1 and -1 are C107, which needs fits that discard nothing."
  },
  {
   "property": "C172",
   "status": "proved",
   "theorems": [
    "GoSelect.C172_rss",
    "GoSelect.C172_scores",
    "GoSelect.C172_best",
    "GoSelect.C172_search"
   ],
   "note": "C172_rss, C172_scores, C172_best, C172_search. Exact arithmetic; the leads are those of the list of BruteForceSelect for the first response."
  },
  {
   "property": "C173",
   "status": "proved",
   "theorems": [
    "GoSelect.C173_bic",
    "GoSelect.C173_aicc",
    "GoSelect.C173_bic_aicc",
    "GoSelect.C173_brute",
    "GoSelect.C173_path",
    "GoSelect.C173_select"
   ],
   "note": "C173_bic, C173_aicc and C173_bic_aicc for any set of candidates, C173_brute for BruteForceSelect, C173_select for SelectModel and C173_path for GetCriteria. Real arithmetic; no candidate fits exactly (there the criteria are minus infinity)."
  },
  {
   "property": "C174",
   "status": "proved",
   "theorems": [
    "GoSelect.C174_omp"
   ],
   "note": "C174_omp: the run on the reordered data returns, with the same features in the same sequence. Exact arithmetic. With ties the first of the tied features is taken, so that the order of the columns matters."
  },
  {
   "property": "C175",
   "status": "proved",
   "theorems": [
    "GoSelect.C175_truncate",
    "GoSelect.C175_change"
   ],
   "note": "C175_truncate (models left out), C175_change (criteria changed). Exact arithmetic; the kept models come first in the list."
  },
  {
   "property": "C176",
   "status": "proved",
   "theorems": [
    "GoSelect.C176_fit",
    "GoSelect.C176_aic",
    "GoSelect.C176_bic",
    "GoSelect.C176_aicc",
    "GoSelect.C176_brute",
    "GoSelect.C176_select"
   ],
   "note": "C176_fit, C176_aic, C176_bic, C176_aicc, C176_brute, C176_select. Exact arithmetic; the fits of the original data are not truncated (singular values 0 or above 1e-6), which then also holds for the repeated data; no model fits exactly."
  },
  {
   "property": "C177",
   "status": "proved",
   "theorems": [
    "GoSelect.C177_fit",
    "GoSelect.C177_brute",
    "GoSelect.C177_select"
   ],
   "note": "C177_fit, C177_brute, C177_select. Exact arithmetic. The columns kept are in their original order; for other orders see C171."
  },
  {
   "property": "C178",
   "status": "proved",
   "theorems": [
    "GoSelect.C178_restrict",
    "GoSelect.C178_path"
   ],
   "note": "C178_restrict for every minimiser; C178_path for runs of LassoLars in which no iteration is degenerate. Exact arithmetic."
  },
  {
   "property": "C179",
   "status": "proved",
   "theorems": [
    "GoSelect.C179_omp"
   ],
   "note": "C179_omp. Exact arithmetic. The columns kept are in their original order; for other orders see C174."
  },
  {
   "property": "C180",
   "status": "proved",
   "theorems": [
    "GoSelect.C180_omp"
   ],
   "note": "C180_omp. Exact arithmetic. For other orders of the repeated rows see C174."
  },
  {
   "property": "C181",
   "status": "proved",
   "theorems": [
    "GoSelect.C181_objective",
    "GoSelect.C181_solutions",
    "GoSelect.C181_path"
   ],
   "note": "C181_objective, C181_solutions for all data; C181_path for runs of LassoLars in which no iteration is degenerate. Exact arithmetic. The iterates of LassoCrdDesc itself are not compared: its check of the optimality conditions is not divided by the number of rows."
  },
  {
   "property": "C182",
   "status": "proved",
   "theorems": [
    "GoSelect.C182_prefix",
    "GoSelect.C182_same",
    "GoSelect.C182_error"
   ],
   "note": "C182_prefix, C182_same for all data, also with zero columns; C182_error for fits that are not truncated. Exact arithmetic."
  },
  {
   "property": "C183",
   "status": "proved",
   "theorems": [
    "GoSelect.C183_larger",
    "GoSelect.C183_prefix"
   ],
   "note": "C183_larger, C183_prefix for every estimator, also for degenerate runs. Exact arithmetic."
  }
 ]
}