{"claims": [
{"property": "C01", "status": "proved", "theorems": ["BitBoost.Props.C01_set_bit", "BitBoost.Props.C01_enable_bit", "BitBoost.Props.C01_out_of_range", "BitBoost.Props.C01_block", "BitBoost.Props.C01_block_out_of_range"], "note": ""},
{"property": "C02", "status": "partial", "theorems": ["BitBoost.Props.C02_disable_bit_sets_refuted", "BitBoost.Props.C02_disable_bit_isolated_partial", "BitBoost.Props.C02_refuted"], "note": "The property is false of the code: Bitset::disable_bit calls enable_bit (bitset.rs:42), refuted by C02_refuted / C02_disable_bit_sets_refuted. Proved instead: what disable_bit does (C02_disable_bit_isolated_partial: it leaves all other bits alone)."},
{"property": "C03", "status": "proved", "theorems": ["BitBoost.Props.C03_ones", "BitBoost.Props.C03_zeros", "BitBoost.Props.C03_empty_panics"], "note": ""},
{"property": "C04", "status": "proved", "theorems": ["BitBoost.Props.C04_from_bool_iter", "BitBoost.Props.C04_from_iter"], "note": ""},
{"property": "C05", "status": "proved", "theorems": ["BitBoost.Props.C05_view_bits", "BitBoost.Props.C05_views_agree", "BitBoost.Props.C05_set_word", "BitBoost.Props.C05_out_of_range", "BitBoost.Props.C05_resize", "BitBoost.Props.C05_reset", "BitBoost.Props.C05_of_int", "BitBoost.Props.C05_from_4u64"], "note": "reset: C05_reset."},
{"property": "C06", "status": "proved", "theorems": ["BitBoost.Props.C06_block_count_ones", "BitBoost.Props.C06_is_zero", "BitBoost.Props.C06_vectorised_count"], "note": ""},
{"property": "C07", "status": "proved", "theorems": ["BitBoost.Props.C07_index_iter", "BitBoost.Props.C07_set_positions", "BitBoost.Props.C07_index_iter_and", "BitBoost.Props.C07_index_iter_andnot", "BitBoost.Props.C07_partition", "BitBoost.Props.C07_rejects"], "note": ""},
{"property": "C08", "status": "proved", "theorems": ["BitBoost.Props.C08_index_iter_compr", "BitBoost.Props.C08_index_iter_and_compr", "BitBoost.Props.C08_index_iter_andnot_compr", "BitBoost.Props.C08_compressed_same"], "note": ""},
{"property": "C09", "status": "proved", "theorems": ["BitBoost.Props.C09_for_each_index", "BitBoost.Props.C09_for_each_index_and", "BitBoost.Props.C09_for_each_index_compr", "BitBoost.Props.C09_for_each_index_and_compr", "BitBoost.Props.C09_visit_prefix"], "note": ""},
{"property": "C10", "status": "proved", "theorems": ["BitBoost.Props.C10_isolation", "BitBoost.Props.C10_isolation_or_exhausted", "BitBoost.Props.C10_disjoint", "BitBoost.Props.C10_out_of_range"], "note": "Reads out of range: C10_out_of_range."},
{"property": "C11", "status": "proved", "theorems": ["BitBoost.Props.C11_new", "BitBoost.Props.C11_alloc", "BitBoost.Props.C11_alloc_succeeds", "BitBoost.Props.C11_alloc_one_bits", "BitBoost.Props.C11_alloc_from_bits_iter", "BitBoost.Props.C11_alloc_from_iter", "BitBoost.Props.C11_alloc_zero_bitslice"], "note": "Creation: C11_new."},
{"property": "C12", "status": "proved", "theorems": ["BitBoost.Props.C12_two_slices_disjoint", "BitBoost.Props.C12_two_slices_complete"], "note": ""},
{"property": "C13", "status": "proved", "theorems": ["BitBoost.Props.C13_layout", "BitBoost.Props.C13_subtract"], "note": ""},
{"property": "C14", "status": "proved", "theorems": ["BitBoost.Props.C14_get_set", "BitBoost.Props.C14_truncates", "BitBoost.Props.C14_out_of_range", "BitBoost.Props.C14_resize"], "note": "Resizing: C14_resize."},
{"property": "C15", "status": "proved", "theorems": ["BitBoost.Props.C15_code_in_range", "BitBoost.Props.C15_code_in_range_any", "BitBoost.Props.C15_monotone", "BitBoost.Props.C15_clamp_low", "BitBoost.Props.C15_clamp_high", "BitBoost.Props.C15_upper_bound", "BitBoost.Props.C15_upper_bound_f32", "BitBoost.Props.C15_half_step", "BitBoost.Props.C15_half_step_f32", "BitBoost.Props.C15_endpoints", "BitBoost.Props.C15_lower_endpoint", "BitBoost.Props.C15_overflow_all_zero"], "note": ""},
{"property": "C16", "status": "proved", "theorems": ["BitBoost.Props.C16_copy_block"], "note": ""},
{"property": "C17", "status": "proved", "theorems": ["BitBoost.Props.C17_sum_scaled_masked", "BitBoost.Props.C17_sum_scaled_masked_f32", "BitBoost.Props.C17_sum_masked", "BitBoost.Props.C17_sum_masked_range", "BitBoost.Props.C19_sum_all_masked2"], "note": ""},
{"property": "C18", "status": "proved", "theorems": ["BitBoost.Props.C18_count_ones_and", "BitBoost.Props.C18_count_and2_c00", "BitBoost.Props.C18_count_ones_and_compr", "BitBoost.Props.C18_count_and2_c10"], "note": ""},
{"property": "C19", "status": "proved", "theorems": ["BitBoost.Props.C19_sum_all_masked2", "BitBoost.Props.C19_length_checked", "BitBoost.Props.C19_w8_overflow"], "note": ""},
{"property": "C20", "status": "proved", "theorems": ["BitBoost.Props.C20_sum_all_masked2_compr", "BitBoost.Props.C20_equals_uncompressed"], "note": ""},
{"property": "C21", "status": "proved", "theorems": ["BitBoost.Props.C21_sum_and3_c00", "BitBoost.Props.C21_sum_and3_c10", "BitBoost.Props.C18_count_and2_c00", "BitBoost.Props.C18_count_and2_c10"], "note": ""},
{"property": "C22", "status": "proved", "theorems": ["BitBoost.Props.C22_count_and2_c11", "BitBoost.Props.C22_sum_and3_c11"], "note": ""},
{"property": "C23", "status": "partial", "theorems": ["BitBoost.Props.C23_accessors_partial", "BitBoost.Props.C23_kernels_partial", "BitBoost.Props.C23_compressed_kernels_partial", "BitBoost.Props.C23_iterators_partial", "BitBoost.Props.C23_for_each_partial", "BitBoost.Props.C23_for_each_index_and_compr_refuted", "BitBoost.Props.C23_count_and2_c00_refuted", "BitBoost.Props.C23_count_and2_c10_refuted", "BitBoost.Props.C23_sum_and3_refuted", "BitBoost.Props.C23_sum_and3_c11_refuted", "BitBoost.Props.C23_copy_block_refuted", "BitBoost.Props.C23_uninitialised_read_refuted", "BitBoost.Props.C23_gather_refuted"], "note": "The property is false of the code: C23_*_refuted give safe calls with out-of-bounds (or uninitialised) reads: for_each_index_and_compr, count_and2_c00/c10, sum_and3_*, copy_block_from (release), get_slice over uninitialised capacity, gathers with indices >= 2^31. C23_*_partial prove it for the other safe functions, for all arguments."},
{"property": "C24", "status": "proved", "theorems": ["BitBoost.Props.C24_new", "BitBoost.Props.C24_valid_bin", "BitBoost.Props.C24_monotone", "BitBoost.Props.C24_lower_limit", "BitBoost.Props.C24_upper_limit_of", "BitBoost.Props.C24_upper_limit_exact", "BitBoost.Props.C24_upper_limit_f32", "BitBoost.Props.C24_overflow_all_first", "BitBoost.Props.C24_contents", "BitBoost.Props.C24_total_weight"], "note": ""},
{"property": "C25", "status": "proved", "theorems": ["BitBoost.Props.C25_bin_with_rank", "BitBoost.Props.C25_negative_rank", "BitBoost.Props.C25_rank_iter", "BitBoost.Props.C25_rank_types"], "note": ""},
{"property": "C26", "status": "proved", "theorems": ["BitBoost.Props.C26_bin_of_order_statistic", "BitBoost.Props.C26_quantile", "BitBoost.Props.C26_quantile_f32"], "note": "In f32 with an explicit bound: C26_quantile_f32."},
{"property": "C27", "status": "proved", "theorems": ["BitBoost.Props.C27_values", "BitBoost.Props.C27_names", "BitBoost.Props.C27_limits", "BitBoost.Props.C27_categories", "BitBoost.Props.C27_accepts", "BitBoost.Props.C27_no_records_panic", "BitBoost.Props.C27_rejects"], "note": "CSV tokenising and decimal parsing are abstracted: the model takes the parse result of each field. C27_no_records_panic records a finding: an input without records panics instead of giving an error. Why a file is refused, with the number of the record: C27_rejects."},
{"property": "C28", "status": "partial", "theorems": ["BitBoost.Props.C28_names", "BitBoost.Props.C28_limits_bound_partial", "BitBoost.Props.C28_limits_include_zero_partial", "BitBoost.Props.C28_attained_refuted", "BitBoost.Props.C28_values"], "note": "The property is false of the code: limits of a column set through the C API start at (0,0), so they always include 0 and are kept when the column is set again (C28_attained_refuted). Proved: the limits bound the values after every history of calls, also failed ones, and a successful call stores exactly the given values (C28_values)."},
{"property": "C29", "status": "partial", "theorems": ["BitBoost.Props.C29_unknown", "BitBoost.Props.C29_csv", "BitBoost.Props.C29_api_partial", "BitBoost.Props.C29_failed_call_refuted", "BitBoost.Props.C29_retyped_refuted"], "note": "Proved for CSV data (C29_csv) and for the C API when every call succeeds and no feature changes between categorical and numerical (C29_api_partial). Refuted beyond that: after a failed call (C29_failed_call_refuted) and after re-setting a categorical column as numerical (C29_retyped_refuted)."},
{"property": "C30", "status": "proved", "theorems": ["BitBoost.Props.C30_with_replacement", "BitBoost.Props.C30_reservoir", "BitBoost.Props.C30_count_f32", "BitBoost.Props.C30_examples", "BitBoost.Props.C30_count_exact", "BitBoost.Props.C30_examples_exist", "BitBoost.Props.C30_no_sampling", "BitBoost.Props.C30_features", "BitBoost.Props.C30_all_features", "BitBoost.Props.C30_every_sample_possible"], "note": ""},
{"property": "C31", "status": "partial", "theorems": ["BitBoost.Props.C31_locard", "BitBoost.Props.C31_hicard", "BitBoost.Props.C31_nested", "BitBoost.Props.C31_numerical_below", "BitBoost.Props.C31_numerical_nan", "BitBoost.Props.C31_padding", "BitBoost.Props.C31_numerical_partial", "BitBoost.Props.C31_numerical_f32_partial", "BitBoost.Props.C35_rounding_refuted"], "note": "Proved for categorical features, nesting, padding, and that numerical masks are lower sets for every rounding mode. For numerical features the exact split value is proved for exact arithmetic (C31_numerical_partial) and, with the f32 arithmetic of the code, for fixed-point columns (whole numbers and the like) and columns in general position (no value too close to a bin bound) (C31_numerical_f32_partial); for other columns it is false in f32 (C35_rounding_refuted)."},
{"property": "C32", "status": "proved", "theorems": ["BitBoost.Props.C32_candidates"], "note": ""},
{"property": "C33", "status": "partial", "theorems": ["BitBoost.Props.C33_scores_partial", "BitBoost.Props.C33_bagging_partial", "BitBoost.Props.C33_bagging_refuted"], "note": "The property is false of the code under bagging: update_hicard_cat reads grad[i] with the position i in the sample instead of the row (C33_bagging_refuted). Proved without sampling of examples. With sampling C33_bagging_partial says exactly which gradients are averaged: those at the positions of the examples in the sample."},
{"property": "C34", "status": "proved", "theorems": ["BitBoost.Props.C34_between_samples", "BitBoost.Props.C34_due"], "note": ""},
{"property": "C35", "status": "partial", "theorems": ["BitBoost.Props.C35_categorical", "BitBoost.Props.C35_nan_refuted", "BitBoost.Props.C35_numerical_partial", "BitBoost.Props.C35_numerical_f32_partial", "BitBoost.Props.C35_rounding_refuted", "BitBoost.Props.C35_near_f32"], "note": "Proved for categorical features. For numerical features, candidates whose mask leaves out an active example: proved for exact arithmetic (C35_numerical_partial) and, in f32, for fixed-point columns (whole numbers and the like) and columns in general position (no value too close to a bin bound) (C35_numerical_f32_partial); false in f32 for other columns (C35_rounding_refuted) and for NaN values (C35_nan_refuted). In f32, for every numerical column whose limits are not too close together, training and prediction can only disagree on values within M/2^18 of the split value (M the largest magnitude) (C35_near_f32)."},
{"property": "C36", "status": "proved", "theorems": ["BitBoost.Props.C36_predict", "BitBoost.Props.C36_shrinkage_bias", "BitBoost.Props.C36_shrinkage_exact", "BitBoost.Props.C36_empty"], "note": ""},
{"property": "C37", "status": "proved", "theorems": ["BitBoost.Props.C37_counts", "BitBoost.Props.C37_depth", "BitBoost.Props.C37_full"], "note": "The limits are reached: C37_full."},
{"property": "C38", "status": "proved", "theorems": ["BitBoost.Props.C38_equality", "BitBoost.Props.C38_equality_nan", "BitBoost.Props.C38_hicard", "BitBoost.Props.C38_get_supercat"], "note": "Which bit of the supercategory mask a value reads: C38_get_supercat."},
{"property": "C39", "status": "proved", "theorems": ["BitBoost.Props.C39_path_features", "BitBoost.Props.C39_tree_rows", "BitBoost.Props.C39_ensemble_rows"], "note": ""},
{"property": "C40", "status": "partial", "theorems": ["BitBoost.Props.C40_near_f32", "BitBoost.Props.C40_one_leaf", "BitBoost.Props.C40_calls", "BitBoost.Props.C40_leaf_values", "BitBoost.Props.C40_out_of_bag", "BitBoost.Props.C40_prediction", "BitBoost.Props.C40_prediction_categorical", "BitBoost.Props.C40_prediction_exact_partial", "BitBoost.Props.C40_prediction_f32_partial", "BitBoost.Props.C40_rounding_refuted"], "note": "Proved for every rounding mode: every active example is in exactly one leaf, its prediction is updated once, with the value of that leaf, and the objective is asked for each leaf once (C40_one_leaf, C40_calls, C40_out_of_bag). That the leaf is the one prediction finds is proved for data without numerical features (C40_prediction_categorical), in f32 with numerical features that are fixed-point columns (whole numbers and the like) or in general position (no value too close to a bin bound) (C40_prediction_f32_partial) and for exact arithmetic without NaN (C40_prediction_exact_partial); it is false in f32 for other numerical columns (C40_rounding_refuted). In f32, without a condition on the columns: the prediction follows the leaf for every row that has no value next to a split value on a numerical column with wide limits (C40_near_f32). For every rounding, the value of a leaf is the learning rate times what the objective asks for its rows with the predictions before the tree (C40_leaf_values)."},
{"property": "C41", "status": "partial", "theorems": ["BitBoost.Props.C41_categorical", "BitBoost.Props.C41_exact_partial", "BitBoost.Props.C41_f32_partial", "BitBoost.Props.C41_out_of_bag", "BitBoost.Props.C41_rounding_refuted", "BitBoost.Props.C41_near_f32", "BitBoost.Props.C41_row_exact_partial"], "note": "Proved for data without numerical features in every rounding mode (C41_categorical), in f32 with numerical features that are fixed-point columns (whole numbers and the like) or in general position (no value too close to a bin bound) (C41_f32_partial), for exact arithmetic with numerical features without NaN (C41_exact_partial), and in general for the rows left out of the sample (C41_out_of_bag). False in f32 for other numerical columns (C41_rounding_refuted). Row by row, with nothing assumed of the other rows: C41_near_f32 (the row is not next to a split value) and C41_row_exact_partial."},
{"property": "C42", "status": "partial", "theorems": ["BitBoost.Props.C42_counts", "BitBoost.Props.C42_built", "BitBoost.Props.C42_sums_partial", "BitBoost.Props.C42_sums_min_partial", "BitBoost.Props.C42_sums_f32_partial", "BitBoost.Props.C42_min_examples_refuted", "BitBoost.Props.C42_sums_hinge_f32", "BitBoost.Props.C42_sums_l1_f32"], "note": "Counts are proved exact for every rounding mode (C42_counts), and the sums of the root and of left children (C42_built). Sums of derived (right) nodes: exact in exact arithmetic with min_examples_leaf = 1 (C42_sums_partial); for any min_examples_leaf within an explicit bound that is 0 for min_examples_leaf = 1 (C42_sums_min_partial); in f32 within an explicit bound on the accumulated rounding error (C42_sums_f32_partial). Equality is false for min_examples_leaf = 2, because sums of small groups are stored as 0 and then subtracted (C42_min_examples_refuted). In f32 the sums are even exact, and equal to the sums of the true (not only the discretised) gradients, for the hinge loss with its two bits and up to 2^21 active examples (C42_sums_hinge_f32) and for the absolute loss with one bit and up to 2^22 (C42_sums_l1_f32), with min_examples_leaf = 1."},
{"property": "C43", "status": "partial", "theorems": ["BitBoost.Props.C43_round", "BitBoost.Props.C43_tree_partial", "BitBoost.Props.C43_tree_min_partial", "BitBoost.Props.C43_tree_f32_partial", "BitBoost.Props.C43_min_examples_refuted", "BitBoost.Props.C43_tree_hinge_f32_partial", "BitBoost.Props.C43_tree_l1_f32_partial"], "note": "Proved for every rounding mode in terms of the histograms of the node (C43_round). In terms of the examples: proved for whole trained trees in exact arithmetic with min_examples_leaf = 1 (C43_tree_partial); false for min_examples_leaf = 2 (C43_min_examples_refuted), where the split is the best up to an explicit error (C43_tree_min_partial); in f32, for every min_examples_leaf, the best up to an explicit error that includes all rounding (C43_tree_f32_partial). For the hinge loss and the absolute loss with one bit, in f32 with min_examples_leaf = 1, the best for the gradients themselves up to N / 2^17, whatever the depth (C43_tree_hinge_f32_partial, C43_tree_l1_f32_partial)."},
{"property": "C44", "status": "proved", "theorems": ["BitBoost.Props.C44_booster", "BitBoost.Props.C44_compression"], "note": ""},
{"property": "C45", "status": "proved", "theorems": ["BitBoost.Props.C45_deterministic", "BitBoost.Props.C45_panic", "BitBoost.Props.C45_no_panic", "BitBoost.Props.C45_no_deadlock", "BitBoost.Props.C45_terminates", "BitBoost.Props.C45_mutual_exclusion", "BitBoost.Props.C45_build", "BitBoost.Props.C45_states", "BitBoost.Props.C45_training", "BitBoost.Props.C45_same_tree"], "note": "All interleavings of the jobs and their two phases (compute, write under the lock)."},
{"property": "C46", "status": "proved", "theorems": ["BitBoost.Props.C46_limits", "BitBoost.Props.C46_terminates"], "note": ""},
{"property": "C47", "status": "proved", "theorems": ["BitBoost.Props.C47_iteration", "BitBoost.Props.C47_run", "BitBoost.Props.C47_iteration_f32", "BitBoost.Props.C47_run_f32", "BitBoost.Props.C47_leaf_value", "BitBoost.Props.C47_unique_minimiser", "BitBoost.Props.C47_no_increase", "BitBoost.Props.C47_leaf_value_f32", "BitBoost.Props.C47_no_increase_f32", "BitBoost.Props.C47_no_increase_rel_f32", "BitBoost.Props.C47_iteration_rel_f32", "BitBoost.Props.C47_run_rel_f32"], "note": "C47_leaf_value and C47_unique_minimiser for a leaf, C47_no_increase for a tree, C47_iteration and C47_run for the booster: exact arithmetic. With the f32 arithmetic of the code: C47_leaf_value_f32, C47_no_increase_f32, C47_iteration_f32, C47_run_f32, up to an explicit bound on the rounding error. In f32 with a relative error term and no bound assumed on the predictions: C47_no_increase_rel_f32 (one leaf), C47_iteration_rel_f32 (one iteration), C47_run_rel_f32 (whole runs)."},
{"property": "C48", "status": "partial", "theorems": ["BitBoost.Props.C48_l1", "BitBoost.Props.C48_huber", "BitBoost.Props.C48_hinge", "BitBoost.Props.C48_hinge_exact", "BitBoost.Props.C48_l2_partial", "BitBoost.Props.C48_l2_refuted", "BitBoost.Props.C48_binary_partial", "BitBoost.Props.C48_binary_refuted"], "note": "Proved for absolute, Huber and hinge loss (hinge gradients are stored exactly, also in f32). False of the code for squared loss (C48_l2_refuted; C48_l2_partial says exactly when it holds) and for log loss with a bound below 2, such as the default 1.25 (C48_binary_refuted, C48_binary_partial)."},
{"property": "C49", "status": "proved", "theorems": ["BitBoost.Props.C49_predictions_are_bias", "BitBoost.Props.C49_empty_ensemble", "BitBoost.Props.C49_l2_mean", "BitBoost.Props.C49_hinge_prior", "BitBoost.Props.C49_binary_prior", "BitBoost.Props.C49_l2_mean_f32", "BitBoost.Props.C49_hinge_prior_rounded", "BitBoost.Props.C49_binary_prior_f32"], "note": "Exact arithmetic, and in f32: the mean within an explicit bound (C49_l2_mean_f32), the hinge prior rounded once in every arithmetic (C49_hinge_prior_rounded), the binary prior (C49_binary_prior_f32), the median in C57_bias_is_median_f32."},
{"property": "C50", "status": "partial", "theorems": ["BitBoost.Props.C50_initialize", "BitBoost.Props.C50_constant_refuted", "BitBoost.Props.C50_update_partial"], "note": "The property is false of the code: absolute and Huber loss panic on a constant target column (C50_constant_refuted), and Huber when all residuals are equal. C50_initialize and C50_update_partial say exactly when the calls succeed."},
{"property": "C51", "status": "proved", "theorems": ["BitBoost.Props.C51_rmse_f32", "BitBoost.Props.C51_l2", "BitBoost.Props.C51_rmse", "BitBoost.Props.C51_binary_error", "BitBoost.Props.C51_binary_error01", "BitBoost.Props.C51_binary_loss", "BitBoost.Props.C51_empty", "BitBoost.Props.C51_binary_loss_f32", "BitBoost.Props.C51_l2_f32", "BitBoost.Props.C51_l2_perfect"], "note": "exp, ln and sqrt are those of the math library: parameters of the model. The error fractions are exact up to one rounding for every rounding mode; squared error also in f32 (C51_l2_f32, C51_l2_perfect, C51_rmse_f32); the others are in exact arithmetic. The log loss also in f32 (C51_binary_loss_f32)."},
{"property": "C52", "status": "proved", "theorems": ["BitBoost.Props.C52_record", "BitBoost.Props.C52_record_error", "BitBoost.Props.C52_line", "BitBoost.Props.C52_parse", "BitBoost.Props.C52_defaults", "BitBoost.Props.C52_parse_error", "BitBoost.Props.C52_roundtrip"], "note": "The decimal parser of f32 (standard library) is a parameter pf of the model. Everything after a second = in a line is ignored (part of the specification IsSetting)."},
{"property": "C53", "status": "proved", "theorems": ["BitBoost.Props.C53_total", "BitBoost.Props.C53_null", "BitBoost.Props.C53_alloc", "BitBoost.Props.C53_dealloc", "BitBoost.Props.C53_refresh", "BitBoost.Props.C53_set_feature", "BitBoost.Props.C53_set_config", "BitBoost.Props.C53_train", "BitBoost.Props.C53_predict", "BitBoost.Props.C53_consistent", "BitBoost.Props.C53_isolation", "BitBoost.Props.C53_errors"], "note": "Allowed: pointers are null or live, strings are C strings, buffers are large enough (what the C side must guarantee). Addresses of freed contexts are not reused. C53_errors: a rejected categorical column is left partly overwritten although the call reports an error."},
{"property": "C54", "status": "proved", "theorems": ["BitBoost.Props.C54_reuse"], "note": "Model/LearnerStore.lean has the stores; the same arithmetic, data and number of rounds on both sides. Also equal when training panics."},
{"property": "C55", "status": "partial", "theorems": ["BitBoost.Props.C55_orphan_split_refuted", "BitBoost.Props.C55_valid_id_refuted", "BitBoost.Props.C55_parent", "BitBoost.Props.C55_split_partial", "BitBoost.Props.C55_valid_id_partial"], "note": "The property is false of the code: C55_valid_id_refuted (a leaf is refused and a non-node accepted) and C55_orphan_split_refuted (split_node accepts a node that is not in the tree). Proved for trees filled level by level (C55_valid_id_partial). split_node refuses exactly an empty criterion, ids of the last level and split nodes (C55_split_partial). The numbering of parents and children is right (C55_parent)."},
{"property": "C56", "status": "partial", "theorems": ["BitBoost.Props.C56_l2_f32", "BitBoost.Props.C56_l1_f32", "BitBoost.Props.C56_huber_f32_partial", "BitBoost.Props.C56_binary_f32", "BitBoost.Props.C56_l2", "BitBoost.Props.C56_l1", "BitBoost.Props.C56_hinge", "BitBoost.Props.C56_huber_partial", "BitBoost.Props.C56_huber_refuted", "BitBoost.Props.C56_binary"], "note": "Proved for squared, absolute, hinge and log loss (the latter up to twice the error of the library exp), in exact arithmetic and in f32 (C56_l2_f32, C56_l1_f32, C56_binary_f32, C56_huber_f32_partial). False of the code for Huber loss, whose gradients have the opposite sign (C56_huber_refuted); their negation is right (C56_huber_partial)."},
{"property": "C57", "status": "proved", "theorems": ["BitBoost.Props.C57_quantile", "BitBoost.Props.C57_bias_is_median", "BitBoost.Props.C57_l1_leaf", "BitBoost.Props.C57_quantile_f32", "BitBoost.Props.C57_median_f32", "BitBoost.Props.C57_bias_is_median_f32", "BitBoost.Props.C57_l1_leaf_f32"], "note": "Up to the width of a bin, as stated. Exact arithmetic and, with an explicit bound on the rounding error, f32 (C57_quantile_f32, C57_median_f32, C57_bias_is_median_f32, C57_l1_leaf_f32)."},
{"property": "C58", "status": "proved", "theorems": ["BitBoost.Props.C58_leaf_size"], "note": ""},
{"property": "C59", "status": "proved", "theorems": ["BitBoost.Props.C59_run", "BitBoost.Props.C59_trees"], "note": ""},
{"property": "C60", "status": "proved", "theorems": ["BitBoost.Props.C60_metrics"], "note": ""},
{"property": "C61", "status": "proved", "theorems": ["BitBoost.Props.C61_objective_reuse"], "note": ""},
{"property": "C62", "status": "proved", "theorems": ["BitBoost.Props.C62_training", "BitBoost.Props.C62_prediction", "BitBoost.Props.C62_stores"], "note": "Booster::train (with the learner, the sampling and the objective) and AdditiveTree::predict_buf; C62_stores is the same with the learner's buffers in the slice stores."},
{"property": "C63", "status": "proved", "theorems": ["BitBoost.Props.C63_train", "BitBoost.Props.C63_run", "BitBoost.Props.C63_enough", "BitBoost.Props.C63_enough_train"], "note": "Refinement of the value-level learner (Model/Learner.lean) by the one with slice stores (Model/LearnerStore.lean). The stores panic when they would exceed 2^32 - 1 elements, hence the alternative in the statement. When the memory a tree can need (Spec.treeMemory, an explicit number) is below 2^32 - 1 the stores never panic by themselves and both runs are equal: C63_enough (run), C63_enough_train (one tree, reused context)."},
{"property": "C64", "status": "proved", "theorems": ["BitBoost.Props.C64_tree", "BitBoost.Props.C64_errors", "BitBoost.Props.C64_summary_categorical", "BitBoost.Props.C64_summary_exact", "BitBoost.Props.C64_summary_f32", "BitBoost.Props.C64_raw", "BitBoost.Props.C64_completes", "BitBoost.Props.C64_test_file", "BitBoost.Props.C64_safe"], "note": "The numerical cases of the agreement of the summary with training have the hypotheses of C41 (C64_summary_categorical, C64_summary_exact, C64_summary_f32). C64_safe needs fewer than 2^32 - 256 records."},
{"property": "C65", "status": "proved", "theorems": ["BitBoost.Props.C65_safe", "BitBoost.Props.C65_fit", "BitBoost.Props.C65_predict", "BitBoost.Props.C65_rejects", "BitBoost.Props.C65_failed_fit", "BitBoost.Props.C65_parameters", "BitBoost.Props.C65_configuration"], "note": "Python values by their text, numpy arrays by their values, scikit-learn's check_X_y/check_array as documented; X is the matrix after the conversion to 32-bit floats. The parameters determine the configuration (C65_configuration). When fit is sure to make a model: C69_sklearn_binary_f32, C69_sklearn_l2_f32."},
{"property": "C66", "status": "partial", "theorems": ["BitBoost.Props.C66_config_errors", "BitBoost.Props.C66_object_safe_partial", "BitBoost.Props.C66_dealloc", "BitBoost.Props.C66_silent_failure_refuted", "BitBoost.Props.C66_float_parameter_refuted", "BitBoost.Props.C66_category_refuted", "BitBoost.Props.C66_short_target_refuted", "BitBoost.Props.C66_empty_matrix_refuted"], "note": "True: calls with columns that are long enough and matrices with rows are safe (C66_object_safe_partial), and dealloc (C66_dealloc). False: short arrays and matrices without rows read out of bounds (C66_short_target_refuted, C66_empty_matrix_refuted); errors are not reported (C66_silent_failure_refuted, C66_float_parameter_refuted, C66_category_refuted)."},
{"property": "C67", "status": "partial", "theorems": ["BitBoost.Props.C67_update", "BitBoost.Props.C67_l1_partial", "BitBoost.Props.C67_huber_partial", "BitBoost.Props.C67_binary_partial", "BitBoost.Props.C67_newton", "BitBoost.Props.C67_hinge_partial", "BitBoost.Props.C67_hinge_refuted", "BitBoost.Props.C67_l1_f32_partial", "BitBoost.Props.C67_hinge_rounded_partial", "BitBoost.Props.C67_binary_step_partial", "BitBoost.Props.C67_binary_refuted"], "note": "C67_update for every rounding. Squared loss is C47. Absolute loss up to the resolution of the bins (C67_l1_partial exact, C67_l1_f32_partial in f32). Huber compared to the approximate median, exact (C67_huber_partial). Log loss: the value is the Newton step (C67_binary_partial, C67_newton); the loss does not increase when the learning rate is at most twice the mean second derivative (C67_binary_step_partial), and it can increase otherwise, in a run of the code (C67_binary_refuted). Hinge: leaves of one class, exact (C67_hinge_partial) and for every rounding (C67_hinge_rounded_partial); false for mixed leaves (C67_hinge_refuted)."},
{"property": "C68", "status": "proved", "theorems": ["BitBoost.Props.C68_objective", "BitBoost.Props.C68_metric", "BitBoost.Props.C68_metrics", "BitBoost.Props.C68_objective_metric", "BitBoost.Props.C68_round_trip"], "note": ""},
{"property": "C69", "status": "partial", "theorems": ["BitBoost.Props.C69_program_binary_f32", "BitBoost.Props.C69_program_l2_f32", "BitBoost.Props.C69_new", "BitBoost.Props.C69_start", "BitBoost.Props.C69_iteration", "BitBoost.Props.C69_run", "BitBoost.Props.C69_binary", "BitBoost.Props.C69_l2", "BitBoost.Props.C69_exact", "BitBoost.Props.C69_binary_f32", "BitBoost.Props.C69_l2_f32", "BitBoost.Props.C69_hinge_refuted", "BitBoost.Props.C69_fit_refuted", "BitBoost.Props.C69_limits_refuted", "BitBoost.Props.C69_csv", "BitBoost.Props.C69_csv_binary_f32", "BitBoost.Props.C69_api", "BitBoost.Props.C69_binary_stores_f32", "BitBoost.Props.C69_l2_stores_f32", "BitBoost.Props.C69_sklearn_binary_f32", "BitBoost.Props.C69_sklearn_l2_f32", "BitBoost.Props.C69_l2_full_f32", "BitBoost.Props.C69_csv_l2_f32"], "note": "Booster.new, the start and every iteration end under explicit conditions on sizes (C69_new, C69_start, C69_iteration, C69_run), for every rounding with a wide enough range. Whole runs without further conditions: log loss in f32 for every number of iterations below 2^24 (C69_binary, C69_binary_f32), squared error without high-cardinality features in f32 when a + 2 niterations <= 103 for targets of size 2^a (C69_l2, C69_l2_f32), squared error and hinge loss in exact arithmetic for every number of iterations (C69_exact). False of the code for the hinge loss in f32, whose predictions diverge (C69_hinge_refuted), for squared error with a high-cardinality feature after a perfect fit (C69_fit_refuted), for numerical features with infinite values or only NaN (C69_limits_refuted), and for absolute and Huber loss with equal residuals (C50). Which CSV files and which C calls give such data: C69_csv, C69_api; from file to model in f32: C69_csv_binary_f32. Squared error in f32 without example sampling, for a number of iterations that only has to satisfy (n+4)*niterations <= m*2^21 with a+m <= 89: C69_l2_full_f32 (for example a million iterations on a few examples); from a CSV file: C69_csv_l2_f32. With the pooled memory of the learner: C69_binary_stores_f32, C69_l2_stores_f32. The whole command line program, from the texts of the arguments and the file to the report: C69_program_binary_f32, C69_program_l2_f32. fit of the scikit-learn estimator, from Python parameters and arrays to a model: C69_sklearn_binary_f32, C69_sklearn_l2_f32."},
{"property": "C70", "status": "proved", "theorems": ["BitBoost.Props.C70_table", "BitBoost.Props.C70_dictionary", "BitBoost.Props.C70_estimator", "BitBoost.Props.C70_fit", "BitBoost.Props.C70_lists_limit"], "note": "For tables whose texts have no quotes and line ends and whose default lists have at most one element (C70_table, C70_dictionary), which the table of the library satisfies; needed: C70_lists_limit. Constructor: C70_estimator; through fit to the model: C70_fit."},
{"property": "C71", "status": "proved", "theorems": ["BitBoost.Props.C71_decimal", "BitBoost.Props.C71_exactly", "BitBoost.Props.C71_f32"], "note": "C71_decimal and C71_exactly for every rounding, C71_f32 in terms of IEEE 754. f32::from_str is a dependency, modelled after its documentation."},
{"property": "C72", "status": "proved", "theorems": ["BitBoost.Props.C72_roundtrip", "BitBoost.Props.C72_exactly", "BitBoost.Props.C72_values", "BitBoost.Props.C72_program"], "note": "C72_roundtrip (reader), C72_exactly (which tables are loaded), C72_values (what is loaded). The csv crate is a dependency, modelled after its documentation. C72_program: the command line program loads files this way."},
{"property": "C73", "status": "proved", "theorems": ["BitBoost.Props.C73_shuffle", "BitBoost.Props.C73_draws", "BitBoost.Props.C73_update", "BitBoost.Props.C73_rows"], "note": "C73_draws counts the possible draws, C73_shuffle the draws of one sample, C73_update and C73_rows those of an update with and without sampling of features. That gen_range is uniform (rand crate, and modulo the period of its generator) is the premise."},
{"property": "C74", "status": "partial", "theorems": ["BitBoost.Props.C74_exact_partial", "BitBoost.Props.C74_rounding", "BitBoost.Props.C74_error_rates", "BitBoost.Props.C74_succeeds_partial", "BitBoost.Props.C74_rounding_succeeds", "BitBoost.Props.C74_csv", "BitBoost.Props.C74_set_feature", "BitBoost.Props.C74_float_refuted"], "note": "False of the code for f32 sums (C74_float_refuted: the mean of 2^24, 1, 1 depends on the order). Proved in exact arithmetic for all objectives, features and metrics (C74_exact_partial, C74_succeeds_partial), and for any rounding for the objective l1, with all kinds of features (C74_rounding, C74_rounding_succeeds); error rates do not depend on the order for any rounding (C74_error_rates); C74_csv and C74_set_feature for loading. Rows <= 2^24 and min_examples_leaf >= 1 (as in C44)."},
{"property": "C75", "status": "partial", "theorems": ["BitBoost.Props.C75_values", "BitBoost.Props.C75_classes", "BitBoost.Props.C75_shift_exact_partial", "BitBoost.Props.C75_shift_predictions_partial", "BitBoost.Props.C75_units_partial", "BitBoost.Props.C75_units_predictions_partial", "BitBoost.Props.C75_units_categorical_partial", "BitBoost.Props.C75_labels_refuted", "BitBoost.Props.C75_shift_refuted", "BitBoost.Props.C75_units_refuted", "BitBoost.Props.C75_units_numerical_refuted"], "note": "Values and classes: proved for every rounding (C75_values, C75_classes). The labels of the objective binary have to be 0 and 1: false for -1 and 1 (C75_labels_refuted: a negative row gets a positive prediction). Adding a constant: proved in exact arithmetic (C75_shift_exact_partial, C75_shift_predictions_partial); false of the code in f32 (C75_shift_refuted). Other units: proved in exact arithmetic for l1 (C75_units_partial, C75_units_predictions_partial) and for l2 and huber with categorical features and min_gain multiplied accordingly (C75_units_categorical_partial); otherwise false for l2 and huber even in exact arithmetic (C75_units_refuted: min_gain is not relative; C75_units_numerical_refuted: EPSILON in the weights of numerical features). At least one feature."},
{"property": "C76", "status": "proved", "theorems": ["BitBoost.Props.C76_settings", "BitBoost.Props.C76_seed", "BitBoost.Props.C76_iterations", "BitBoost.Props.C76_seed_matters"], "note": ""},
{"property": "C77", "status": "partial", "theorems": ["BitBoost.Props.C77_units_partial", "BitBoost.Props.C77_predictions_partial", "BitBoost.Props.C77_ends_partial", "BitBoost.Props.C77_units_f32_partial", "BitBoost.Props.C77_predictions_f32_partial", "BitBoost.Props.C77_c_api", "BitBoost.Props.C77_csv", "BitBoost.Props.C77_units_refuted", "BitBoost.Props.C77_c_api_shift_refuted"], "note": "Proved in exact arithmetic (C77_units_partial, C77_predictions_partial, C77_ends_partial); loading from CSV and through the C API (C77_csv, C77_c_api) for any values. In f32, bit for bit, for factors that are powers of two from 2^-30 to 2^30, nothing added, values 0 or from 2^-30 to 2^60 in size (C77_units_f32_partial, C77_predictions_f32_partial). False of the code in f32 for other units (C77_units_refuted) and, for added constants, through the C API even in exact arithmetic (C77_c_api_shift_refuted: 0 always counts as a value)."},
{"property": "C78", "status": "proved", "theorems": ["BitBoost.Props.C78_without", "BitBoost.Props.C78_untested", "BitBoost.Props.C78_predictions", "BitBoost.Props.C78_value", "BitBoost.Props.C78_csv", "BitBoost.Props.C78_two_values", "BitBoost.Props.C78_untested_values", "BitBoost.Props.C78_c_api", "BitBoost.Props.C78_c_api_only", "BitBoost.Props.C78_alone_refuted", "BitBoost.Props.C78_c_api_refuted"], "note": "For every rounding, objective, metric and sampling: C78_without, C78_untested, C78_predictions, C78_value. One value means that the recorded limits are equal; C78_csv: so it is for a CSV column of equal values, and C78_c_api, C78_c_api_only: through the C API for a column of zeros and for no other. However the data was loaded, no tree tests a feature with the same value in all rows (C78_two_values, C78_untested_values). Without another feature the statement is false (C78_alone_refuted: training panics or not depending on the value); through the C API, where 0 counts as a value, a column of sevens changes the model when features are sampled (C78_c_api_refuted)."},
{"property": "C79", "status": "proved", "theorems": ["BitBoost.Props.C79_tests", "BitBoost.Props.C79_leaves", "BitBoost.Props.C79_depth", "BitBoost.Props.C79_values", "BitBoost.Props.C79_predictions", "BitBoost.Props.C79_second_refuted", "BitBoost.Props.C79_min_examples_refuted"], "note": "For every rounding, objective and sampling: C79_tests, C79_leaves, C79_depth; C79_values, C79_predictions for the leaves that both trees have (at most 2^24 examples, min_examples_leaf at least 1). Both runs are assumed to succeed. For later trees and for min_examples_leaf it is false (C79_second_refuted, C79_min_examples_refuted), as stated."},
{"property": "C80", "status": "proved", "theorems": ["BitBoost.Props.C80_categorical", "BitBoost.Props.C80_exact", "BitBoost.Props.C80_f32", "BitBoost.Props.C80_squared", "BitBoost.Props.C80_squared_exact"], "note": "Any objective: C80_categorical (no numerical features, any rounding), C80_exact (exact arithmetic, numerical features without missing values), C80_f32 (f32, fixed-point columns or columns in general position). Squared loss: C80_squared (the sum of the differences divided by their number, any rounding, no numerical features), C80_squared_exact (the mean). With other numerical columns in f32 training and prediction can disagree about a row (C41_rounding_refuted), as stated. At most 2^24 rows, min_examples_leaf at least 1."}
]}
