{
 "claims": [
  {
   "property": "C01",
   "status": "proved",
   "theorems": [
    "Dcor.Props.C01_avl_dcov",
    "Dcor.Props.C01_avl_udcov"
   ],
   "note": ""
  },
  {
   "property": "C02",
   "status": "proved",
   "theorems": [
    "Dcor.Props.C02_mergesort_dcov",
    "Dcor.Props.C02_mergesort_udcov"
   ],
   "note": ""
  },
  {
   "property": "C03",
   "status": "proved",
   "theorems": [
    "Dcor.Props.C03_method_irrelevant",
    "Dcor.Props.C03_method_irrelevant_unbiased"
   ],
   "note": ""
  },
  {
   "property": "C04",
   "status": "proved",
   "theorems": [
    "Dcor.Props.C04_compiled_agrees",
    "Dcor.Props.C04_inner_loops"
   ],
   "note": ""
  },
  {
   "property": "C05",
   "status": "proved",
   "theorems": [
    "Dcor.Props.C05_avl_in_bounds"
   ],
   "note": ""
  },
  {
   "property": "C06",
   "status": "proved",
   "theorems": [
    "Dcor.Props.C06_merge_sorts",
    "Dcor.Props.C06_mergesort_in_bounds"
   ],
   "note": ""
  },
  {
   "property": "C07",
   "status": "proved",
   "theorems": [
    "Dcor.Props.C07_stats",
    "Dcor.Props.C07_ustats",
    "Dcor.Props.C07_variance_shortcut"
   ],
   "note": ""
  },
  {
   "property": "C08",
   "status": "proved",
   "theorems": [
    "Dcor.Props.C08_biased_is_mean_product"
   ],
   "note": ""
  },
  {
   "property": "C09",
   "status": "proved",
   "theorems": [
    "Dcor.Props.C09_unbiased_is_u_product"
   ],
   "note": ""
  },
  {
   "property": "C10",
   "status": "proved",
   "theorems": [
    "Dcor.Props.C10_covariance_nonneg",
    "Dcor.Props.C10_negative_for_exponent_four"
   ],
   "note": ""
  },
  {
   "property": "C11",
   "status": "proved",
   "theorems": [
    "Dcor.Props.C11_correlation_range",
    "Dcor.Props.C11_correlation_range_any_exponent"
   ],
   "note": ""
  },
  {
   "property": "C12",
   "status": "proved",
   "theorems": [
    "Dcor.Props.C12_u_correlation_range"
   ],
   "note": ""
  },
  {
   "property": "C13",
   "status": "proved",
   "theorems": [
    "Dcor.Props.C13_zero_variance_iff",
    "Dcor.Props.C13_constant_gives_zero"
   ],
   "note": ""
  },
  {
   "property": "C14",
   "status": "proved",
   "theorems": [
    "Dcor.Props.C14_self_correlation",
    "Dcor.Props.C14_u_self_correlation"
   ],
   "note": ""
  },
  {
   "property": "C15",
   "status": "proved",
   "theorems": [
    "Dcor.Props.C15_correlation_one_iff"
   ],
   "note": ""
  },
  {
   "property": "C16",
   "status": "proved",
   "theorems": [
    "Dcor.Props.C16_symmetry",
    "Dcor.Props.C16_symmetry_unbiased"
   ],
   "note": ""
  },
  {
   "property": "C17",
   "status": "proved",
   "theorems": [
    "Dcor.Props.C17_reordering",
    "Dcor.Props.C17_reordering_unbiased"
   ],
   "note": ""
  },
  {
   "property": "C18",
   "status": "proved",
   "theorems": [
    "Dcor.Props.C18_isometry",
    "Dcor.Props.C18_orthogonal_translation",
    "Dcor.Props.C18_scaling"
   ],
   "note": ""
  },
  {
   "property": "C19",
   "status": "partial",
   "theorems": [
    "Dcor.Props.C19_int64_mergesort_crashes",
    "Dcor.Props.C19_small_samples_partial",
    "Dcor.Props.C19_avl_asserts",
    "Dcor.Props.C19_mergesort_crashes",
    "Dcor.Props.C19_fraction_crashes"
   ],
   "note": "NaN is proved for naive and auto. The claim is false for mergesort with n=3 (ZeroDivisionError, C19_mergesort_crashes), for Fractions with n=3 (ZeroDivisionError, C19_fraction_crashes) and for AVL (AssertionError)."
  },
  {
   "property": "C20",
   "status": "proved",
   "theorems": [
    "Dcor.Props.C20_affine_invariance",
    "Dcor.Props.C20_eigenvectors_irrelevant"
   ],
   "note": ""
  },
  {
   "property": "C21",
   "status": "proved",
   "theorems": [
    "Dcor.Props.C21_double_centered",
    "Dcor.Props.C21_rows_always_zero",
    "Dcor.Props.C21_symmetry_needed"
   ],
   "note": ""
  },
  {
   "property": "C22",
   "status": "proved",
   "theorems": [
    "Dcor.Props.C22_u_centered",
    "Dcor.Props.C22_diagonal",
    "Dcor.Props.C22_two_observations"
   ],
   "note": ""
  },
  {
   "property": "C23",
   "status": "proved",
   "theorems": [
    "Dcor.Props.C23_no_out",
    "Dcor.Props.C23_in_place",
    "Dcor.Props.C23_other_out",
    "Dcor.Props.C23_transposed_out",
    "Dcor.Props.C23_integer_out",
    "Dcor.Props.C23_overlapping_out_wrong"
   ],
   "note": ""
  },
  {
   "property": "C24",
   "status": "proved",
   "theorems": [
    "Dcor.Props.C24_inner_product",
    "Dcor.Props.C24_three_observations",
    "Dcor.Props.C24_one_two_observations"
   ],
   "note": ""
  },
  {
   "property": "C25",
   "status": "proved",
   "theorems": [
    "Dcor.Props.C25_projections"
   ],
   "note": ""
  },
  {
   "property": "C26",
   "status": "proved",
   "theorems": [
    "Dcor.Props.C26_formula",
    "Dcor.Props.C26_residuals",
    "Dcor.Props.C26_symmetry",
    "Dcor.Props.C26_constant_condition"
   ],
   "note": ""
  },
  {
   "property": "C27",
   "status": "proved",
   "theorems": [
    "Dcor.Props.C27_cosine",
    "Dcor.Props.C27_range",
    "Dcor.Props.C27_symmetry"
   ],
   "note": ""
  },
  {
   "property": "C28",
   "status": "proved",
   "theorems": [
    "Dcor.Props.C28_condition_itself",
    "Dcor.Props.C28_self"
   ],
   "note": ""
  },
  {
   "property": "C29",
   "status": "partial",
   "theorems": [
    "Dcor.Props.C29_orientation_partial",
    "Dcor.Props.C29_array_api_transposed",
    "Dcor.Props.C29_array_api_wrong_shape"
   ],
   "note": "Proved on the SciPy path. False on the array-API path, which returns the transposed matrix (C29_array_api_transposed)."
  },
  {
   "property": "C30",
   "status": "proved",
   "theorems": [
    "Dcor.Props.C30_distance_matrix",
    "Dcor.Props.C30_paths_agree",
    "Dcor.Props.C30_triangle_needs_small_exponent"
   ],
   "note": ""
  },
  {
   "property": "C31",
   "status": "proved",
   "theorems": [
    "Dcor.Props.C31_nonneg",
    "Dcor.Props.C31_negative_for_exponent_four",
    "Dcor.Props.C31_symmetric",
    "Dcor.Props.C31_zero_for_reordering"
   ],
   "note": ""
  },
  {
   "property": "C32",
   "status": "proved",
   "theorems": [
    "Dcor.Props.C32_u_statistic",
    "Dcor.Props.C32_u_le_v",
    "Dcor.Props.C32_single_observation_nan"
   ],
   "note": ""
  },
  {
   "property": "C33",
   "status": "proved",
   "theorems": [
    "Dcor.Props.C33_from_string",
    "Dcor.Props.C33_string_is_enum",
    "Dcor.Props.C33_unknown_string"
   ],
   "note": ""
  },
  {
   "property": "C34",
   "status": "proved",
   "theorems": [
    "Dcor.Props.C34_energy_warns",
    "Dcor.Props.C34_energy_proceeds",
    "Dcor.Props.C34_naive_warns",
    "Dcor.Props.C34_naive_proceeds",
    "Dcor.Props.C34_test_warns",
    "Dcor.Props.C34_energy_test_warns"
   ],
   "note": ""
  },
  {
   "property": "C35",
   "status": "proved",
   "theorems": [
    "Dcor.Props.C35_isometry",
    "Dcor.Props.C35_reorder",
    "Dcor.Props.C35_scale"
   ],
   "note": ""
  },
  {
   "property": "C36",
   "status": "proved",
   "theorems": [
    "Dcor.Props.C36_pvalue_formula",
    "Dcor.Props.C36_pvalue_range",
    "Dcor.Props.C36_negative_num_resamples"
   ],
   "note": ""
  },
  {
   "property": "C37",
   "status": "proved",
   "theorems": [
    "Dcor.Props.C37_energy_statistic",
    "Dcor.Props.C37_dcov_statistic",
    "Dcor.Props.C37_partial_statistic",
    "Dcor.Props.C37_statistic_independent"
   ],
   "note": ""
  },
  {
   "property": "C38",
   "status": "proved",
   "theorems": [
    "Dcor.Props.C38_parallel_same_result",
    "Dcor.Props.C38_parallel_failure",
    "Dcor.Props.C38_n_jobs",
    "Dcor.Props.C38_pool_terminates"
   ],
   "note": ""
  },
  {
   "property": "C39",
   "status": "proved",
   "theorems": [
    "Dcor.Props.C39_draws",
    "Dcor.Props.C39_only_permutations",
    "Dcor.Props.C39_seed"
   ],
   "note": ""
  },
  {
   "property": "C40",
   "status": "partial",
   "theorems": [
    "Dcor.Props.C40_dcov_level_exceeds_nominal",
    "Dcor.Props.C40_dcov_level_partial",
    "Dcor.Props.C40_dcov_constant_sample",
    "Dcor.Props.C40_energy_level_exceeds_nominal",
    "Dcor.Props.C40_energy_level_partial"
   ],
   "note": "The code counts only resamples strictly above the statistic, so the level is exceeded (C40_*_level_exceeds_nominal); what holds is the bound plus the probability of a tie."
  },
  {
   "property": "C41",
   "status": "proved",
   "theorems": [
    "Dcor.Props.C41_energy_relabels_observations",
    "Dcor.Props.C41_dcov_permutes_observations"
   ],
   "note": ""
  },
  {
   "property": "C42",
   "status": "proved",
   "theorems": [
    "Dcor.Props.C42_two_samples",
    "Dcor.Props.C42_sum_over_pairs",
    "Dcor.Props.C42_succeeds",
    "Dcor.Props.C42_fewer_than_two"
   ],
   "note": ""
  },
  {
   "property": "C43",
   "status": "proved",
   "theorems": [
    "Dcor.Props.C43_t_statistic_value",
    "Dcor.Props.C43_t_statistic_increasing",
    "Dcor.Props.C43_pvalue_range",
    "Dcor.Props.C43_pvalue_tail",
    "Dcor.Props.C43_pvalue_decreasing"
   ],
   "note": ""
  },
  {
   "property": "C44",
   "status": "partial",
   "theorems": [
    "Dcor.Props.C44_length_mismatch_partial",
    "Dcor.Props.C44_mergesort_longer_second",
    "Dcor.Props.C44_mergesort_shorter_second",
    "Dcor.Props.C44_dcov_test_length_mismatch"
   ],
   "note": "Proved for naive, AVL and auto. False for mergesort (C44_mergesort_longer_second, C44_mergesort_shorter_second)."
  },
  {
   "property": "C45",
   "status": "proved",
   "theorems": [
    "Dcor.Props.C45_fast_exponent",
    "Dcor.Props.C45_fast_multivariate",
    "Dcor.Props.C45_fast_namespace",
    "Dcor.Props.C45_compile_mode",
    "Dcor.Props.C45_method_names",
    "Dcor.Props.C45_names_are_members",
    "Dcor.Props.C45_auto_no_valueError"
   ],
   "note": ""
  },
  {
   "property": "C46",
   "status": "partial",
   "theorems": [
    "Dcor.Props.C46_avl_fallback_partial",
    "Dcor.Props.C46_mixed_decimal_fails",
    "Dcor.Props.C46_mergesort_fallback_partial",
    "Dcor.Props.C46_mergesort_object_fails",
    "Dcor.Props.C46_mergesort_int_fails"
   ],
   "note": "Proved for AVL. False for mergesort with objects or integers in y and for Decimal mixed with another dtype."
  },
  {
   "property": "C47",
   "status": "partial",
   "theorems": [
    "Dcor.Props.C47_rowwise_equals_map_partial",
    "Dcor.Props.C47_rowwise_agrees_partial",
    "Dcor.Props.C47_optimized_returns",
    "Dcor.Props.C47_parallel_only_rowwise",
    "Dcor.Props.C47_single_sample_reused",
    "Dcor.Props.C47_large_samples_wrong",
    "Dcor.Props.C47_larger_samples_raise"
   ],
   "note": "Missing: a list y with a single sample (reused), COMPILE_PARALLEL (the function itself is not implemented), samples of 2^21 or more observations (int64 wrap-around); for each the failure is a theorem."
  },
  {
   "property": "C48",
   "status": "partial",
   "theorems": [
    "Dcor.Props.C48_naive_ignores_optimized",
    "Dcor.Props.C48_optimized_used",
    "Dcor.Props.C48_optimized_iff_partial",
    "Dcor.Props.C48_auto_falls_back_partial",
    "Dcor.Props.C48_integers_rejected",
    "Dcor.Props.C48_correlation_shapes_rejected",
    "Dcor.Props.C48_ragged_rejected"
   ],
   "note": "Missing: integer samples, ragged lists and, for the correlations, samples of different shapes, for which AUTO raises instead of falling back (C48_integers_rejected, C48_ragged_rejected, C48_correlation_shapes_rejected)."
  },
  {
   "property": "C49",
   "status": "proved",
   "theorems": [
    "Dcor.Props.C49_exact_when_terms_fit",
    "Dcor.Props.C49_bounded_values",
    "Dcor.Props.C49_overflow",
    "Dcor.Props.C49_naive_distances",
    "Dcor.Props.C49_naive_overflow"
   ],
   "note": ""
  },
  {
   "property": "C50",
   "status": "partial",
   "theorems": [
    "Dcor.Props.C50_unsigned_distances_partial",
    "Dcor.Props.C50_fails"
   ],
   "note": "The distances are right only if squares of differences fit the dtype; otherwise false (C50_fails)."
  },
  {
   "property": "C51",
   "status": "proved",
   "theorems": [
    "Dcor.Props.C51_roots"
   ],
   "note": ""
  },
  {
   "property": "C52",
   "status": "proved",
   "theorems": [
    "Dcor.Props.C52_column_inputs_distances",
    "Dcor.Props.C52_column_inputs_energy",
    "Dcor.Props.C52_column_inputs_independence",
    "Dcor.Props.C52_column_inputs_af_inv",
    "Dcor.Props.C52_column_inputs_rowwise",
    "Dcor.Props.C52_column_inputs"
   ],
   "note": ""
  },
  {
   "property": "C53",
   "status": "proved",
   "theorems": [
    "Dcor.Props.C53_inputs_unmodified",
    "Dcor.Props.C53_sqrt_leaves_argument",
    "Dcor.Props.C53_distance_matrix",
    "Dcor.Props.C53_sqrt"
   ],
   "note": ""
  },
  {
   "property": "C54",
   "status": "proved",
   "theorems": [
    "Dcor.Props.C54_zero_iff_same_distribution"
   ],
   "note": ""
  },
  {
   "property": "C55",
   "status": "proved",
   "theorems": [
    "Dcor.Props.C55_zero_iff_independent"
   ],
   "note": ""
  },
  {
   "property": "C56",
   "status": "partial",
   "theorems": [
    "Dcor.Props.C56_mismatch_rejected_partial",
    "Dcor.Props.C56_length_one_broadcast",
    "Dcor.Props.C56_statement_false"
   ],
   "note": "False for samples of length one, which are broadcast (C56_length_one_broadcast); proved for all other lengths."
  },
  {
   "property": "C57",
   "status": "partial",
   "theorems": [
    "Dcor.Props.C57_nan_gives_smallest_pvalue",
    "Dcor.Props.C57_undefined_statistic_looks_significant",
    "Dcor.Props.C57_dcov_statistic_defined_partial",
    "Dcor.Props.C57_pdcov_statistic_defined_partial",
    "Dcor.Props.C57_energy_statistic_defined_partial"
   ],
   "note": "False in general: a NaN statistic gets the smallest p-value (C57_nan_gives_smallest_pvalue). What holds: supported calls never have a NaN statistic."
  },
  {
   "property": "C58",
   "status": "proved",
   "theorems": [
    "Dcor.Props.C58_correlation_of_whitened",
    "Dcor.Props.C58_univariate_equals_dcor"
   ],
   "note": ""
  },
  {
   "property": "C59",
   "status": "proved",
   "theorems": [
    "Dcor.Props.C59_range",
    "Dcor.Props.C59_affine_dependence"
   ],
   "note": ""
  },
  {
   "property": "C60",
   "status": "proved",
   "theorems": [
    "Dcor.Props.C60_results_are_fresh"
   ],
   "note": ""
  },
  {
   "property": "C61",
   "status": "proved",
   "theorems": [
    "Dcor.Props.C61_exponent_two_covariance",
    "Dcor.Props.C61_exponent_two_correlation",
    "Dcor.Props.C61_exponent_two_energy",
    "Dcor.Props.C61_exponent_two_misses_dependence"
   ],
   "note": ""
  },
  {
   "property": "C62",
   "status": "proved",
   "theorems": [
    "Dcor.Props.C62_two_valued_samples",
    "Dcor.Props.C62_group_labels"
   ],
   "note": ""
  },
  {
   "property": "C63",
   "status": "proved",
   "theorems": [
    "Dcor.Props.C63_u_covariance_relabelled",
    "Dcor.Props.C63_covariance_relabelled",
    "Dcor.Props.C63_energy_u_relabelled",
    "Dcor.Props.C63_energy_v_relabelled"
   ],
   "note": ""
  },
  {
   "property": "C64",
   "status": "proved",
   "theorems": [
    "Dcor.Props.C64_leave_one_out",
    "Dcor.Props.C64_u_covariance_unbiased",
    "Dcor.Props.C64_energy_unbiased"
   ],
   "note": ""
  },
  {
   "property": "C65",
   "status": "proved",
   "theorems": [
    "Dcor.Props.C65_avl_stays_in_bounds",
    "Dcor.Props.C65_mergesort_stays_in_bounds",
    "Dcor.Props.C65_merge_indices_in_range"
   ],
   "note": ""
  },
  {
   "property": "C66",
   "status": "proved",
   "theorems": [
    "Dcor.Props.C66_avl_terms_exact",
    "Dcor.Props.C66_naive_terms_exact",
    "Dcor.Props.C66_mergesort_terms_exact",
    "Dcor.Props.C66_avl_eq_naive",
    "Dcor.Props.C66_mergesort_eq_naive_sorted"
   ],
   "note": ""
  },
  {
   "property": "C67",
   "status": "partial",
   "theorems": [
    "Dcor.Props.C67_constant_naive_partial",
    "Dcor.Props.C67_constant_avl_fails",
    "Dcor.Props.C67_constant_mergesort_fails"
   ],
   "note": "Proved for naive. False for AVL: the constant sample [0.1]*4 against [1,2,3,5] gets squared correlation above 0.7 and a negative variance (C67_constant_avl_fails). False for mergesort: below -9 (C67_constant_mergesort_fails)."
  },
  {
   "property": "C68",
   "status": "partial",
   "theorems": [
    "Dcor.Props.C68_translation_naive_partial",
    "Dcor.Props.C68_translation_avl_fails",
    "Dcor.Props.C68_translation_mergesort_fails"
   ],
   "note": "Proved for naive, bit for bit. False for AVL: [0,1,2,4]+2^30 against itself has squared covariance -191/64 instead of 89/64 (C68_translation_avl_fails). Likewise for mergesort (C68_translation_mergesort_fails)."
  },
  {
   "property": "C69",
   "status": "partial",
   "theorems": [
    "Dcor.Props.C69_self_correlation_naive_partial",
    "Dcor.Props.C69_self_correlation_avl_fails",
    "Dcor.Props.C69_self_correlation_mergesort_fails"
   ],
   "note": "Proved for naive. False for AVL, which returns a squared correlation below -2 for [0,1,2,4]+2^30 (C69_self_correlation_avl_fails), as does mergesort (C69_self_correlation_mergesort_fails)."
  },
  {
   "property": "C70",
   "status": "partial",
   "theorems": [
    "Dcor.Props.C70_symmetry_partial",
    "Dcor.Props.C70_symmetry_fails",
    "Dcor.Props.C70_avl_fails",
    "Dcor.Props.C70_mergesort_fails",
    "Dcor.Props.C70_avl_partial",
    "Dcor.Props.C70_mergesort_partial"
   ],
   "note": "Proved for naive when n is a power of two and the product of two vectors commutes. False for n=3: only the first factor is divided by n (C70_symmetry_fails). False for AVL and mergesort also for four observations (C70_avl_fails, C70_mergesort_fails); for them the difference is at most twice the error bound of C73."
  },
  {
   "property": "C71",
   "status": "proved",
   "theorems": [
    "Dcor.Props.C71_power_of_two_naive",
    "Dcor.Props.C71_power_of_two_avl",
    "Dcor.Props.C71_power_of_two_mergesort"
   ],
   "note": ""
  },
  {
   "property": "C72",
   "status": "partial",
   "theorems": [
    "Dcor.Props.C72_naive_accuracy_partial",
    "Dcor.Props.C72_naive_accuracy_unbiased_partial",
    "Dcor.Props.C72_avl_inaccurate",
    "Dcor.Props.C72_mergesort_inaccurate"
   ],
   "note": "Proved for naive. False for AVL: the squared covariance of [0,1,2,4]+2^30 with itself, whose distances are at most 4, is wrong by more than 4 (C72_avl_inaccurate). Likewise for mergesort (C72_mergesort_inaccurate)."
  },
  {
   "property": "C73",
   "status": "proved",
   "theorems": [
    "Dcor.Props.C73_avl_accuracy",
    "Dcor.Props.C73_avl_accuracy_unbiased",
    "Dcor.Props.C73_mergesort_accuracy",
    "Dcor.Props.C73_mergesort_accuracy_unbiased"
   ],
   "note": ""
  },
  {
   "property": "C74",
   "status": "proved",
   "theorems": [
    "Dcor.Props.C74_dcov_units",
    "Dcor.Props.C74_partial_units",
    "Dcor.Props.C74_energy_units"
   ],
   "note": ""
  },
  {
   "property": "C75",
   "status": "proved",
   "theorems": [
    "Dcor.Props.C75_dcov_perfect_dependence",
    "Dcor.Props.C75_partial_perfect_dependence"
   ],
   "note": ""
  },
  {
   "property": "C76",
   "status": "proved",
   "theorems": [
    "Dcor.Props.C76_dcov_empirical",
    "Dcor.Props.C76_energy_empirical"
   ],
   "note": ""
  },
  {
   "property": "C77",
   "status": "proved",
   "theorems": [
    "Dcor.Props.C77_dcov_stability",
    "Dcor.Props.C77_dstd_stability",
    "Dcor.Props.C77_u_dcov_stability",
    "Dcor.Props.C77_energy_stability"
   ],
   "note": ""
  },
  {
   "property": "C78",
   "status": "proved",
   "theorems": [
    "Dcor.Props.C78_energy_triangle",
    "Dcor.Props.C78_root_needed"
   ],
   "note": ""
  },
  {
   "property": "C79",
   "status": "proved",
   "theorems": [
    "Dcor.Props.C79_identical",
    "Dcor.Props.C79_translation",
    "Dcor.Props.C79_power_of_two"
   ],
   "note": ""
  },
  {
   "property": "C80",
   "status": "proved",
   "theorems": [
    "Dcor.Props.C80_accuracy_v",
    "Dcor.Props.C80_accuracy_u"
   ],
   "note": ""
  },
  {
   "property": "C81",
   "status": "partial",
   "theorems": [
    "Dcor.Props.C81_single_partial",
    "Dcor.Props.C81_approximate_partial",
    "Dcor.Props.C81_symmetry_fails",
    "Dcor.Props.C81_negative"
   ],
   "note": "Both claims fail for two observations per sample (C81_symmetry_fails, C81_negative). Proved: both up to the error bound of C80; exact symmetry if one sample is a single observation."
  },
  {
   "property": "C82",
   "status": "proved",
   "theorems": [
    "Dcor.Props.C82_value",
    "Dcor.Props.C82_value_object",
    "Dcor.Props.C82_value_any",
    "Dcor.Props.C82_explicit_mean",
    "Dcor.Props.C82_identical",
    "Dcor.Props.C82_statistic",
    "Dcor.Props.C82_test"
   ],
   "note": ""
  },
  {
   "property": "C83",
   "status": "proved",
   "theorems": [
    "Dcor.Props.C83_covariance",
    "Dcor.Props.C83_statistics",
    "Dcor.Props.C83_loglinear",
    "Dcor.Props.C83_exact_order",
    "Dcor.Props.C83_memory"
   ],
   "note": ""
  },
  {
   "property": "C84",
   "status": "partial",
   "theorems": [
    "Dcor.Props.C84_above_one",
    "Dcor.Props.C84_root_above_one",
    "Dcor.Props.C84_naive_partial",
    "Dcor.Props.C84_naive_unbiased_partial",
    "Dcor.Props.C84_avl_partial",
    "Dcor.Props.C84_avl_unbiased_partial",
    "Dcor.Props.C84_mergesort_partial",
    "Dcor.Props.C84_mergesort_unbiased_partial"
   ],
   "note": "The range fails by a few units in the last place (C84_above_one, C84_root_above_one). Proved for the three methods and both estimators: accuracy, and the range up to the same bound."
  },
  {
   "property": "C85",
   "status": "proved",
   "theorems": [
    "Dcor.Props.C85_naive_left",
    "Dcor.Props.C85_naive_right",
    "Dcor.Props.C85_avl_left",
    "Dcor.Props.C85_avl_right",
    "Dcor.Props.C85_mergesort_left",
    "Dcor.Props.C85_mergesort_right",
    "Dcor.Props.C85_root",
    "Dcor.Props.C85_energy",
    "Dcor.Props.C85_energy_test"
   ],
   "note": ""
  },
  {
   "property": "C86",
   "status": "partial",
   "theorems": [
    "Dcor.Props.C86_overflow",
    "Dcor.Props.C86_underflow",
    "Dcor.Props.C86_naive_large",
    "Dcor.Props.C86_naive_small",
    "Dcor.Props.C86_avl_large",
    "Dcor.Props.C86_naive_partial",
    "Dcor.Props.C86_avl_partial",
    "Dcor.Props.C86_mergesort_partial"
   ],
   "note": "The negation is proved: the product of the variances can overflow or underflow, and the correlation is then zero, for the terms of any method. The partial theorems say that no other overflow goes unnoticed if the observations are multiples of a power of two that is not too small; samples with smaller observations are missing."
  },
  {
   "property": "C87",
   "status": "proved",
   "theorems": [
    "Dcor.Props.C87_naive",
    "Dcor.Props.C87_avl",
    "Dcor.Props.C87_mergesort",
    "Dcor.Props.C87_energy",
    "Dcor.Props.C87_naive_accuracy",
    "Dcor.Props.C87_avl_accuracy",
    "Dcor.Props.C87_mergesort_accuracy",
    "Dcor.Props.C87_energy_accuracy"
   ],
   "note": ""
  },
  {
   "property": "C88",
   "status": "proved",
   "theorems": [
    "Dcor.Props.C88_distance_covariance_test",
    "Dcor.Props.C88_partial_test",
    "Dcor.Props.C88_partial_covariance",
    "Dcor.Props.C88_bad_observation",
    "Dcor.Props.C88_energy_test"
   ],
   "note": ""
  },
  {
   "property": "C89",
   "status": "proved",
   "theorems": [
    "Dcor.Props.C89_pvalue",
    "Dcor.Props.C89_pvalue_range",
    "Dcor.Props.C89_energy_two_samples",
    "Dcor.Props.C89_energy_three_samples"
   ],
   "note": ""
  },
  {
   "property": "C90",
   "status": "proved",
   "theorems": [
    "Dcor.Props.C90_scale_distance_covariance_test",
    "Dcor.Props.C90_scale_partial_test",
    "Dcor.Props.C90_scale_energy_test",
    "Dcor.Props.C90_scale_partial_statistics",
    "Dcor.Props.C90_translation",
    "Dcor.Props.C90_translation_energy"
   ],
   "note": ""
  },
  {
   "property": "C91",
   "status": "proved",
   "theorems": [
    "Dcor.Props.C91_symmetry",
    "Dcor.Props.C91_condition_on_sample",
    "Dcor.Props.C91_condition_on_constant",
    "Dcor.Props.C91_self"
   ],
   "note": ""
  },
  {
   "property": "C92",
   "status": "partial",
   "theorems": [
    "Dcor.Props.C92_out_of_range",
    "Dcor.Props.C92_accuracy_partial"
   ],
   "note": "Proved: error bound and range up to it when the variances are large compared with the error bounds and the correlations with the third sample are away from one. Missing: the range for all samples, which is false: C92_out_of_range is a sample of float64 numbers with partial correlation -5."
  },
  {
   "property": "C93",
   "status": "partial",
   "theorems": [
    "Dcor.Props.C93_double_centered",
    "Dcor.Props.C93_u_centered",
    "Dcor.Props.C93_u_product",
    "Dcor.Props.C93_statistic",
    "Dcor.Props.C93_pvalue_partial",
    "Dcor.Props.C93_pvalue_exact_partial",
    "Dcor.Props.C93_tied_statistics"
   ],
   "note": "Proved: error bounds of the centred matrices, the U-product and the statistic; the p-value lies between those of moved thresholds and is the correctly rounded exact one without near ties. Missing: ties, for which it is false (C93_tied_statistics)."
  },
  {
   "property": "C94",
   "status": "proved",
   "theorems": [
    "Dcor.Props.C94_naive",
    "Dcor.Props.C94_naive_correlation",
    "Dcor.Props.C94_avl",
    "Dcor.Props.C94_avl_correlation",
    "Dcor.Props.C94_mergesort",
    "Dcor.Props.C94_mergesort_correlation",
    "Dcor.Props.C94_clipped",
    "Dcor.Props.C94_independent_not_zero"
   ],
   "note": ""
  },
  {
   "property": "C95",
   "status": "partial",
   "theorems": [
    "Dcor.Props.C95_statistic",
    "Dcor.Props.C95_pvalue_partial",
    "Dcor.Props.C95_pvalue_exact_partial",
    "Dcor.Props.C95_tied_statistics"
   ],
   "note": "Proved: error bound of the statistic; the p-value lies between those of moved thresholds and is the correctly rounded exact one without near ties. Missing: ties, for which it is false (C95_tied_statistics)."
  },
  {
   "property": "C96",
   "status": "partial",
   "theorems": [
    "Dcor.Props.C96_covariance_partial",
    "Dcor.Props.C96_statistic_partial",
    "Dcor.Props.C96_pvalue_partial",
    "Dcor.Props.C96_pvalue_exact_partial",
    "Dcor.Props.C96_constant",
    "Dcor.Props.C96_degenerate",
    "Dcor.Props.C96_tied_statistics"
   ],
   "note": "Proved: error bounds of the partial covariance and of the statistic in terms of the condition number of z, and for constant z; p-value between those of moved thresholds, exact without near ties. Missing: z without distance variance and ties, for which it is false (C96_degenerate, C96_tied_statistics)."
  },
  {
   "property": "C97",
   "status": "partial",
   "theorems": [
    "Dcor.Props.C97_nan",
    "Dcor.Props.C97_few_observations",
    "Dcor.Props.C97_infinite",
    "Dcor.Props.C97_odd",
    "Dcor.Props.C97_monotone",
    "Dcor.Props.C97_pvalue_monotone",
    "Dcor.Props.C97_self_naive",
    "Dcor.Props.C97_self_avl_fails",
    "Dcor.Props.C97_independent_avl_fails",
    "Dcor.Props.C97_accuracy_partial",
    "Dcor.Props.C97_naive_partial",
    "Dcor.Props.C97_avl_partial"
   ],
   "note": "Proved: special values, oddness, monotonicity of statistic and p-value for every float64 correlation, error bounds for correlations away from 1 in absolute value, a sample with itself for the naive method. Missing: correlations close to 1 and samples with a large common term for the AVL method, for which the results are wrong (C97_self_avl_fails, C97_independent_avl_fails)."
  },
  {
   "property": "C98",
   "status": "proved",
   "theorems": [
    "Dcor.Props.C98_dcov_power",
    "Dcor.Props.C98_energy_power"
   ],
   "note": ""
  },
  {
   "property": "C99",
   "status": "proved",
   "theorems": [
    "Dcor.Props.C99_covariance",
    "Dcor.Props.C99_correlation",
    "Dcor.Props.C99_energy_distance",
    "Dcor.Props.C99_dcov_test",
    "Dcor.Props.C99_energy_test",
    "Dcor.Props.C99_dcov_nonneg",
    "Dcor.Props.C99_energy_nonneg"
   ],
   "note": ""
  },
  {
   "property": "C100",
   "status": "proved",
   "theorems": [
    "Dcor.Props.C100_dcov_zero",
    "Dcor.Props.C100_energy_zero",
    "Dcor.Props.C100_variance_zero",
    "Dcor.Props.C100_variance_zero_snd",
    "Dcor.Props.C100_cauchy",
    "Dcor.Props.C100_covariance",
    "Dcor.Props.C100_correlation",
    "Dcor.Props.C100_energy_distance",
    "Dcor.Props.C100_dcov_test",
    "Dcor.Props.C100_energy_test",
    "Dcor.Props.C100_silent_dcov_test",
    "Dcor.Props.C100_silent_energy_distance",
    "Dcor.Props.C100_exponent_two_energy",
    "Dcor.Props.C100_exponent_two_dcov"
   ],
   "note": ""
  },
  {
   "property": "C101",
   "status": "proved",
   "theorems": [
    "Dcor.Props.C101_u_covariance",
    "Dcor.Props.C101_covariance_biased",
    "Dcor.Props.C101_energy_u",
    "Dcor.Props.C101_energy_v"
   ],
   "note": ""
  },
  {
   "property": "C102",
   "status": "proved",
   "theorems": [
    "Dcor.Props.C102_dcov_level",
    "Dcor.Props.C102_dcov_two_observations",
    "Dcor.Props.C102_energy_level",
    "Dcor.Props.C102_energy_single_observations"
   ],
   "note": ""
  },
  {
   "property": "C103",
   "status": "proved",
   "theorems": [
    "Dcor.Props.C103_u_covariance",
    "Dcor.Props.C103_u_correlation",
    "Dcor.Props.C103_partial_power",
    "Dcor.Props.C103_partial_correlation"
   ],
   "note": ""
  },
  {
   "property": "C104",
   "status": "proved",
   "theorems": [
    "Dcor.Props.C104_partial_covariance",
    "Dcor.Props.C104_partial_correlation",
    "Dcor.Props.C104_partial_test",
    "Dcor.Props.C104_partial_test_negative"
   ],
   "note": ""
  },
  {
   "property": "C105",
   "status": "partial",
   "theorems": [
    "Dcor.Props.C105_independent_rejected",
    "Dcor.Props.C105_dependent_accepted",
    "Dcor.Props.C105_power_partial",
    "Dcor.Props.C105_level_partial"
   ],
   "note": "The documented null hypothesis is refuted in both directions (C105_independent_rejected, C105_dependent_accepted). Proved: level and power if the third vector is constant. Missing: other third vectors, for which it is false."
  },
  {
   "property": "C106",
   "status": "proved",
   "theorems": [
    "Dcor.Props.C106_half",
    "Dcor.Props.C106_opposite",
    "Dcor.Props.C106_consistent",
    "Dcor.Props.C106_level"
   ],
   "note": ""
  },
  {
   "property": "C107",
   "status": "proved",
   "theorems": [
    "Dcor.Props.C107_limit",
    "Dcor.Props.C107_small_pvalues",
    "Dcor.Props.C107_four"
   ],
   "note": ""
  },
  {
   "property": "C108",
   "status": "proved",
   "theorems": [
    "Dcor.Props.C108_calibrated",
    "Dcor.Props.C108_level",
    "Dcor.Props.C108_valid"
   ],
   "note": ""
  },
  {
   "property": "C109",
   "status": "partial",
   "theorems": [
    "Dcor.Props.C109_covariance",
    "Dcor.Props.C109_correlation_partial",
    "Dcor.Props.C109_correlation_unbiased_partial",
    "Dcor.Props.C109_power_of_two",
    "Dcor.Props.C109_missing_is_zero",
    "Dcor.Props.C109_infinite",
    "Dcor.Props.C109_self_correlation",
    "Dcor.Props.C109_constant_row",
    "Dcor.Props.C109_large_offset",
    "Dcor.Props.C109_large_units"
   ],
   "note": "Proved: covariances bit for bit, error bounds of the correlations where the variances are accurate, change of units, missing values, infinite quotients. Missing: equality of the correlations with those of the function itself, which is false (C109_missing_is_zero, C109_constant_row, C109_large_offset, C109_self_correlation)."
  },
  {
   "property": "C110",
   "status": "proved",
   "theorems": [
    "Dcor.Props.C110_white_images",
    "Dcor.Props.C110_consistent"
   ],
   "note": ""
  },
  {
   "property": "C111",
   "status": "proved",
   "theorems": [
    "Dcor.Props.C111_u_covariance",
    "Dcor.Props.C111_covariance",
    "Dcor.Props.C111_sample_size",
    "Dcor.Props.C111_energy_u",
    "Dcor.Props.C111_energy_v"
   ],
   "note": ""
  },
  {
   "property": "C112",
   "status": "partial",
   "theorems": [
    "Dcor.Props.C112_short_integers_partial",
    "Dcor.Props.C112_labels_fail",
    "Dcor.Props.C112_booleans_fail",
    "Dcor.Props.C112_mergesort_error",
    "Dcor.Props.C112_mergesort_fails"
   ],
   "note": "Proved: samples whose intermediate results fit, with the limit, which is sharp for AVL. Missing: other samples of short integers and booleans, for which the results are wrong (C112_labels_fail, C112_booleans_fail, C112_mergesort_fails) or the call fails (C112_mergesort_error)."
  },
  {
   "property": "C113",
   "status": "partial",
   "theorems": [
    "Dcor.Props.C113_accuracy_partial",
    "Dcor.Props.C113_accuracy_unbiased_partial",
    "Dcor.Props.C113_years_fail",
    "Dcor.Props.C113_pressures_fail",
    "Dcor.Props.C113_integer_terms",
    "Dcor.Props.C113_integer_accuracy",
    "Dcor.Props.C113_integer_accuracy_unbiased",
    "Dcor.Props.C113_rowwise_accuracy",
    "Dcor.Props.C113_rowwise_differs"
   ],
   "note": "Proved: an error bound relative to the absolute values of the observations, a bound relative to the distances for integers with 4 n^2 X Y <= 2^24, and the accuracy of the row-wise function. Missing: a bound relative to the distances for all samples, which the code falsifies (C113_years_fail, C113_pressures_fail)."
  },
  {
   "property": "C114",
   "status": "partial",
   "theorems": [
    "Dcor.Props.C114_unsigned_partial",
    "Dcor.Props.C114_pixels_fail"
   ],
   "note": "Proved if 4 (n - 1) M N < 2^w for observations up to M and N. Missing: other samples, for which the code returns wrong values (C114_pixels_fail)."
  },
  {
   "property": "C115",
   "status": "proved",
   "theorems": [
    "Dcor.Props.C115_variance_bounds",
    "Dcor.Props.C115_variance_le_sd",
    "Dcor.Props.C115_variance_eq_gini_iff",
    "Dcor.Props.C115_variance_eq_sd_iff",
    "Dcor.Props.C115_covariance_bounds"
   ],
   "note": ""
  },
  {
   "property": "C116",
   "status": "proved",
   "theorems": [
    "Dcor.Props.C116_covariance_integral",
    "Dcor.Props.C116_energy_integral",
    "Dcor.Props.C116_energy_le",
    "Dcor.Props.C116_covariance_le",
    "Dcor.Props.C116_ranges",
    "Dcor.Props.C116_energy_range"
   ],
   "note": ""
  },
  {
   "property": "C117",
   "status": "proved",
   "theorems": [
    "Dcor.Props.C117_dcov_test",
    "Dcor.Props.C117_energy_test"
   ],
   "note": ""
  },
  {
   "property": "C118",
   "status": "proved",
   "theorems": [
    "Dcor.Props.C118_extreme_irrelevant",
    "Dcor.Props.C118_extreme_t_test",
    "Dcor.Props.C118_zero_variance_iff",
    "Dcor.Props.C118_zero_variance_numbers",
    "Dcor.Props.C118_invisible",
    "Dcor.Props.C118_rare_event",
    "Dcor.Props.C118_invisible_t_statistic"
   ],
   "note": ""
  },
  {
   "property": "C119",
   "status": "proved",
   "theorems": [
    "Dcor.Props.C119_two_outliers",
    "Dcor.Props.C119_one_outlier",
    "Dcor.Props.C119_two_outliers_test",
    "Dcor.Props.C119_one_outlier_test"
   ],
   "note": ""
  },
  {
   "property": "C120",
   "status": "partial",
   "theorems": [
    "Dcor.Props.C120_too_long_partial",
    "Dcor.Props.C120_unsigned_fails",
    "Dcor.Props.C120_remainder_partial",
    "Dcor.Props.C120_products_fail"
   ],
   "note": "Proved that columns with 2^w or more observations give an OverflowError and no value, and that the values for shorter columns are right modulo 2^w in units of 1/n^4. The claim itself is false: for every shorter column without ties the code returns wrong values (C120_unsigned_fails, C120_products_fail)."
  },
  {
   "property": "C121",
   "status": "partial",
   "theorems": [
    "Dcor.Props.C121_integers_partial",
    "Dcor.Props.C121_integer_accuracy_partial",
    "Dcor.Props.C121_years_fail",
    "Dcor.Props.C121_pressures_fail",
    "Dcor.Props.C121_constant_fails"
   ],
   "note": "Proved for whole numbers with 16 n^2 X Y <= 2^24. Missing: other samples, for which the code is wrong (C121_years_fail, C121_pressures_fail, C121_constant_fails)."
  },
  {
   "property": "C122",
   "status": "proved",
   "theorems": [
    "Dcor.Props.C122_v_statistic",
    "Dcor.Props.C122_v_unbounded",
    "Dcor.Props.C122_u_statistic",
    "Dcor.Props.C122_test"
   ],
   "note": ""
  },
  {
   "property": "C123",
   "status": "partial",
   "theorems": [
    "Dcor.Props.C123_nan_partial",
    "Dcor.Props.C123_single_observation",
    "Dcor.Props.C123_statement_false",
    "Dcor.Props.C123_fraction_crashes",
    "Dcor.Props.C123_not_symmetric"
   ],
   "note": "Proved for no, two and three observations of floating point or integer numbers, in exact arithmetic. Missing: a single observation, for which the functions return 0 (C123_single_observation), and object arrays, for which they raise (C123_fraction_crashes)."
  },
  {
   "property": "C124",
   "status": "proved",
   "theorems": [
    "Dcor.Props.C124_covariance",
    "Dcor.Props.C124_noise",
    "Dcor.Props.C124_standard_deviation",
    "Dcor.Props.C124_energy",
    "Dcor.Props.C124_all_sums",
    "Dcor.Props.C124_energy_all_sums",
    "Dcor.Props.C124_energy_same_errors",
    "Dcor.Props.C124_single_sums_exceed"
   ],
   "note": ""
  },
  {
   "property": "C125",
   "status": "partial",
   "theorems": [
    "Dcor.Props.C125_permutes_x_and_z",
    "Dcor.Props.C125_pvalue_partial",
    "Dcor.Props.C125_permuted_sample_fails"
   ],
   "note": "Proved for permutations that do not change the distances within z. Missing: other permutations, for which the code permutes z together with x (C125_permutes_x_and_z) and the claim is false (C125_permuted_sample_fails)."
  },
  {
   "property": "C126",
   "status": "proved",
   "theorems": [
    "Dcor.Props.C126_correlation",
    "Dcor.Props.C126_test",
    "Dcor.Props.C126_constant_z"
   ],
   "note": ""
  },
  {
   "property": "C127",
   "status": "proved",
   "theorems": [
    "Dcor.Props.C127_continuous",
    "Dcor.Props.C127_energy_continuous",
    "Dcor.Props.C127_small_covariance",
    "Dcor.Props.C127_small_correlation",
    "Dcor.Props.C127_small_energy",
    "Dcor.Props.C127_small_unbiased",
    "Dcor.Props.C127_exponent_zero"
   ],
   "note": ""
  },
  {
   "property": "C128",
   "status": "proved",
   "theorems": [
    "Dcor.Props.C128_statistic",
    "Dcor.Props.C128_pvalue",
    "Dcor.Props.C128_maximum",
    "Dcor.Props.C128_unequal_sizes"
   ],
   "note": ""
  },
  {
   "property": "C129",
   "status": "proved",
   "theorems": [
    "Dcor.Props.C129_u_covariance",
    "Dcor.Props.C129_energy_u",
    "Dcor.Props.C129_energy_v"
   ],
   "note": ""
  },
  {
   "property": "C130",
   "status": "proved",
   "theorems": [
    "Dcor.Props.C130_similarities",
    "Dcor.Props.C130_reordering",
    "Dcor.Props.C130_from_correlations",
    "Dcor.Props.C130_dispersion"
   ],
   "note": ""
  },
  {
   "property": "C131",
   "status": "proved",
   "theorems": [
    "Dcor.Props.C131_two_samples",
    "Dcor.Props.C131_equal_sizes",
    "Dcor.Props.C131_unequal_sizes"
   ],
   "note": ""
  },
  {
   "property": "C132",
   "status": "proved",
   "theorems": [
    "Dcor.Props.C132_covariance",
    "Dcor.Props.C132_u_covariance",
    "Dcor.Props.C132_correlation",
    "Dcor.Props.C132_u_correlation",
    "Dcor.Props.C132_transitive",
    "Dcor.Props.C132_root_fails"
   ],
   "note": ""
  },
  {
   "property": "C133",
   "status": "partial",
   "theorems": [
    "Dcor.Props.C133_energy_partial",
    "Dcor.Props.C133_covariance_partial",
    "Dcor.Props.C133_u_covariance_partial",
    "Dcor.Props.C133_multiples_energy",
    "Dcor.Props.C133_multiples_covariance",
    "Dcor.Props.C133_energy_negative"
   ],
   "note": "Proved if the squares of the differences fit in the dtype. Missing: other samples, for which the code returns wrong values (C133_multiples_energy, C133_multiples_covariance, C133_energy_negative)."
  },
  {
   "property": "C134",
   "status": "partial",
   "theorems": [
    "Dcor.Props.C134_correlation_fails",
    "Dcor.Props.C134_root",
    "Dcor.Props.C134_covariance_fails",
    "Dcor.Props.C134_covariance_root",
    "Dcor.Props.C134_integer_terms_partial"
   ],
   "note": "Proved for the sums of small integers (4 n^2 X Y <= 2^11). Missing: other samples, for which the results are wrong if there are more than 180 observations (C134_correlation_fails) or large products (C134_covariance_fails)."
  },
  {
   "property": "C135",
   "status": "partial",
   "theorems": [
    "Dcor.Props.C135_correlation_fails",
    "Dcor.Props.C135_covariance_fails",
    "Dcor.Props.C135_product_fails",
    "Dcor.Props.C135_many_fail",
    "Dcor.Props.C135_integer_terms_partial"
   ],
   "note": "Proved for the sums of small integers (16 n^2 X Y <= 2^11). Missing: other samples, for which the results are wrong if there are more than 180 observations (C135_correlation_fails), large numbers (C135_covariance_fails, C135_product_fails) or very many observations (C135_many_fail)."
  },
  {
   "property": "C136",
   "status": "partial",
   "theorems": [
    "Dcor.Props.C136_accuracy_partial",
    "Dcor.Props.C136_large_fail",
    "Dcor.Props.C136_unbiased_accuracy_partial",
    "Dcor.Props.C136_unbiased_large_fail",
    "Dcor.Props.C136_rowwise_differs"
   ],
   "note": "Proved for squared distance covariances below 65520. Missing: larger ones, for which the entry is infinite (C136_large_fail, C136_unbiased_large_fail)."
  },
  {
   "property": "C137",
   "status": "partial",
   "theorems": [
    "Dcor.Props.C137_not_nan_partial",
    "Dcor.Props.C137_accuracy_partial",
    "Dcor.Props.C137_unbiased_accuracy_partial",
    "Dcor.Props.C137_left_fails",
    "Dcor.Props.C137_right_fails",
    "Dcor.Props.C137_unbiased_left_fails",
    "Dcor.Props.C137_unbiased_right_fails",
    "Dcor.Props.C137_self_fails",
    "Dcor.Props.C137_infinite_fails",
    "Dcor.Props.C137_tiny_self_fails",
    "Dcor.Props.C137_equal_groups_fail"
   ],
   "note": "Proved: the entry is never NaN; it is within 13/1024 of the squared correlation if both squared distance variances are below 65520 and not tiny (C137_accuracy_partial, C137_unbiased_accuracy_partial). False from 65520 on: the entry is zero (C137_left_fails, C137_right_fails, C137_self_fails); false if a variance is rounded to zero and the covariance is not: the entry is infinite (C137_infinite_fails, C137_equal_groups_fail). Missing: variances not rounded to zero but so small that their float16 values have a large relative error."
  },
  {
   "property": "C138",
   "status": "proved",
   "theorems": [
    "Dcor.Props.C138_accuracy",
    "Dcor.Props.C138_unbiased_covariance",
    "Dcor.Props.C138_unbiased_accuracy",
    "Dcor.Props.C138_rowwise_differs"
   ],
   "note": ""
  }
 ]
}