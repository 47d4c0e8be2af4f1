# Axioms of every theorem named in MANIFEST.json

Output of `#print axioms`, theorem by theorem (regenerated with each milestone). No other axioms occur.

* 538 theorems: propext, Classical.choice, Quot.sound
* 56 theorems: propext, Quot.sound
* 2 theorems: propext
* 1 theorems: (none)

| claim | theorem | axioms |
|---|---|---|
| C01 | `C01_accumulated_effect_partial` | propext, Classical.choice, Quot.sound |
| C01 | `C01_accumulated_effect_exact` | propext, Classical.choice, Quot.sound |
| C01 | `C01_false_beyond_sentinel` | propext, Classical.choice, Quot.sound |
| C01 | `C01_spec_zero_left` | propext, Quot.sound |
| C01 | `C01_spec_linear_inside` | propext, Classical.choice, Quot.sound |
| C01 | `C01_spec_constant_right` | propext, Quot.sound |
| C01 | `C01_spec_is_integral` | propext, Classical.choice, Quot.sound |
| C01 | `C01_curve_lipschitz` | propext, Classical.choice, Quot.sound |
| C02 | `C02_each_instance_in_exactly_one_bin` | propext, Classical.choice, Quot.sound |
| C02 | `C02_boundary_rules` | propext, Quot.sound |
| C03 | `C03_bin_effect_is_mean` | propext, Classical.choice, Quot.sound |
| C04 | `C04_bin_variance_is_population_variance` | propext, Classical.choice, Quot.sound |
| C05 | `C05_fill_nans` | propext, Classical.choice, Quot.sound |
| C05 | `C05_raises_iff` | propext, Quot.sound |
| C06 | `C06_ale_params` | propext, Classical.choice, Quot.sound |
| C07 | `C07_additive_at_limits_partial` | propext, Classical.choice, Quot.sound |
| C07 | `C07_any_limits` | propext, Classical.choice, Quot.sound |
| C07 | `C07_linear_main_effect` | propext, Classical.choice, Quot.sound |
| C07 | `C07_false_uneven_categories` | propext, Classical.choice, Quot.sound |
| C08 | `C08_constant_gradient` | propext, Classical.choice, Quot.sound |
| C08 | `C08_eval_constant_gradient` | propext, Classical.choice, Quot.sound |
| C09 | `C09_ignored_feature` | propext, Classical.choice, Quot.sound |
| C09 | `C09_eval_ignored_feature` | propext, Classical.choice, Quot.sound |
| C10 | `C10_linear` | propext, Classical.choice, Quot.sound |
| C10 | `C10_constant_shift` | propext, Quot.sound |
| C10 | `C10_eval_linear` | propext, Classical.choice, Quot.sound |
| C100 | `C100_dale` | propext, Classical.choice, Quot.sound |
| C100 | `C100_ale` | propext, Classical.choice, Quot.sound |
| C100 | `C100_again` | propext, Classical.choice, Quot.sound |
| C100 | `C100_false` | propext, Classical.choice, Quot.sound |
| C101 | `C101_two` | propext, Classical.choice, Quot.sound |
| C101 | `C101_three` | propext, Classical.choice, Quot.sound |
| C101 | `C101_three_partial` | propext, Classical.choice, Quot.sound |
| C101 | `C101_false` | propext, Classical.choice, Quot.sound |
| C101 | `C101_integrators` | propext, Classical.choice, Quot.sound |
| C102 | `C102_ale` | propext, Classical.choice, Quot.sound |
| C102 | `C102_ale_numeric_partial` | propext, Classical.choice, Quot.sound |
| C102 | `C102_rhale` | propext, Classical.choice, Quot.sound |
| C102 | `C102_rhale_given` | propext, Quot.sound |
| C102 | `C102_pdp` | propext, Classical.choice, Quot.sound |
| C102 | `C102_false` | propext, Classical.choice, Quot.sound |
| C102 | `C102_false_excess` | propext, Classical.choice, Quot.sound |
| C103 | `C103_ale` | propext, Classical.choice, Quot.sound |
| C103 | `C103_rhale` | propext, Classical.choice, Quot.sound |
| C103 | `C103_false_dp` | propext, Classical.choice, Quot.sound |
| C103 | `C36_affine_model` | propext, Classical.choice, Quot.sound |
| C104 | `C104_important_splits` | propext, Classical.choice, Quot.sound |
| C104 | `C104_pruned_tree` | propext, Classical.choice, Quot.sound |
| C104 | `C104_regional_trees` | propext, Classical.choice, Quot.sound |
| C104 | `C104_false_threshold` | propext, Classical.choice, Quot.sound |
| C104 | `C104_false_penalty` | propext, Classical.choice, Quot.sound |
| C105 | `C105_rows` | propext, Classical.choice, Quot.sound |
| C105 | `C105_vec` | propext, Classical.choice, Quot.sound |
| C105 | `C105_vec_derivative` | propext, Classical.choice, Quot.sound |
| C105 | `C105_rows_derivative_partial` | propext, Classical.choice, Quot.sound |
| C105 | `C105_rows_derivative_view` | propext, Quot.sound |
| C105 | `C105_local_effects` | propext, Classical.choice, Quot.sound |
| C105 | `C105_jacobian_partial` | propext, Classical.choice, Quot.sound |
| C105 | `C105_constructor_partial` | propext, Classical.choice, Quot.sound |
| C105 | `C105_constructor_frame` | propext, Classical.choice, Quot.sound |
| C105 | `C105_ale_fit` | propext, Classical.choice, Quot.sound |
| C105 | `C105_predict` | propext, Classical.choice, Quot.sound |
| C105 | `C105_eval` | propext, Classical.choice, Quot.sound |
| C105 | `C105_history` | propext, Classical.choice, Quot.sound |
| C105 | `C105_session` | propext, Classical.choice, Quot.sound |
| C105 | `C105_ale_session` | propext, Classical.choice, Quot.sound |
| C105 | `C105_rhale_session_partial` | propext, Classical.choice, Quot.sound |
| C105 | `C105_example_session` | propext, Classical.choice, Quot.sound |
| C105 | `C105_example_ale` | propext, Classical.choice, Quot.sound |
| C105 | `C105_false_rows_derivative` | propext, Classical.choice, Quot.sound |
| C105 | `C105_false_constructor` | propext, Classical.choice, Quot.sound |
| C105 | `C105_false_jacobian` | propext, Classical.choice, Quot.sound |
| C106 | `C106_pdp` | propext, Classical.choice, Quot.sound |
| C106 | `C106_pdp_insulated` | propext, Classical.choice, Quot.sound |
| C106 | `C106_ale` | propext, Classical.choice, Quot.sound |
| C106 | `C106_rhale` | propext, Classical.choice, Quot.sound |
| C106 | `C106_example` | propext, Classical.choice, Quot.sound |
| C106 | `C106_false_axis_limits` | propext, Classical.choice, Quot.sound |
| C107 | `C107_pdp` | propext, Classical.choice, Quot.sound |
| C107 | `C107_ale` | propext, Classical.choice, Quot.sound |
| C107 | `C107_ale_equal_bins` | propext, Classical.choice, Quot.sound |
| C107 | `C107_rhale` | propext, Classical.choice, Quot.sound |
| C107 | `C107_false_greedy` | propext, Classical.choice, Quot.sound |
| C108 | `C108_pdp_constructor` | propext, Classical.choice, Quot.sound |
| C108 | `C108_ale_constructor` | propext, Classical.choice, Quot.sound |
| C108 | `C108_pdp_fit` | propext, Classical.choice, Quot.sound |
| C108 | `C108_pdp_eval` | propext, Classical.choice, Quot.sound |
| C108 | `C108_pdp_plot` | propext, Classical.choice, Quot.sound |
| C108 | `C108_ale_fit` | propext, Classical.choice, Quot.sound |
| C108 | `C108_ale_eval` | propext, Classical.choice, Quot.sound |
| C108 | `C108_ale_plot` | propext, Classical.choice, Quot.sound |
| C108 | `C108_rhale` | propext, Classical.choice, Quot.sound |
| C108 | `C108_rhale_jac` | propext, Classical.choice, Quot.sound |
| C108 | `C108_shap_fit` | propext, Classical.choice, Quot.sound |
| C108 | `C108_shap_eval` | propext, Classical.choice, Quot.sound |
| C109 | `C109_ale` | propext, Classical.choice, Quot.sound |
| C109 | `C109_rhale` | propext, Classical.choice, Quot.sound |
| C109 | `C109_pdp` | propext, Classical.choice, Quot.sound |
| C109 | `C109_pdp_within` | propext, Classical.choice, Quot.sound |
| C109 | `C109_shap` | propext, Classical.choice, Quot.sound |
| C109 | `C109_shap_within` | propext, Classical.choice, Quot.sound |
| C109 | `C109_retry_ale` | propext, Classical.choice, Quot.sound |
| C109 | `C109_retry_pdp` | propext, Classical.choice, Quot.sound |
| C109 | `C109_retry_shap` | propext, Classical.choice, Quot.sound |
| C109 | `C109_false_pdp` | propext, Classical.choice, Quot.sound |
| C109 | `C109_false_pdp_fit` | propext, Classical.choice, Quot.sound |
| C109 | `C109_false_shap` | propext, Classical.choice, Quot.sound |
| C11 | `C11_ale_row_order` | propext, Classical.choice, Quot.sound |
| C11 | `C11_rhale_row_order` | propext, Classical.choice, Quot.sound |
| C11 | `C11_limits_row_order` | propext, Classical.choice, Quot.sound |
| C110 | `C110_answered_fit` | propext, Classical.choice, Quot.sound |
| C110 | `C110_answered_eval` | propext, Classical.choice, Quot.sound |
| C110 | `C110_shap` | propext, Classical.choice, Quot.sound |
| C110 | `C110_eval_raises` | propext, Quot.sound |
| C110 | `C110_swallowed_ale` | propext, Classical.choice, Quot.sound |
| C110 | `C110_swallowed_rhale` | propext, Classical.choice, Quot.sound |
| C110 | `C110_swallowed_pdp` | propext, Classical.choice, Quot.sound |
| C110 | `C110_false_ale` | propext, Classical.choice, Quot.sound |
| C110 | `C110_false_pdp` | propext, Classical.choice, Quot.sound |
| C110 | `C110_false_derpdp` | propext, Classical.choice, Quot.sound |
| C111 | `C111_fit` | propext, Classical.choice, Quot.sound |
| C111 | `C111_stored_fit` | propext, Quot.sound |
| C111 | `C111_eval_fitted` | propext, Classical.choice, Quot.sound |
| C111 | `C111_eval` | propext, Classical.choice, Quot.sound |
| C111 | `C111_constructor` | propext, Quot.sound |
| C112 | `C112_ale_filled` | propext, Classical.choice, Quot.sound |
| C112 | `C112_rhale_filled` | propext, Classical.choice, Quot.sound |
| C112 | `C112_pdp_filled` | propext, Classical.choice, Quot.sound |
| C112 | `C112_ale_raises` | propext, Classical.choice, Quot.sound |
| C112 | `C112_rhale_raises` | propext, Classical.choice, Quot.sound |
| C112 | `C112_split_cat` | propext, Quot.sound |
| C112 | `C112_split_nan` | propext, Quot.sound |
| C112 | `C112_pdp_poisoned` | propext, Classical.choice, Quot.sound |
| C112 | `C112_false_pdp` | propext, Classical.choice, Quot.sound |
| C113 | `C113_pdp_nan_or_right` | propext, Quot.sound |
| C113 | `C113_ice` | propext, Classical.choice, Quot.sound |
| C113 | `C113_pdp` | propext, Classical.choice, Quot.sound |
| C113 | `C113_ale_clean` | propext, Quot.sound |
| C113 | `C113_nan_bin` | propext, Classical.choice, Quot.sound |
| C113 | `C113_ale_fit` | propext, Classical.choice, Quot.sound |
| C113 | `C113_ale_raises` | propext, Classical.choice, Quot.sound |
| C113 | `C113_false_ale` | propext, Classical.choice, Quot.sound |
| C114 | `C114_rhale_fit` | propext, Classical.choice, Quot.sound |
| C114 | `C114_greedy` | propext, Classical.choice, Quot.sound |
| C114 | `C114_dp` | propext, Classical.choice, Quot.sound |
| C114 | `C114_dp_fit` | propext, Classical.choice, Quot.sound |
| C114 | `C114_clean` | propext, Classical.choice, Quot.sound |
| C114 | `C114_false_rhale` | propext, Classical.choice, Quot.sound |
| C114 | `C114_numerical` | propext, Classical.choice, Quot.sound |
| C115 | `C115_prefix` | propext, Classical.choice, Quot.sound |
| C115 | `C115_tree` | propext, Classical.choice, Quot.sound |
| C115 | `C115_hidden` | propext, Classical.choice, Quot.sound |
| C115 | `C115_root` | propext, Classical.choice, Quot.sound |
| C115 | `C115_clean` | propext, Classical.choice, Quot.sound |
| C115 | `C115_pdp` | propext, Classical.choice, Quot.sound |
| C115 | `C115_pdp_tree` | propext, Classical.choice, Quot.sound |
| C115 | `C115_one_instance` | propext, Classical.choice, Quot.sound |
| C115 | `C115_false_pdp` | propext, Classical.choice, Quot.sound |
| C116 | `C116_no_instance_lost` | propext, Classical.choice, Quot.sound |
| C116 | `C116_ignored` | propext, Classical.choice, Quot.sound |
| C116 | `C116_nothing_left` | propext, Classical.choice, Quot.sound |
| C116 | `C116_regional_pdp` | propext, Classical.choice, Quot.sound |
| C116 | `C116_finding` | propext, Classical.choice, Quot.sound |
| C117 | `C117_search` | propext, Classical.choice, Quot.sound |
| C117 | `C117_fit` | propext, Classical.choice, Quot.sound |
| C117 | `C117_search_returns` | propext, Classical.choice, Quot.sound |
| C117 | `C117_fit_returns` | propext, Classical.choice, Quot.sound |
| C117 | `C117_nothing_drawn` | propext, Quot.sound |
| C117 | `C117_shown_is_measured_again` | propext, Classical.choice, Quot.sound |
| C118 | `C118_given_limits` | propext, Classical.choice, Quot.sound |
| C118 | `C118_default_limits` | propext, Classical.choice, Quot.sound |
| C118 | `C118_answers` | propext, Classical.choice, Quot.sound |
| C118 | `C118_regional` | propext, Classical.choice, Quot.sound |
| C118 | `C118_regional_answers` | propext, Classical.choice, Quot.sound |
| C118 | `C118_false_ale` | propext, Classical.choice, Quot.sound |
| C119 | `C119_ale` | propext, Classical.choice, Quot.sound |
| C119 | `C119_rhale` | propext, Classical.choice, Quot.sound |
| C119 | `C119_ale_answers` | propext, Classical.choice, Quot.sound |
| C119 | `C119_rhale_answers` | propext, Classical.choice, Quot.sound |
| C12 | `C12_ale_outside_ignored` | propext, Classical.choice, Quot.sound |
| C12 | `C12_rhale_outside_ignored` | propext, Classical.choice, Quot.sound |
| C12 | `C12_rhale_outside_ignored_computed` | propext, Classical.choice, Quot.sound |
| C12 | `C12_ale_append_outside` | propext, Classical.choice, Quot.sound |
| C120 | `C120_given_limits` | propext, Classical.choice, Quot.sound |
| C120 | `C120_worst_case` | propext, Classical.choice, Quot.sound |
| C120 | `C120_default_limits` | propext, Classical.choice, Quot.sound |
| C120 | `C120_regional` | propext, Classical.choice, Quot.sound |
| C121 | `C121_ale` | propext, Classical.choice, Quot.sound |
| C121 | `C121_rhale` | propext, Classical.choice, Quot.sound |
| C121 | `C121_rhale_given` | propext, Classical.choice, Quot.sound |
| C121 | `C121_pdp` | propext, Classical.choice, Quot.sound |
| C121 | `C121_pdp_default` | propext, Classical.choice, Quot.sound |
| C122 | `C122_shape` | propext, Classical.choice, Quot.sound |
| C122 | `C122_convex` | propext, Classical.choice, Quot.sound |
| C122 | `C122_equal` | propext, Classical.choice, Quot.sound |
| C122 | `C122_not_ale` | propext, Classical.choice, Quot.sound |
| C122 | `C122_rhale_convex` | propext, Classical.choice, Quot.sound |
| C123 | `C123_pdp` | propext, Classical.choice, Quot.sound |
| C123 | `C123_pdp_no_interaction` | propext, Classical.choice, Quot.sound |
| C123 | `C123_rhale` | propext, Classical.choice, Quot.sound |
| C123 | `C123_ale` | propext, Classical.choice, Quot.sound |
| C123 | `C123_region_pdp` | propext, Classical.choice, Quot.sound |
| C124 | `C124_rhale` | propext, Classical.choice, Quot.sound |
| C124 | `C124_ale` | propext, Classical.choice, Quot.sound |
| C124 | `C124_not_pdp` | propext, Classical.choice, Quot.sound |
| C125 | `C125_pdp` | propext, Classical.choice, Quot.sound |
| C125 | `C125_pdp_centered` | propext, Classical.choice, Quot.sound |
| C125 | `C125_derpdp` | propext, Classical.choice, Quot.sound |
| C125 | `C125_default_limits` | propext, Classical.choice, Quot.sound |
| C125 | `C125_not_ale` | propext, Classical.choice, Quot.sound |
| C126 | `C126_rhale` | propext, Classical.choice, Quot.sound |
| C126 | `C126_ale` | propext, Classical.choice, Quot.sound |
| C126 | `C126_example` | propext, Classical.choice, Quot.sound |
| C127 | `C127_search` | propext, Classical.choice, Quot.sound |
| C127 | `C127_important` | propext, Quot.sound |
| C127 | `C127_trees` | propext, Classical.choice, Quot.sound |
| C127 | `C127_ale` | propext, Classical.choice, Quot.sound |
| C127 | `C127_rhale` | propext, Classical.choice, Quot.sound |
| C127 | `C127_pdp` | propext, Classical.choice, Quot.sound |
| C127 | `C127_regional_trees` | propext, Classical.choice, Quot.sound |
| C127 | `C127_example` | propext, Classical.choice, Quot.sound |
| C127 | `C127_false_nonlinear` | propext, Classical.choice, Quot.sound |
| C128 | `C128_search` | propext, Quot.sound |
| C128 | `C128_important` | propext, Quot.sound |
| C128 | `C128_trees` | propext, Classical.choice, Quot.sound |
| C128 | `C128_ale` | propext, Classical.choice, Quot.sound |
| C128 | `C128_rhale` | propext, Classical.choice, Quot.sound |
| C128 | `C128_pdp` | propext, Classical.choice, Quot.sound |
| C128 | `C128_regional_trees` | propext, Classical.choice, Quot.sound |
| C128 | `C128_example` | propext, Classical.choice, Quot.sound |
| C128 | `C128_false_all` | propext, Classical.choice, Quot.sound |
| C128 | `C128_eval` | propext, Classical.choice, Quot.sound |
| C128 | `C128_example_eval` | propext, Classical.choice, Quot.sound |
| C128 | `C128_shap` | propext, Classical.choice, Quot.sound |
| C128 | `C128_example_shap` | propext, Classical.choice, Quot.sound |
| C128 | `C128_shapley` | propext, Classical.choice, Quot.sound |
| C128 | `C128_example_shapley` | propext, Classical.choice, Quot.sound |
| C129 | `C129_session` | propext, Classical.choice, Quot.sound |
| C129 | `C129_value` | propext, Classical.choice, Quot.sound |
| C129 | `C129_additive` | propext, Classical.choice, Quot.sound |
| C129 | `C129_example` | propext, Classical.choice, Quot.sound |
| C129 | `C129_false_interaction` | propext, Classical.choice, Quot.sound |
| C13 | `C13_rhale_heterogeneity` | propext, Classical.choice, Quot.sound |
| C13 | `C13_ale_heterogeneity` | propext, Classical.choice, Quot.sound |
| C13 | `C13_eval_heterogeneity` | propext, Classical.choice, Quot.sound |
| C14 | `C14_fixed_equal_width` | propext, Classical.choice, Quot.sound |
| C15 | `C15_greedy_increasing` | propext, Classical.choice, Quot.sound |
| C16 | `C16_greedy_min_points` | propext, Classical.choice, Quot.sound |
| C17 | `C17_points_per_bin_partial` | propext, Classical.choice, Quot.sound |
| C17 | `C17_false_instance_on_limit` | propext, Classical.choice, Quot.sound |
| C18 | `C18_dp_increasing_partial` | propext, Classical.choice, Quot.sound |
| C18 | `C18_false_for_large_effects` | propext, Classical.choice, Quot.sound |
| C18 | `C18_dp_bounded` | propext, Classical.choice, Quot.sound |
| C19 | `C19_dp_min_points_partial` | propext, Classical.choice, Quot.sound |
| C19 | `C19_false_for_large_effects` | propext, Classical.choice, Quot.sound |
| C19 | `C18_dp_bounded` | propext, Classical.choice, Quot.sound |
| C20 | `C20_dp_optimal_partial` | propext, Classical.choice, Quot.sound |
| C20 | `C20_false_one_bin_shortcut` | propext, Classical.choice, Quot.sound |
| C20 | `C18_dp_bounded` | propext, Classical.choice, Quot.sound |
| C21 | `C21_categorical_bins` | propext, Classical.choice, Quot.sound |
| C22 | `C22_greedy_dp_impossible_partial` | propext, Classical.choice, Quot.sound |
| C22 | `C22_fixed_too_few_points_partial` | propext, Classical.choice, Quot.sound |
| C22 | `C22_rhale_fit_raises` | propext, Quot.sound |
| C22 | `C22_false_fixed_constant_raises` | propext, Classical.choice, Quot.sound |
| C22 | `C22_false_fixed_constant_returns_limits` | propext, Classical.choice, Quot.sound |
| C23 | `C23_false_min_points_none` | propext, Quot.sound |
| C24 | `C24_names_partial` | propext, Classical.choice, Quot.sound |
| C24 | `C24_other_strings_rejected_partial` | propext, Quot.sound |
| C24 | `C24_false_dp_rejected` | propext, Quot.sound |
| C24 | `C24_dynamic_never_fits` | propext, Quot.sound |
| C25 | `C25_ale_zero_start` | propext, Classical.choice, Quot.sound |
| C25 | `C25_pdp_zero_start` | propext, Classical.choice, Quot.sound |
| C25 | `C25_shap_zero_start` | propext, Classical.choice, Quot.sound |
| C26 | `C26_ale_zero_integral` | propext, Classical.choice, Quot.sound |
| C26 | `C26_pdp_zero_integral` | propext, Classical.choice, Quot.sound |
| C26 | `C26_shap_zero_integral` | propext, Classical.choice, Quot.sound |
| C26 | `C26_true_mean_almost_zero` | propext, Classical.choice, Quot.sound |
| C26 | `C26_true_mean_ale` | propext, Classical.choice, Quot.sound |
| C27 | `C27_eval_uses_right_constant` | propext, Classical.choice, Quot.sound |
| C27 | `pdp_eval_spec` | propext, Classical.choice, Quot.sound |
| C27 | `C27_shap_eval_uses_right_constant` | propext, Classical.choice, Quot.sound |
| C27 | `C27_shap_after_fit` | propext, Classical.choice, Quot.sound |
| C28 | `C28_centring_is_a_shift_partial` | propext, Classical.choice, Quot.sound |
| C28 | `C28_false_custom_binning` | propext, Classical.choice, Quot.sound |
| C28 | `C28_pdp_centring_is_a_shift` | propext, Classical.choice, Quot.sound |
| C28 | `C28_shap_centring_is_a_shift` | propext, Classical.choice, Quot.sound |
| C29 | `C29_eval_is_function_of_last_fit` | propext, Classical.choice, Quot.sound |
| C29 | `C29_history_independent` | propext, Classical.choice, Quot.sound |
| C30 | `C30_features_do_not_interfere` | propext, Classical.choice, Quot.sound |
| C30 | `C30_one_call` | propext, Quot.sound |
| C31 | `C31_default_limits_partial` | propext, Classical.choice, Quot.sound |
| C31 | `C31_constructed_partial` | propext, Classical.choice, Quot.sound |
| C31 | `C31_covered_limits_partial` | propext, Classical.choice, Quot.sound |
| C31 | `C31_false` | propext, Classical.choice, Quot.sound |
| C31 | `C31_false_raises` | propext, Classical.choice, Quot.sound |
| C32 | `C32_failed_fit_is_harmless` | propext, Quot.sound |
| C33 | `C33_pdp_is_mean_of_ice` | propext, Classical.choice, Quot.sound |
| C33 | `C33_std_nonneg` | propext, Classical.choice, Quot.sound |
| C34 | `C34_functions_agree` | propext, Classical.choice, Quot.sound |
| C34 | `C34_objects_agree` | propext, Classical.choice, Quot.sound |
| C34 | `C34_false_empty_grid` | propext, Classical.choice, Quot.sound |
| C35 | `C35_additive` | propext, Classical.choice, Quot.sound |
| C35 | `C35_ignored_feature` | propext, Classical.choice, Quot.sound |
| C36 | `C36_row_order` | propext, Classical.choice, Quot.sound |
| C36 | `C36_affine_model` | propext, Classical.choice, Quot.sound |
| C37 | `C37_derpdp_exact_quadratic` | propext, Classical.choice, Quot.sound |
| C37 | `C37_jacobian_exact_affine` | propext, Classical.choice, Quot.sound |
| C38 | `C38_representable_partial` | propext, Classical.choice, Quot.sound |
| C38 | `C38_false` | propext, Classical.choice, Quot.sound |
| C39 | `C39_split_partitions` | propext, Quot.sound |
| C39 | `C39_effects_aligned` | propext, Quot.sound |
| C40 | `C40_levels_partition_the_data` | propext, Classical.choice, Quot.sound |
| C40 | `C43_trees_exist` | propext, Classical.choice, Quot.sound |
| C41 | `C41_best_split_at_every_level` | propext, Classical.choice, Quot.sound |
| C41 | `singleLevel_best` | propext, Classical.choice, Quot.sound |
| C41 | `exCfg_search` | propext, Classical.choice, Quot.sound |
| C42 | `C42_nothing` | propext, Quot.sound |
| C42 | `C42_longest_prefix` | propext, Classical.choice, Quot.sound |
| C42 | `C42_hypotheses_met` | propext, Classical.choice, Quot.sound |
| C43 | `C43_complete_binary_tree` | propext, Classical.choice, Quot.sound |
| C43 | `C43_trees_exist` | propext, Classical.choice, Quot.sound |
| C44 | `C44_rows_meet_strict_conditions` | propext, Classical.choice, Quot.sound |
| C44 | `C44_rows_meet_shown_conditions_partial` | propext, Classical.choice, Quot.sound |
| C44 | `C44_name_shows_the_condition` | propext, Classical.choice, Quot.sound |
| C44 | `C44_false_on_ties` | propext, Classical.choice, Quot.sound |
| C44 | `C44_shown_names_in_user_units` | propext, Classical.choice, Quot.sound |
| C44 | `C44_names_example` | propext, Classical.choice, Quot.sound |
| C45 | `C45_effects_of_rows_partial` | propext, Classical.choice, Quot.sound |
| C45 | `C45_deeper_nodes_hold_rows` | propext, Classical.choice, Quot.sound |
| C45 | `C45_no_effects` | propext, Classical.choice, Quot.sound |
| C45 | `C45_false_at_level_two` | propext, Classical.choice, Quot.sound |
| C46 | `C46_pruned_is_top_of_full` | propext, Classical.choice, Quot.sound |
| C47 | `C47_inner_levels` | propext, Classical.choice, Quot.sound |
| C47 | `C47_pruned_nodes_partial` | propext, Classical.choice, Quot.sound |
| C47 | `exCfg_pruned` | propext, Classical.choice, Quot.sound |
| C47 | `C47_false_for_large_heterogeneity` | propext, Classical.choice, Quot.sound |
| C48 | `C48_one_active_column` | propext, Classical.choice, Quot.sound |
| C49 | `C49_active_column_is_the_leaf_partial` | propext, Classical.choice, Quot.sound |
| C49 | `C49_false_on_ties` | propext, Classical.choice, Quot.sound |
| C50 | `C50_eval_is_global_on_node` | propext, Classical.choice, Quot.sound |
| C50 | `C50_root_is_global` | propext, Classical.choice, Quot.sound |
| C50 | `C50_false_without_splits` | propext, Classical.choice, Quot.sound |
| C50 | `C50_node_equals_global_partial` | propext, Classical.choice, Quot.sound |
| C50 | `C50_constructor_keeps_effects_aligned` | propext, Quot.sound |
| C50 | `C50_rhale_constructor` | propext, Quot.sound |
| C50 | `C50_false_rhale_level_two` | propext, Classical.choice, Quot.sound |
| C50 | `C50_hypotheses_met` | propext, Classical.choice, Quot.sound |
| C51 | `C51_subsampling` | propext, Classical.choice, Quot.sound |
| C51 | `C51_accepts_exactly` | propext, Quot.sound |
| C52 | `C52_indices_identify_rows` | propext, Quot.sound |
| C52 | `C52_rhale_partial` | propext, Quot.sound |
| C52 | `C52_shap_partial` | propext, Classical.choice, Quot.sound |
| C52 | `C52_rhale_false` | propext, Classical.choice, Quot.sound |
| C52 | `C52_shap_false` | propext, Classical.choice, Quot.sound |
| C53 | `C53_default_limits` | propext, Quot.sound |
| C53 | `C53_rhale_shap` | propext, Quot.sound |
| C53 | `C53_limits_from_data` | propext, Quot.sound |
| C54 | `C54_centering` | propext, Classical.choice, Quot.sound |
| C54 | `C54_true_is_zero_integral` | propext, Quot.sound |
| C54 | `C54_invalid_centering` | propext, Quot.sound |
| C54 | `C54_features` | propext |
| C54 | `C54_all_features` | propext, Classical.choice, Quot.sound |
| C54 | `prepCenteringVal_eq` | propext |
| C54 | `C54_heterogeneity` | propext, Classical.choice, Quot.sound |
| C54 | `C54_plot_heterogeneity` | propext, Classical.choice, Quot.sound |
| C55 | `C55_false_argument_changed` | propext, Classical.choice, Quot.sound |
| C55 | `C55_limits_drift` | propext, Quot.sound |
| C55 | `C55_second_call_partial` | propext, Classical.choice, Quot.sound |
| C55 | `C55_ale_stores_changed_limits` | propext, Classical.choice, Quot.sound |
| C55 | `C55_false_second_call` | propext, Classical.choice, Quot.sound |
| C55 | `C63_hypotheses_met` | propext, Classical.choice, Quot.sound |
| C56 | `C56_bindCall_spec` | propext, Quot.sound |
| C56 | `C56_false_pairwise` | propext, Quot.sound |
| C56 | `C56_false_one_vs_all` | propext, Quot.sound |
| C56 | `C56_false_fit` | propext, Classical.choice, Quot.sound |
| C56 | `C56_false_repid` | propext, Quot.sound |
| C56 | `C56_wrong_call` | (none) |
| C57 | `C57_both_scales_partial` | propext, Classical.choice, Quot.sound |
| C57 | `C57_ale_partial` | propext, Classical.choice, Quot.sound |
| C57 | `C57_false_scale_y_alone` | propext, Quot.sound |
| C57 | `C57_false_scale_x_alone` | propext, Classical.choice, Quot.sound |
| C57 | `C57_hypotheses_met` | propext, Classical.choice, Quot.sound |
| C58 | `C58_grid_is_cell_centres` | propext, Classical.choice, Quot.sound |
| C58 | `C58_mean_exact_affine` | propext, Classical.choice, Quot.sound |
| C58 | `C58_mean_exact_const` | propext, Classical.choice, Quot.sound |
| C58 | `C58_mean_within_bounds` | propext, Classical.choice, Quot.sound |
| C58 | `C58_integral_partial` | propext, Classical.choice, Quot.sound |
| C58 | `C58_false_integral` | propext, Classical.choice, Quot.sound |
| C58 | `C58_hypotheses_met` | propext, Classical.choice, Quot.sound |
| C58 | `C58_mean_error` | propext, Classical.choice, Quot.sound |
| C59 | `C59_trees_of_last_fit` | propext, Classical.choice, Quot.sound |
| C59 | `C59_never_scaled_partial` | propext, Classical.choice, Quot.sound |
| C59 | `C59_no_fit_after_scaled_plot_partial` | propext, Classical.choice, Quot.sound |
| C59 | `C59_false_stale_tree` | propext, Classical.choice, Quot.sound |
| C59 | `C59_false_none_tree` | propext, Classical.choice, Quot.sound |
| C59 | `C59_hypotheses_met` | propext, Classical.choice, Quot.sound |
| C59 | `regionalRun_stored` | propext, Classical.choice, Quot.sound |
| C60 | `C60_pdp_nd_vectorized` | propext, Classical.choice, Quot.sound |
| C60 | `C60_false_non_vectorized` | propext, Quot.sound |
| C61 | `C61_search_never_raises` | propext, Classical.choice, Quot.sound |
| C61 | `C61_search_finds_a_split` | propext, Classical.choice, Quot.sound |
| C61 | `C61_too_many_categories_raises` | propext, Classical.choice, Quot.sound |
| C61 | `exCfg_ok` | propext, Classical.choice, Quot.sound |
| C62 | `C62_plot_draws_rhale_of_node` | propext, Classical.choice, Quot.sound |
| C62 | `C62_regional_ale_draws_rhale` | propext, Classical.choice, Quot.sound |
| C62 | `C62_false_regional_ale` | propext, Classical.choice, Quot.sound |
| C63 | `C63_exact_value` | propext, Classical.choice, Quot.sound |
| C63 | `C63_documented_quotient_partial` | propext, Classical.choice, Quot.sound |
| C63 | `C63_false_last_bin` | propext, Classical.choice, Quot.sound |
| C63 | `C63_false_uneven_bins` | propext, Classical.choice, Quot.sound |
| C63 | `C63_hypotheses_met` | propext, Classical.choice, Quot.sound |
| C64 | `C64_pdp_plot_partial` | propext, Classical.choice, Quot.sound |
| C64 | `C64_false_std_err` | propext, Classical.choice, Quot.sound |
| C64 | `C64_false_derivative` | propext, Classical.choice, Quot.sound |
| C64 | `C64_hypotheses_met` | propext, Classical.choice, Quot.sound |
| C65 | `C65_shap_plot_partial` | propext, Classical.choice, Quot.sound |
| C65 | `C65_false_scaling` | propext, Classical.choice, Quot.sound |
| C65 | `C65_hypotheses_met` | propext, Classical.choice, Quot.sound |
| C66 | `C66_node_heterogeneity` | propext, Classical.choice, Quot.sound |
| C67 | `C67_level_stats` | propext, Classical.choice, Quot.sound |
| C67 | `C67_show_full_tree` | propext, Classical.choice, Quot.sound |
| C67 | `C67_show_level_stats` | propext, Classical.choice, Quot.sound |
| C67 | `C67_level_report` | propext, Classical.choice, Quot.sound |
| C67 | `C67_describe_subregions` | propext, Classical.choice, Quot.sound |
| C67 | `C67_show_partitioning_partial` | propext, Classical.choice, Quot.sound |
| C67 | `C67_show_partitioning_no_splits` | propext, Classical.choice, Quot.sound |
| C67 | `C67_false_zero_heterogeneity` | propext, Classical.choice, Quot.sound |
| C67 | `C67_hypotheses_met` | propext, Classical.choice, Quot.sound |
| C68 | `C68_rhale_heterogeneity` | propext, Classical.choice, Quot.sound |
| C68 | `C68_ale_heterogeneity` | propext, Classical.choice, Quot.sound |
| C68 | `C68_pdp_heterogeneity` | propext, Classical.choice, Quot.sound |
| C68 | `C68_shap_heterogeneity_partial` | propext, Classical.choice, Quot.sound |
| C68 | `C68_false_shap_negative` | propext, Classical.choice, Quot.sound |
| C68 | `C68_false_shap_constant_feature` | propext, Quot.sound |
| C68 | `C68_false_rhale_fixed_no_categories` | propext, Classical.choice, Quot.sound |
| C68 | `C68_rhale_heterogeneity_bounded` | propext, Classical.choice, Quot.sound |
| C68 | `C68_ale_heterogeneity_bounded` | propext, Classical.choice, Quot.sound |
| C68 | `C68_ale_heterogeneity_any_model` | propext, Classical.choice, Quot.sound |
| C68 | `C68_ale_heterogeneity_bounded_any_model` | propext, Classical.choice, Quot.sound |
| C68 | `C68_pdp_heterogeneity_any_model` | propext, Classical.choice, Quot.sound |
| C69 | `C69_default_limits_partial` | propext, Classical.choice, Quot.sound |
| C69 | `C69_constructed_partial` | propext, Classical.choice, Quot.sound |
| C69 | `C69_false` | propext, Classical.choice, Quot.sound |
| C70 | `C70_categorical_iff` | propext, Classical.choice, Quot.sound |
| C70 | `C70_values_only` | propext, Classical.choice, Quot.sound |
| C70 | `C70_recoding` | propext, Classical.choice, Quot.sound |
| C70 | `C70_constructor` | propext, Classical.choice, Quot.sound |
| C70 | `C70_automatic_types_never_raise` | propext, Classical.choice, Quot.sound |
| C71 | `C71_search_never_raises` | propext, Classical.choice, Quot.sound |
| C71 | `C71_rhale_fit_never_raises_partial` | propext, Classical.choice, Quot.sound |
| C71 | `C71_ale_fit_never_raises_partial` | propext, Classical.choice, Quot.sound |
| C71 | `C71_pdp_fit_never_raises_partial` | propext, Classical.choice, Quot.sound |
| C71 | `C71_false_shap` | propext, Classical.choice, Quot.sound |
| C71 | `searchAllSplitsM_eq` | propext, Classical.choice, Quot.sound |
| C71 | `C71_pdp_bounded` | propext, Classical.choice, Quot.sound |
| C71 | `C71_rhale_bounded` | propext, Classical.choice, Quot.sound |
| C71 | `C71_ale_bounded` | propext, Classical.choice, Quot.sound |
| C71 | `C71_rhale_api` | propext, Classical.choice, Quot.sound |
| C71 | `C71_ale_api` | propext, Classical.choice, Quot.sound |
| C71 | `C71_pdp_api` | propext, Classical.choice, Quot.sound |
| C71 | `C71_derpdp_api` | propext, Classical.choice, Quot.sound |
| C71 | `C71_ale_any_model` | propext, Classical.choice, Quot.sound |
| C71 | `C71_pdp_any_model` | propext, Classical.choice, Quot.sound |
| C71 | `C71_ale_api_any_model` | propext, Classical.choice, Quot.sound |
| C71 | `C71_pdp_api_any_model` | propext, Classical.choice, Quot.sound |
| C71 | `C71_derpdp_api_any_model` | propext, Classical.choice, Quot.sound |
| C72 | `C72_shap_order` | propext, Classical.choice, Quot.sound |
| C72 | `C72_shap_order_partial` | propext, Classical.choice, Quot.sound |
| C73 | `C73_rhale_slopes` | propext, Classical.choice, Quot.sound |
| C73 | `C73_rhale_monotone` | propext, Classical.choice, Quot.sound |
| C73 | `C73_ale_monotone` | propext, Classical.choice, Quot.sound |
| C73 | `C73_pdp_slopes` | propext, Classical.choice, Quot.sound |
| C73 | `C73_pdp_monotone` | propext, Classical.choice, Quot.sound |
| C74 | `C74_derpdp_is_derivative` | propext, Classical.choice, Quot.sound |
| C74 | `C74_numeric_derpdp` | propext, Classical.choice, Quot.sound |
| C74 | `C74_numeric_jacobian` | propext, Classical.choice, Quot.sound |
| C75 | `C75_ale_figure` | propext, Classical.choice, Quot.sound |
| C75 | `C75_pdp_line_partial` | propext, Classical.choice, Quot.sound |
| C75 | `C75_shap_line_partial` | propext, Classical.choice, Quot.sound |
| C75 | `C75_false_pdp_outside` | propext, Classical.choice, Quot.sound |
| C75 | `C75_bars_cover_bins` | propext, Classical.choice, Quot.sound |
| C76 | `C76_rhale_accuracy` | propext, Classical.choice, Quot.sound |
| C76 | `C76_ale_accuracy` | propext, Classical.choice, Quot.sound |
| C77 | `C77_smallest_heterogeneity` | propext, Classical.choice, Quot.sound |
| C77 | `C77_perfect_split_found` | propext, Classical.choice, Quot.sound |
| C77 | `C77_perfect_split` | propext, Classical.choice, Quot.sound |
| C77 | `C77_rhale` | propext, Classical.choice, Quot.sound |
| C77 | `C77_ale` | propext, Classical.choice, Quot.sound |
| C77 | `C77_pdp` | propext, Classical.choice, Quot.sound |
| C77 | `C77_api` | propext, Classical.choice, Quot.sound |
| C77 | `C77_rhale_api` | propext, Classical.choice, Quot.sound |
| C77 | `C77_ale_api` | propext, Classical.choice, Quot.sound |
| C77 | `C77_pdp_api` | propext, Classical.choice, Quot.sound |
| C78 | `C78_rhale_greedy` | propext, Classical.choice, Quot.sound |
| C78 | `C78_rhale_fixed` | propext, Classical.choice, Quot.sound |
| C78 | `C78_ale_fixed` | propext, Classical.choice, Quot.sound |
| C78 | `C78_ale_default` | propext, Classical.choice, Quot.sound |
| C78 | `C78_rhale_default` | propext, Classical.choice, Quot.sound |
| C79 | `C79_zero_heterogeneity` | propext, Classical.choice, Quot.sound |
| C79 | `C79_rhale` | propext, Classical.choice, Quot.sound |
| C79 | `C79_ale` | propext, Classical.choice, Quot.sound |
| C79 | `C79_pdp` | propext, Classical.choice, Quot.sound |
| C79 | `C79_derpdp_additive` | propext, Classical.choice, Quot.sound |
| C79 | `C79_false_pdp` | propext, Classical.choice, Quot.sound |
| C79 | `ale_additive_flat` | propext, Classical.choice, Quot.sound |
| C79 | `C79_api` | propext, Classical.choice, Quot.sound |
| C79 | `C79_rhale_api` | propext, Classical.choice, Quot.sound |
| C79 | `C79_ale_api` | propext, Classical.choice, Quot.sound |
| C79 | `C79_pdp_api` | propext, Classical.choice, Quot.sound |
| C79 | `C79_derpdp_api` | propext, Classical.choice, Quot.sound |
| C80 | `C80_conditions` | propext, Classical.choice, Quot.sound |
| C80 | `C80_example` | propext, Classical.choice, Quot.sound |
| C81 | `C81_constructor` | propext, Classical.choice, Quot.sound |
| C81 | `C81_trees_of_own_search` | propext, Classical.choice, Quot.sound |
| C81 | `C81_fit_returns` | propext, Classical.choice, Quot.sound |
| C81 | `C81_eval` | propext, Classical.choice, Quot.sound |
| C81 | `C81_default_names` | propext, Classical.choice, Quot.sound |
| C82 | `C82_ale_irrelevant_features` | propext, Quot.sound |
| C82 | `C82_rhale_irrelevant_features` | propext, Quot.sound |
| C82 | `C82_pdp_irrelevant_features` | propext, Classical.choice, Quot.sound |
| C83 | `C83_ale_repeated` | propext, Classical.choice, Quot.sound |
| C83 | `C83_rhale_repeated` | propext, Classical.choice, Quot.sound |
| C83 | `C83_pdp_repeated` | propext, Classical.choice, Quot.sound |
| C83 | `C83_false_single_instance` | propext, Classical.choice, Quot.sound |
| C84 | `C84_rhale_units_partial` | propext, Classical.choice, Quot.sound |
| C84 | `C84_pdp_units` | propext, Classical.choice, Quot.sound |
| C84 | `C84_false_ale` | propext, Classical.choice, Quot.sound |
| C84 | `C84_false_close_limits` | propext, Classical.choice, Quot.sound |
| C84 | `C84_false_dp` | propext, Classical.choice, Quot.sound |
| C84 | `C84_false_numerical` | propext, Classical.choice, Quot.sound |
| C85 | `C85_ale_other_columns` | propext, Classical.choice, Quot.sound |
| C85 | `C85_rhale_other_columns` | propext, Classical.choice, Quot.sound |
| C85 | `C85_pdp_other_columns` | propext, Classical.choice, Quot.sound |
| C85 | `rewrites_reorder` | propext, Quot.sound |
| C85 | `rewrites_recode` | propext, Quot.sound |
| C86 | `C86_level_averages_partial` | propext, Classical.choice, Quot.sound |
| C86 | `C86_false_many_rows` | propext, Classical.choice, Quot.sound |
| C86 | `C86_false_centred` | propext, Classical.choice, Quot.sound |
| C86 | `C86_on_average` | propext, Classical.choice, Quot.sound |
| C86 | `C86_answers` | propext, Classical.choice, Quot.sound |
| C87 | `C87_pdp_linear` | propext, Classical.choice, Quot.sound |
| C87 | `C87_rhale_linear` | propext, Classical.choice, Quot.sound |
| C88 | `C88_greedy_rule` | propext, Classical.choice, Quot.sound |
| C88 | `C88_rhale` | propext, Classical.choice, Quot.sound |
| C89 | `C89_eval_row_order` | propext, Classical.choice, Quot.sound |
| C89 | `C89_trees_row_order` | propext, Classical.choice, Quot.sound |
| C89 | `C89_false_with_sampling` | propext, Classical.choice, Quot.sound |
| C90 | `C90_ale` | propext, Classical.choice, Quot.sound |
| C90 | `C90_pdp` | propext, Classical.choice, Quot.sound |
| C90 | `C90_shap` | propext, Quot.sound |
| C90 | `C90_regional` | propext, Classical.choice, Quot.sound |
| C90 | `C90_example` | propext, Classical.choice, Quot.sound |
| C90 | `C96_one_by_one` | propext, Classical.choice, Quot.sound |
| C90 | `C96_false_large` | propext, Classical.choice, Quot.sound |
| C91 | `C91_ale` | propext, Classical.choice, Quot.sound |
| C91 | `C91_pdp_default_limits_partial` | propext, Classical.choice, Quot.sound |
| C91 | `C91_pdp_one_feature_partial` | propext, Classical.choice, Quot.sound |
| C91 | `C91_false_pdp` | propext, Classical.choice, Quot.sound |
| C91 | `C91_shap_default_limits_partial` | propext, Classical.choice, Quot.sound |
| C91 | `C91_shap_one_feature_partial` | propext, Classical.choice, Quot.sound |
| C91 | `C91_false_shap` | propext, Classical.choice, Quot.sound |
| C91 | `C91_regional` | propext, Classical.choice, Quot.sound |
| C91 | `C96_refit` | propext, Classical.choice, Quot.sound |
| C91 | `C96_false_fit` | propext, Classical.choice, Quot.sound |
| C92 | `C92_range` | propext, Classical.choice, Quot.sound |
| C92 | `C92_influence` | propext, Classical.choice, Quot.sound |
| C93 | `C93_pooling` | propext, Classical.choice, Quot.sound |
| C93 | `C93_example` | propext, Classical.choice, Quot.sound |
| C94 | `C94_ale` | propext, Classical.choice, Quot.sound |
| C94 | `C94_rhale` | propext, Classical.choice, Quot.sound |
| C94 | `C94_pdp` | propext, Quot.sound |
| C94 | `C94_shap` | propext, Quot.sound |
| C94 | `C94_regional` | propext, Quot.sound |
| C94 | `C94_example` | propext, Classical.choice, Quot.sound |
| C95 | `C95_search` | propext, Classical.choice, Quot.sound |
| C95 | `C95_ale_partial` | propext, Quot.sound |
| C95 | `C95_rhale_partial` | propext, Classical.choice, Quot.sound |
| C95 | `C95_false_names` | propext, Classical.choice, Quot.sound |
| C96 | `C96_object` | propext, Classical.choice, Quot.sound |
| C96 | `C96_answers` | propext, Classical.choice, Quot.sound |
| C96 | `C96_refit` | propext, Classical.choice, Quot.sound |
| C96 | `C96_one_by_one` | propext, Classical.choice, Quot.sound |
| C96 | `C96_false_large` | propext, Classical.choice, Quot.sound |
| C96 | `C96_false_fit` | propext, Classical.choice, Quot.sound |
| C97 | `C97_ale_partial` | propext, Classical.choice, Quot.sound |
| C97 | `C97_ale_fit_partial` | propext, Classical.choice, Quot.sound |
| C97 | `C97_pdp_partial` | propext, Classical.choice, Quot.sound |
| C97 | `C97_shap_partial` | propext, Classical.choice, Quot.sound |
| C97 | `C97_out_of_range` | propext, Classical.choice, Quot.sound |
| C97 | `C97_false_mixed` | propext, Classical.choice, Quot.sound |
| C97 | `C97_regional_partial` | propext, Classical.choice, Quot.sound |
| C97 | `C97_regional_names` | propext, Classical.choice, Quot.sound |
| C97 | `C97_false_regional` | propext, Classical.choice, Quot.sound |
| C98 | `C98_ale` | propext, Quot.sound |
| C98 | `C98_rhale` | propext, Classical.choice, Quot.sound |
| C98 | `C98_derpdp` | propext, Classical.choice, Quot.sound |
| C98 | `C98_pdp` | propext, Classical.choice, Quot.sound |
| C98 | `C98_regional_eval` | propext, Classical.choice, Quot.sound |
| C98 | `C98_regional_trees` | propext, Classical.choice, Quot.sound |
| C98 | `C98_regional_pdp` | propext, Classical.choice, Quot.sound |
| C99 | `C99_interpolates` | propext, Classical.choice, Quot.sound |
| C99 | `C99_factorial` | propext, Classical.choice, Quot.sound |
| C99 | `C99_additive` | propext, Classical.choice, Quot.sound |
| C99 | `C99_rhale` | propext, Classical.choice, Quot.sound |
| C99 | `C99_linear` | propext, Classical.choice, Quot.sound |
| C99 | `C99_correlated_false` | propext, Classical.choice, Quot.sound |
