'GLM.C01_bad_input' depends on axioms: [propext, Classical.choice, Quot.sound]
'GLM.C01_consistent' depends on axioms: [propext, Classical.choice, Quot.sound]
'GLM.C01_unchecked_weights' depends on axioms: [propext, Classical.choice, Quot.sound]
'GLM.C01_weight_lengths' depends on axioms: [propext, Classical.choice, Quot.sound]
'GLM.C01_sized' depends on axioms: [propext, Classical.choice, Quot.sound]
'GLM.C02_repeated' depends on axioms: [propext, Classical.choice, Quot.sound]
'GLM.C03_order' depends on axioms: [propext, Classical.choice, Quot.sound]
'GLM.C03_repeated' depends on axioms: [propext, Classical.choice, Quot.sound]
'GLM.C04_invalid' depends on axioms: [propext, Classical.choice, Quot.sound]
'GLM.C04_test' depends on axioms: [propext]
'GLM.C04_float' depends on axioms: [propext, Classical.choice, Quot.sound]
'GLM.C04_discrete' depends on axioms: [propext, Classical.choice, Quot.sound]
'GLM.C04_domain' depends on axioms: [propext, Classical.choice, Quot.sound]
'GLM.C05_standardized_columns' depends on axioms: [propext, Classical.choice, Quot.sound]
'GLM.C05_panic_iff' depends on axioms: [propext, Classical.choice, Quot.sound]
'GLM.C06_no_centring' depends on axioms: [propext, Classical.choice, Quot.sound]
'GLM.C07_lossless' depends on axioms: [propext, Classical.choice, Quot.sound]
'GLM.C08_linear_predictor' depends on axioms: [propext, Classical.choice, Quot.sound]
'GLM.C09_predict_training' depends on axioms: [propext, Classical.choice, Quot.sound]
'GLM.C09_predict_new' depends on axioms: [propext, Classical.choice, Quot.sound]
'GLM.C10_external' depends on axioms: [propext, Classical.choice, Quot.sound]
'GLM.C10_standardization_irrelevant' depends on axioms: [propext, Classical.choice, Quot.sound]
'GLM.C100_accuracy' depends on axioms: [propext, Classical.choice, Quot.sound]
'GLM.C100_accuracy_zero' depends on axioms: [propext, Classical.choice, Quot.sound]
'GLM.C100_predictions' depends on axioms: [propext, Classical.choice, Quot.sound]
'GLM.C100_no_linalg_error' depends on axioms: [propext, Classical.choice, Quot.sound]
'GLM.C100_sharp' depends on axioms: [propext, Classical.choice, Quot.sound]
'GLM.C100_example' depends on axioms: [propext, Classical.choice, Quot.sound]
'GLM.C101_newton_step' depends on axioms: [propext, Classical.choice, Quot.sound]
'GLM.C101_score' depends on axioms: [propext, Classical.choice, Quot.sound]
'GLM.C101_example' depends on axioms: [propext, Classical.choice, Quot.sound]
'GLM.C102_direction' depends on axioms: [propext, Classical.choice, Quot.sound]
'GLM.C102_build' depends on axioms: [propext, Classical.choice, Quot.sound]
'GLM.C102_pvalue_exact' depends on axioms: [propext, Classical.choice, Quot.sound]
'GLM.C102_recoding' depends on axioms: [propext, Classical.choice, Quot.sound]
'GLM.C103_never' depends on axioms: [propext, Classical.choice, Quot.sound]
'GLM.C103_optimum' depends on axioms: [propext, Classical.choice, Quot.sound]
'GLM.C104_orthogonal' depends on axioms: [propext, Classical.choice, Quot.sound]
'GLM.C104_plain' depends on axioms: [propext, Classical.choice, Quot.sound]
'GLM.C104_uncorrelated' depends on axioms: [propext, Classical.choice, Quot.sound]
'GLM.C104_one_feature' depends on axioms: [propext, Classical.choice, Quot.sound]
'GLM.C104_optimum' depends on axioms: [propext, Classical.choice, Quot.sound]
'GLM.C105_fisher' depends on axioms: [propext, Classical.choice, Quot.sound]
'GLM.C105_wald' depends on axioms: [propext, Classical.choice, Quot.sound]
'GLM.C105_resp' depends on axioms: [propext, Classical.choice, Quot.sound]
'GLM.C105_pearson' depends on axioms: [propext, Classical.choice, Quot.sound]
'GLM.C105_working' depends on axioms: [propext, Classical.choice, Quot.sound]
'GLM.C105_moderate' depends on axioms: [propext, Classical.choice, Quot.sound]
'GLM.C105_f64' depends on axioms: [propext, Classical.choice, Quot.sound]
'GLM.C105_example' depends on axioms: [propext, Classical.choice, Quot.sound]
'GLM.C106_covariance' depends on axioms: [propext, Classical.choice, Quot.sound]
'GLM.C106_leverage' depends on axioms: [propext, Classical.choice, Quot.sound]
'GLM.C106_leverage_sum' depends on axioms: [propext, Classical.choice, Quot.sound]
'GLM.C106_variance' depends on axioms: [propext, Classical.choice, Quot.sound]
'GLM.C106_z' depends on axioms: [propext, Classical.choice, Quot.sound]
'GLM.C106_influence' depends on axioms: [propext, Classical.choice, Quot.sound]
'GLM.C106_cooks' depends on axioms: [propext, Classical.choice, Quot.sound]
'GLM.C106_resid_pear_std' depends on axioms: [propext, Classical.choice, Quot.sound]
'GLM.C106_score_test' depends on axioms: [propext, Classical.choice, Quot.sound]
'GLM.C106_example' depends on axioms: [propext, Classical.choice, Quot.sound]
'GLM.C107_reordering' depends on axioms: [propext, Classical.choice, Quot.sound]
'GLM.C107_identical' depends on axioms: [propext, Classical.choice, Quot.sound]
'GLM.C107_proportional' depends on axioms: [propext, Classical.choice, Quot.sound]
'GLM.C107_balanced' depends on axioms: [propext, Classical.choice, Quot.sound]
'GLM.C107_balanced_signs' depends on axioms: [propext, Classical.choice, Quot.sound]
'GLM.C107_useless' depends on axioms: [propext, Classical.choice, Quot.sound]
'GLM.C107_example_identical' depends on axioms: [propext, Classical.choice, Quot.sound]
'GLM.C107_example_balanced' depends on axioms: [propext, Classical.choice, Quot.sound]
'GLM.C107_example_signs' depends on axioms: [propext, Classical.choice, Quot.sound]
'GLM.C107_example_proportional' depends on axioms: [propext, Classical.choice, Quot.sound]
'GLM.C108_means' depends on axioms: [propext, Classical.choice, Quot.sound]
'GLM.C108_coefficients' depends on axioms: [propext, Classical.choice, Quot.sound]
'GLM.C108_covariance' depends on axioms: [propext, Classical.choice, Quot.sound]
'GLM.C108_t_test' depends on axioms: [propext, Classical.choice, Quot.sound]
'GLM.C108_between' depends on axioms: [propext, Classical.choice, Quot.sound]
'GLM.C108_odds' depends on axioms: [propext, Classical.choice, Quot.sound]
'GLM.C108_g_test' depends on axioms: [propext, Classical.choice, Quot.sound]
'GLM.C108_rates' depends on axioms: [propext, Classical.choice, Quot.sound]
'GLM.C108_poisson_lr' depends on axioms: [propext, Classical.choice, Quot.sound]
'GLM.C108_ratio' depends on axioms: [propext, Classical.choice, Quot.sound]
'GLM.C108_score_test' depends on axioms: [propext, Classical.choice, Quot.sound]
'GLM.C108_chi_squared' depends on axioms: [propext, Classical.choice, Quot.sound]
'GLM.C108_example_linear' depends on axioms: [propext, Classical.choice, Quot.sound]
'GLM.C108_example_logistic' depends on axioms: [propext, Classical.choice, Quot.sound]
'GLM.C108_example_ratio' depends on axioms: [propext, Classical.choice, Quot.sound]
'GLM.C109_line' depends on axioms: [propext, Classical.choice, Quot.sound]
'GLM.C109_ridge' depends on axioms: [propext, Classical.choice, Quot.sound]
'GLM.C109_deviance' depends on axioms: [propext, Classical.choice, Quot.sound]
'GLM.C109_covariance' depends on axioms: [propext, Classical.choice, Quot.sound]
'GLM.C109_leverage' depends on axioms: [propext, Classical.choice, Quot.sound]
'GLM.C109_explained' depends on axioms: [propext, Classical.choice, Quot.sound]
'GLM.C109_t_test' depends on axioms: [propext, Classical.choice, Quot.sound]
'GLM.C109_example' depends on axioms: [propext, Classical.choice, Quot.sound]
'GLM.C109_example_ridge' depends on axioms: [propext, Classical.choice, Quot.sound]
'GLM.C11_frequencies_are_repeats' depends on axioms: [propext, Classical.choice, Quot.sound]
'GLM.C11_recount' depends on axioms: [propext, Classical.choice, Quot.sound]
'GLM.C110_aggregate' depends on axioms: [propext, Classical.choice, Quot.sound]
'GLM.C110_aggregate_fit' depends on axioms: [propext, Classical.choice, Quot.sound]
'GLM.C110_rates' depends on axioms: [propext, Classical.choice, Quot.sound]
'GLM.C110_predict' depends on axioms: [propext, Classical.choice, Quot.sound]
'GLM.C110_rate' depends on axioms: [propext, Classical.choice, Quot.sound]
'GLM.C110_example' depends on axioms: [propext, Classical.choice, Quot.sound]
'GLM.C110_example_rate' depends on axioms: [propext, Classical.choice, Quot.sound]
'GLM.C111_average' depends on axioms: [propext, Classical.choice, Quot.sound]
'GLM.C111_average_fit' depends on axioms: [propext, Classical.choice, Quot.sound]
'GLM.C111_example' depends on axioms: [propext, Classical.choice, Quot.sound]
'GLM.C112_means' depends on axioms: [propext, Classical.choice, Quot.sound]
'GLM.C112_deviance' depends on axioms: [propext, Classical.choice, Quot.sound]
'GLM.C112_covariance' depends on axioms: [propext, Classical.choice, Quot.sound]
'GLM.C112_leverage' depends on axioms: [propext, Classical.choice, Quot.sound]
'GLM.C112_lr' depends on axioms: [propext, Classical.choice, Quot.sound]
'GLM.C112_score_test' depends on axioms: [propext, Classical.choice, Quot.sound]
'GLM.C112_anova' depends on axioms: [propext, Classical.choice, Quot.sound]
'GLM.C112_chi_squared' depends on axioms: [propext, Classical.choice, Quot.sound]
'GLM.C112_example' depends on axioms: [propext, Classical.choice, Quot.sound]
'GLM.C113_slope' depends on axioms: [propext, Classical.choice, Quot.sound]
'GLM.C113_variance' depends on axioms: [propext, Classical.choice, Quot.sound]
'GLM.C113_omitted' depends on axioms: [propext, Classical.choice, Quot.sound]
'GLM.C113_uncorrelated' depends on axioms: [propext, Classical.choice, Quot.sound]
'GLM.C113_inflation' depends on axioms: [propext, Classical.choice, Quot.sound]
'GLM.C113_example' depends on axioms: [propext, Classical.choice, Quot.sound]
'GLM.C114_exact' depends on axioms: [propext, Classical.choice, Quot.sound]
'GLM.C114_others' depends on axioms: [propext, Classical.choice, Quot.sound]
'GLM.C114_refit' depends on axioms: [propext, Classical.choice, Quot.sound]
'GLM.C114_linear' depends on axioms: [propext, Classical.choice, Quot.sound]
'GLM.C114_studentized' depends on axioms: [propext, Classical.choice, Quot.sound]
'GLM.C114_example' depends on axioms: [propext, Classical.choice, Quot.sound]
'GLM.C115_against' depends on axioms: [propext, Classical.choice, Quot.sound]
'GLM.C115_null' depends on axioms: [propext, Classical.choice, Quot.sound]
'GLM.C115_units' depends on axioms: [propext, Classical.choice, Quot.sound]
'GLM.C116_best' depends on axioms: [propext, Classical.choice, Quot.sound]
'GLM.C116_ridge' depends on axioms: [propext, Classical.choice, Quot.sound]
'GLM.C116_ridge_error' depends on axioms: [propext, Classical.choice, Quot.sound]
'GLM.C117_coef' depends on axioms: [propext, Classical.choice, Quot.sound]
'GLM.C117_coverage' depends on axioms: [propext, Classical.choice, Quot.sound]
'GLM.C117_independent' depends on axioms: [propext, Classical.choice, Quot.sound]
'GLM.C118_deviance' depends on axioms: [propext, Classical.choice, Quot.sound]
'GLM.C118_wald_weighted' depends on axioms: [propext, Classical.choice, Quot.sound]
'GLM.C118_wald' depends on axioms: [propext, Classical.choice, Quot.sound]
'GLM.C118_pvalue' depends on axioms: [propext, Classical.choice, Quot.sound]
'GLM.C118_exact' depends on axioms: [propext, Classical.choice, Quot.sound]
'GLM.C119_against' depends on axioms: [propext, Classical.choice, Quot.sound]
'GLM.C119_against_fisher' depends on axioms: [propext, Classical.choice, Quot.sound]
'GLM.C119_null' depends on axioms: [propext, Classical.choice, Quot.sound]
'GLM.C119_pvalue' depends on axioms: [propext, Classical.choice, Quot.sound]
'GLM.C12_zero_frequency_is_absent' depends on axioms: [propext, Classical.choice, Quot.sound]
'GLM.C12_build_not_conversely' depends on axioms: [propext, Classical.choice, Quot.sound]
'GLM.C120_pivot_weighted' depends on axioms: [propext, Classical.choice, Quot.sound]
'GLM.C120_pivot' depends on axioms: [propext, Classical.choice, Quot.sound]
'GLM.C120_interval' depends on axioms: [propext, Classical.choice, Quot.sound]
'GLM.C13_nEff' depends on axioms: [propext, Classical.choice, Quot.sound]
'GLM.C13_build' depends on axioms: [propext, Classical.choice, Quot.sound]
'GLM.C13_logLike' depends on axioms: [propext, Classical.choice, Quot.sound]
'GLM.C13_irls' depends on axioms: [propext, Classical.choice, Quot.sound]
'GLM.C13_step' depends on axioms: [propext, Classical.choice, Quot.sound]
'GLM.C13_run' depends on axioms: [propext, Classical.choice, Quot.sound]
'GLM.C13_statistics' depends on axioms: [propext, Classical.choice, Quot.sound]
'GLM.C13_criteria' depends on axioms: [propext, Classical.choice, Quot.sound]
'GLM.C13_student' depends on axioms: [propext, Classical.choice, Quot.sound]
'GLM.C13_tests' depends on axioms: [propext, Classical.choice, Quot.sound]
'GLM.C13_linear' depends on axioms: [propext, Classical.choice, Quot.sound]
'GLM.C14_n_eff' depends on axioms: [propext, Classical.choice, Quot.sound]
'GLM.C15_link_inverse' depends on axioms: [propext, Classical.choice, Quot.sound]
'GLM.C60_link' depends on axioms: [propext, Classical.choice, Quot.sound]
'GLM.C16_nat_param' depends on axioms: [propext, Classical.choice, Quot.sound]
'GLM.C17_d_nat_param' depends on axioms: [propext, Classical.choice, Quot.sound]
'GLM.C18_exponential_family' depends on axioms: [propext, Classical.choice, Quot.sound]
'GLM.C18_covers' depends on axioms: [propext, Classical.choice, Quot.sound]
'GLM.C19_log_like_natural' depends on axioms: [propext, Classical.choice, Quot.sound]
'GLM.C20_saturated_is_sup' depends on axioms: [propext, Classical.choice, Quot.sound]
'GLM.C20_saturated_attained' depends on axioms: [propext, Classical.choice, Quot.sound]
'GLM.C21_mean_range' depends on axioms: [propext, Classical.choice, Quot.sound]
'GLM.C21_mean_range_explicit' depends on axioms: [propext, Classical.choice, Quot.sound]
'GLM.C21_reciprocal_needs_negative' depends on axioms: [propext, Classical.choice, Quot.sound]
'GLM.C22_newton_steps' depends on axioms: [propext, Classical.choice, Quot.sound]
'GLM.C22_fixed_point' depends on axioms: [propext, Classical.choice, Quot.sound]
'GLM.C22_stationary_start' depends on axioms: [propext, Classical.choice, Quot.sound]
'GLM.C23_geometric' depends on axioms: [propext, Classical.choice, Quot.sound]
'GLM.C24_ok' depends on axioms: [propext, Classical.choice, Quot.sound]
'GLM.C24_err' depends on axioms: [propext, Classical.choice, Quot.sound]
'GLM.C24_budget_ok' depends on axioms: [propext, Classical.choice, Quot.sound]
'GLM.C24_budget_err' depends on axioms: [propext, Classical.choice, Quot.sound]
'GLM.C25_best_of_history' depends on axioms: [propext, Classical.choice, Quot.sound]
'GLM.transCmp_f64' depends on axioms: [propext, Classical.choice, Quot.sound]
'GLM.C26_monotone' depends on axioms: [propext, Classical.choice, Quot.sound]
'GLM.C27_recorded_likelihoods' depends on axioms: [propext, Classical.choice, Quot.sound]
'GLM.C27_error_history' depends on axioms: [propext, Classical.choice, Quot.sound]
'GLM.C28_only_improvements' depends on axioms: [propext, Quot.sound]
'GLM.C28_line_search' depends on axioms: [propext, Classical.choice, Quot.sound]
'GLM.C28_zero_tolerance_diverges' depends on axioms: [propext, Classical.choice, Quot.sound]
'GLM.C28_fit_returns' depends on axioms: [propext, Classical.choice, Quot.sound]
'GLM.C29_global_optimum' depends on axioms: [propext, Classical.choice, Quot.sound]
'GLM.C29_unique_optimum' depends on axioms: [propext, Classical.choice, Quot.sound]
'GLM.C29_fixed_point' depends on axioms: [propext, Classical.choice, Quot.sound]
'GLM.C30_families' depends on axioms: [propext, Classical.choice, Quot.sound]
'GLM.C30_no_linalg_error' depends on axioms: [propext, Classical.choice, Quot.sound]
'GLM.C30_ridge_posDef' depends on axioms: [propext, Classical.choice, Quot.sound]
'GLM.C30_fullRank_posDef' depends on axioms: [propext, Classical.choice, Quot.sound]
'GLM.C31_selection' depends on axioms: [propext, Classical.choice, Quot.sound]
'GLM.C31_penalty' depends on axioms: [propext, Classical.choice, Quot.sound]
'GLM.C32_gradient' depends on axioms: [propext, Classical.choice, Quot.sound]
'GLM.C32_supergradient' depends on axioms: [propext, Classical.choice, Quot.sound]
'GLM.C32_ridge_newton' depends on axioms: [propext, Classical.choice, Quot.sound]
'GLM.C33_prox' depends on axioms: [propext, Classical.choice, Quot.sound]
'GLM.C33_dual' depends on axioms: [propext, Classical.choice, Quot.sound]
'GLM.C34_invariant' depends on axioms: [propext, Classical.choice, Quot.sound]
'GLM.C34_unpenalized' depends on axioms: [propext, Classical.choice, Quot.sound]
'GLM.C34_fit' depends on axioms: [propext, Classical.choice, Quot.sound]
'GLM.C35_step' depends on axioms: [propext, Classical.choice, Quot.sound]
'GLM.C35_kkt' depends on axioms: [propext, Classical.choice, Quot.sound]
'GLM.C35_optimum' depends on axioms: [propext, Classical.choice, Quot.sound]
'GLM.C35_fixed_point' depends on axioms: [propext, Classical.choice, Quot.sound]
'GLM.C35_kkt_conversely' depends on axioms: [propext, Classical.choice, Quot.sound]
'GLM.C35_zero_start' depends on axioms: [propext, Classical.choice, Quot.sound]
'GLM.C36_deviance' depends on axioms: [propext, Classical.choice, Quot.sound]
'GLM.C36_lr_self' depends on axioms: [propext, Classical.choice, Quot.sound]
'GLM.C36_lr' depends on axioms: [propext, Classical.choice, Quot.sound]
'GLM.C36_resid_dev' depends on axioms: [propext, Classical.choice, Quot.sound]
'GLM.C36_nonneg' depends on axioms: [propext, Classical.choice, Quot.sound]
'GLM.C36_zero_iff' depends on axioms: [propext, Classical.choice, Quot.sound]
'GLM.C36_linear' depends on axioms: [propext, Classical.choice, Quot.sound]
'GLM.C37_intercept' depends on axioms: [propext, Classical.choice, Quot.sound]
'GLM.C37_optimal' depends on axioms: [propext, Classical.choice, Quot.sound]
'GLM.C37_no_intercept' depends on axioms: [propext, Classical.choice, Quot.sound]
'GLM.C37_empty_panics' depends on axioms: [propext, Classical.choice, Quot.sound]
'GLM.C37_offset' depends on axioms: [propext, Classical.choice, Quot.sound]
'GLM.C37_offset_linear' depends on axioms: [propext, Classical.choice, Quot.sound]
'GLM.C37_value' depends on axioms: [propext, Classical.choice, Quot.sound]
'GLM.C38_linear' depends on axioms: [propext, Classical.choice, Quot.sound]
'GLM.C38_linear_null' depends on axioms: [propext, Classical.choice, Quot.sound]
'GLM.C38_lr_null' depends on axioms: [propext, Classical.choice, Quot.sound]
'GLM.C39_rsq' depends on axioms: [propext, Classical.choice, Quot.sound]
'GLM.C39_range' depends on axioms: [propext, Classical.choice, Quot.sound]
'GLM.C39_linear' depends on axioms: [propext, Classical.choice, Quot.sound]
'GLM.C39_regularized' depends on axioms: [propext, Classical.choice, Quot.sound]
'GLM.C40_fixes' depends on axioms: [propext, Classical.choice, Quot.sound]
'GLM.C40_idempotent' depends on axioms: [propext, Classical.choice, Quot.sound]
'GLM.C40_trace' depends on axioms: [propext, Classical.choice, Quot.sound]
'GLM.C40_leverage' depends on axioms: [propext, Classical.choice, Quot.sound]
'GLM.C40_residuals' depends on axioms: [propext, Classical.choice, Quot.sound]
'GLM.C40_available' depends on axioms: [propext, Classical.choice, Quot.sound]
'GLM.C40_linear' depends on axioms: [propext, Classical.choice, Quot.sound]
'GLM.C41_fisher' depends on axioms: [propext, Classical.choice, Quot.sound]
'GLM.C41_covariance' depends on axioms: [propext, Classical.choice, Quot.sound]
'GLM.C41_unregularized' depends on axioms: [propext, Classical.choice, Quot.sound]
'GLM.C42_fixed' depends on axioms: [propext, Classical.choice, Quot.sound]
'GLM.C42_free' depends on axioms: [propext, Classical.choice, Quot.sound]
'GLM.C42_no_weights' depends on axioms: [propext, Classical.choice, Quot.sound]
'GLM.C42_nonneg' depends on axioms: [propext, Classical.choice, Quot.sound]
'GLM.C42_underdetermined' depends on axioms: [propext]
'GLM.C62_dispersion' depends on axioms: [propext, Classical.choice, Quot.sound]
'GLM.C43_formula' depends on axioms: [propext, Classical.choice, Quot.sound]
'GLM.C43_deletion' depends on axioms: [propext, Classical.choice, Quot.sound]
'GLM.C43_deleted_residual' depends on axioms: [propext, Classical.choice, Quot.sound]
'GLM.C43_least_squares' depends on axioms: [propext, Classical.choice, Quot.sound]
'GLM.C43_deleted_sse' depends on axioms: [propext, Classical.choice, Quot.sound]
'GLM.C43_studentized' depends on axioms: [propext, Classical.choice, Quot.sound]
'GLM.C43_unique_iff' depends on axioms: [propext, Classical.choice, Quot.sound]
'GLM.C44_transparent' depends on axioms: [propext, Classical.choice, Quot.sound]
'GLM.C44_history' depends on axioms: [propext, Classical.choice, Quot.sound]
'GLM.C44_stable' depends on axioms: [propext, Classical.choice, Quot.sound]
'GLM.C44_no_stored_errors' depends on axioms: [propext, Classical.choice, Quot.sound]
'GLM.C44_mutation' depends on axioms: [propext, Classical.choice, Quot.sound]
'GLM.C45_sum' depends on axioms: [propext, Classical.choice, Quot.sound]
'GLM.C45_linear' depends on axioms: [propext, Classical.choice, Quot.sound]
'GLM.C45_poisson_counterexample' depends on axioms: [propext, Classical.choice, Quot.sound]
'GLM.C45_columns' depends on axioms: [propext, Classical.choice, Quot.sound]
'GLM.C45_decompose' depends on axioms: [propext, Classical.choice, Quot.sound]
'GLM.C46_external_scale' depends on axioms: [propext, Classical.choice, Quot.sound]
'GLM.C47_ndf' depends on axioms: [propext, Classical.choice, Quot.sound]
'GLM.C48_feature' depends on axioms: [propext, Classical.choice, Quot.sound]
'GLM.C48_intercept' depends on axioms: [propext, Classical.choice, Quot.sound]
'GLM.C48_column' depends on axioms: [propext, Classical.choice, Quot.sound]
'GLM.C48_only_column' depends on axioms: [propext, Classical.choice, Quot.sound]
'GLM.C48_only_column_panics' depends on axioms: [propext, Classical.choice, Quot.sound]
'GLM.C48_penalized_no_intercept' depends on axioms: [propext, Classical.choice, Quot.sound]
'GLM.C49_canonical' depends on axioms: [propext, Classical.choice, Quot.sound]
'GLM.C49_expected' depends on axioms: [propext, Classical.choice, Quot.sound]
'GLM.C49_response_free' depends on axioms: [propext, Classical.choice, Quot.sound]
'GLM.C50_score_gradient' depends on axioms: [propext, Classical.choice, Quot.sound]
'GLM.C50_lr_gradient' depends on axioms: [propext, Classical.choice, Quot.sound]
'GLM.C51_pearson' depends on axioms: [propext, Classical.choice, Quot.sound]
'GLM.C51_working' depends on axioms: [propext, Classical.choice, Quot.sound]
'GLM.C51_linear' depends on axioms: [propext, Classical.choice, Quot.sound]
'GLM.C51_standardized' depends on axioms: [propext, Classical.choice, Quot.sound]
'GLM.C52_last_wins' depends on axioms: [propext, Quot.sound]
'GLM.C52_default' depends on axioms: [propext, Quot.sound]
'GLM.C52_commute' depends on axioms: [propext, Quot.sound]
'GLM.C52_swap' depends on axioms: [propext, Quot.sound]
'GLM.C53_loo_exact' depends on axioms: [propext, Classical.choice, Quot.sound]
'GLM.C53_linear' depends on axioms: [propext, Classical.choice, Quot.sound]
'GLM.C54_formulas' depends on axioms: [propext, Classical.choice, Quot.sound]
'GLM.C54_no_weights' depends on axioms: [propext, Classical.choice, Quot.sound]
'GLM.C54_bic_aic' depends on axioms: [propext, Classical.choice, Quot.sound]
'GLM.C54_standardization' depends on axioms: [propext, Classical.choice, Quot.sound]
'GLM.C55_adjustments' depends on axioms: [propext, Classical.choice, Quot.sound]
'GLM.C55_dispersion_type' depends on axioms: [propext, Classical.choice, Quot.sound]
'GLM.C56_certified' depends on axioms: [propext, Classical.choice, Quot.sound]
'GLM.C57_only_maxIter' depends on axioms: [propext, Classical.choice, Quot.sound]
'GLM.C57_exact_least_squares' depends on axioms: [propext, Classical.choice, Quot.sound]
'GLM.C57_converges' depends on axioms: [propext, Classical.choice, Quot.sound]
'GLM.C58_posDef' depends on axioms: [propext, Classical.choice, Quot.sound]
'GLM.C58_no_linalg_error' depends on axioms: [propext, Classical.choice, Quot.sound]
'GLM.C58_families' depends on axioms: [propext, Classical.choice, Quot.sound]
'GLM.C59_cooks' depends on axioms: [propext, Classical.choice, Quot.sound]
'GLM.C60_link' depends on axioms: [propext, Classical.choice, Quot.sound]
'GLM.C60_predictor' depends on axioms: [propext, Classical.choice, Quot.sound]
'GLM.C60_variance' depends on axioms: [propext, Classical.choice, Quot.sound]
'GLM.C60_log_like' depends on axioms: [propext, Classical.choice, Quot.sound]
'GLM.C60_saturated' depends on axioms: [propext, Classical.choice, Quot.sound]
'GLM.C60_outside' depends on axioms: [propext, Classical.choice, Quot.sound]
'GLM.C61_build' depends on axioms: [propext, Classical.choice, Quot.sound]
'GLM.C61_fit' depends on axioms: [propext, Classical.choice, Quot.sound]
'GLM.C61_start' depends on axioms: [propext, Classical.choice, Quot.sound]
'GLM.C61_boundary_start' depends on axioms: [propext, Classical.choice, Quot.sound]
'GLM.C62_statistics' depends on axioms: [propext, Classical.choice, Quot.sound]
'GLM.C62_criteria' depends on axioms: [propext, Classical.choice, Quot.sound]
'GLM.C62_criteria_zero_weight' depends on axioms: [propext, Classical.choice, Quot.sound]
'GLM.C62_dispersion' depends on axioms: [propext, Classical.choice, Quot.sound]
'GLM.C62_residuals' depends on axioms: [propext, Classical.choice, Quot.sound]
'GLM.C62_leverage' depends on axioms: [propext, Classical.choice, Quot.sound]
'GLM.C62_covariance' depends on axioms: [propext, Classical.choice, Quot.sound]
'GLM.C62_standardized' depends on axioms: [propext, Classical.choice, Quot.sound]
'GLM.C62_predict' depends on axioms: [propext, Classical.choice, Quot.sound]
'GLM.C63_stays_defined' depends on axioms: [propext, Classical.choice, Quot.sound]
'GLM.C63_stuck' depends on axioms: [propext, Classical.choice, Quot.sound]
'GLM.C64_lr' depends on axioms: [propext, Classical.choice, Quot.sound]
'GLM.C64_lr_mono' depends on axioms: [propext, Classical.choice, Quot.sound]
'GLM.C64_wald_fixed' depends on axioms: [propext, Classical.choice, Quot.sound]
'GLM.C64_wald_free' depends on axioms: [propext, Classical.choice, Quot.sound]
'GLM.C64_exact' depends on axioms: [propext, Classical.choice, Quot.sound]
'GLM.C64_exact_iff' depends on axioms: [propext, Classical.choice, Quot.sound]
'GLM.realDists_lawful' depends on axioms: [propext, Classical.choice, Quot.sound]
'GLM.C65_exact_eq_wald' depends on axioms: [propext, Classical.choice, Quot.sound]
'GLM.lin_devWithout' depends on axioms: [propext, Classical.choice, Quot.sound]
'GLM.realDists_square' depends on axioms: [propext, Classical.choice, Quot.sound]
'GLM.C66_moments' depends on axioms: [propext, Classical.choice, Quot.sound]
'GLM.C66_accepts' depends on axioms: [propext, Classical.choice, Quot.sound]
'GLM.C66_no_panic' depends on axioms: [propext, Classical.choice, Quot.sound]
'GLM.C66_quantile' depends on axioms: [propext, Classical.choice, Quot.sound]
'GLM.C66_linear' depends on axioms: [propext, Classical.choice, Quot.sound]
'GLM.C67_units' depends on axioms: [propext, Classical.choice, Quot.sound]
'GLM.C68_gamma_is_exponential' depends on axioms: [propext, Classical.choice, Quot.sound]
'GLM.C68_binomial_is_logistic' depends on axioms: [propext, Classical.choice, Quot.sound]
'GLM.C69_row_order' depends on axioms: [propext, Classical.choice, Quot.sound]
'GLM.C69_build' depends on axioms: [propext, Classical.choice, Quot.sound]
'GLM.C70_ascent' depends on axioms: [propext, Classical.choice, Quot.sound]
'GLM.C70_zero_tolerance' depends on axioms: [propext, Classical.choice, Quot.sound]
'GLM.C70_zero_tolerance_optimum' depends on axioms: [propext, Classical.choice, Quot.sound]
'GLM.C70_same_result' depends on axioms: [propext, Classical.choice, Quot.sound]
'GLM.C70_forward' depends on axioms: [propext, Classical.choice, Quot.sound]
'GLM.C71_suboptimality' depends on axioms: [propext, Classical.choice, Quot.sound]
'GLM.C71_distance' depends on axioms: [propext, Classical.choice, Quot.sound]
'GLM.C71_exists' depends on axioms: [propext, Classical.choice, Quot.sound]
'GLM.C72_default_start' depends on axioms: [propext, Classical.choice, Quot.sound]
'GLM.C72_same_as_explicit' depends on axioms: [propext, Classical.choice, Quot.sound]
'GLM.C72_standardization_free' depends on axioms: [propext, Classical.choice, Quot.sound]
'GLM.C72_fallback' depends on axioms: [propext, Classical.choice, Quot.sound]
'GLM.C72_zero_start' depends on axioms: [propext, Classical.choice, Quot.sound]
'GLM.C73_lawful' depends on axioms: [propext, Classical.choice, Quot.sound]
'GLM.C73_score_gradient' depends on axioms: [propext, Classical.choice, Quot.sound]
'GLM.C73_expected_information' depends on axioms: [propext, Classical.choice, Quot.sound]
'GLM.C73_newton_steps' depends on axioms: [propext, Classical.choice, Quot.sound]
'GLM.C73_deviance_nonneg' depends on axioms: [propext, Classical.choice, Quot.sound]
'GLM.C73_shipped' depends on axioms: [propext, Classical.choice, Quot.sound]
'GLM.C73_affine' depends on axioms: [propext, Classical.choice, Quot.sound]
'GLM.C74_feature_order' depends on axioms: [propext, Classical.choice, Quot.sound]
'GLM.C74_build' depends on axioms: [propext, Classical.choice, Quot.sound]
'GLM.C74_pvalue_exact' depends on axioms: [propext, Classical.choice, Quot.sound]
'GLM.C75_intercept_column' depends on axioms: [propext, Classical.choice, Quot.sound]
'GLM.C76_score' depends on axioms: [propext, Classical.choice, Quot.sound]
'GLM.C76_linear_coef' depends on axioms: [propext, Classical.choice, Quot.sound]
'GLM.C76_linear_resid' depends on axioms: [propext, Classical.choice, Quot.sound]
'GLM.C76_linear_deviance' depends on axioms: [propext, Classical.choice, Quot.sound]
'GLM.C76_linear_dispersion' depends on axioms: [propext, Classical.choice, Quot.sound]
'GLM.C76_ridge_covariance' depends on axioms: [propext, Classical.choice, Quot.sound]
'GLM.C77_repeated_rows' depends on axioms: [propext, Classical.choice, Quot.sound]
'GLM.C77_stops_first' depends on axioms: [propext, Classical.choice, Quot.sound]
'GLM.C77_same_fit' depends on axioms: [propext, Classical.choice, Quot.sound]
'GLM.C77_statistics' depends on axioms: [propext, Classical.choice, Quot.sound]
'GLM.C78_solution' depends on axioms: [propext, Classical.choice, Quot.sound]
'GLM.C78_rate' depends on axioms: [propext, Classical.choice, Quot.sound]
'GLM.C78_only_maxIter' depends on axioms: [propext, Classical.choice, Quot.sound]
'GLM.C78_converges' depends on axioms: [propext, Classical.choice, Quot.sound]
'GLM.C78_exact_ridge' depends on axioms: [propext, Classical.choice, Quot.sound]
'GLM.C79_run' depends on axioms: [propext, Classical.choice, Quot.sound]
'GLM.C79_start_given' depends on axioms: [propext, Classical.choice, Quot.sound]
'GLM.C79_start_default' depends on axioms: [propext, Classical.choice, Quot.sound]
'GLM.C79_statistics' depends on axioms: [propext, Classical.choice, Quot.sound]
'GLM.C79_itself' depends on axioms: [propext, Classical.choice, Quot.sound]
'GLM.C79_offset' depends on axioms: [propext, Classical.choice, Quot.sound]
'GLM.C79_mixed_features' depends on axioms: [propext, Classical.choice, Quot.sound]
'GLM.C79_groups' depends on axioms: [propext, Classical.choice, Quot.sound]
'GLM.C80_balance' depends on axioms: [propext, Classical.choice, Quot.sound]
'GLM.C80_means' depends on axioms: [propext, Classical.choice, Quot.sound]
'GLM.C80_ratios' depends on axioms: [propext, Classical.choice, Quot.sound]
'GLM.C80_features' depends on axioms: [propext, Classical.choice, Quot.sound]
'GLM.C80_groups' depends on axioms: [propext, Classical.choice, Quot.sound]
'GLM.C80_explained' depends on axioms: [propext, Classical.choice, Quot.sound]
'GLM.C80_rsq' depends on axioms: [propext, Classical.choice, Quot.sound]
'GLM.C81_deviance' depends on axioms: [propext, Classical.choice, Quot.sound]
'GLM.C81_resid_dev' depends on axioms: [propext, Classical.choice, Quot.sound]
'GLM.C81_intercept' depends on axioms: [propext, Classical.choice, Quot.sound]
'GLM.C81_reciprocal' depends on axioms: [propext, Classical.choice, Quot.sound]
'GLM.C82_build' depends on axioms: [propext, Classical.choice, Quot.sound]
'GLM.C82_run' depends on axioms: [propext, Classical.choice, Quot.sound]
'GLM.C82_statistics' depends on axioms: [propext, Classical.choice, Quot.sound]
'GLM.C82_errors' depends on axioms: [propext, Classical.choice, Quot.sound]
'GLM.C82_tests' depends on axioms: [propext, Classical.choice, Quot.sound]
'GLM.C82_linear' depends on axioms: [propext, Classical.choice, Quot.sound]
'GLM.C83_mean' depends on axioms: [propext, Classical.choice, Quot.sound]
'GLM.C83_mean_reciprocal' depends on axioms: [propext, Classical.choice, Quot.sound]
'GLM.C83_predict' depends on axioms: [propext, Classical.choice, Quot.sound]
'GLM.C83_variance' depends on axioms: [propext, Classical.choice, Quot.sound]
'GLM.C83_information' depends on axioms: [propext, Classical.choice, Quot.sound]
'GLM.C83_sums' depends on axioms: [propext, Classical.choice, Quot.sound]
'GLM.C83_mean_monotone' depends on axioms: [propext, Classical.choice, Quot.sound]
'GLM.C83_mean_monotone_binary' depends on axioms: [propext, Classical.choice, Quot.sound]
'GLM.C83_trials' depends on axioms: [propext, Classical.choice, Quot.sound]
'GLM.C83_logistic_term' depends on axioms: [propext, Classical.choice, Quot.sound]
'GLM.C83_logistic_likelihood' depends on axioms: [propext, Classical.choice, Quot.sound]
'GLM.C83_reciprocal_at_zero' depends on axioms: [propext, Classical.choice, Quot.sound]
'GLM.C83_residual_nan' depends on axioms: [propext, Classical.choice, Quot.sound]
'GLM.C83_cloglog_nan' depends on axioms: [propext, Classical.choice, Quot.sound]
'GLM.C83_cloglog_nan_binary64' depends on axioms: [propext, Classical.choice, Quot.sound]
'GLM.C84_line_search' depends on axioms: [propext, Classical.choice, Quot.sound]
'GLM.C84_fit_returns' depends on axioms: [propext, Classical.choice, Quot.sound]
'GLM.C84_fit_returns_binary64' depends on axioms: [propext, Classical.choice, Quot.sound]
'GLM.C84_fit_returns_binary32' depends on axioms: [propext, Classical.choice, Quot.sound]
'GLM.C84_least' depends on axioms: [propext, Classical.choice, Quot.sound]
'GLM.C84_zero_tolerance' depends on axioms: [propext, Classical.choice, Quot.sound]
'GLM.C84_zero_tolerance_hangs' depends on axioms: [propext, Classical.choice, Quot.sound]
'GLM.C84_example_hangs' depends on axioms: [propext, Classical.choice, Quot.sound]
'GLM.C85_increases' depends on axioms: [propext, Classical.choice, Quot.sound]
'GLM.C85_increases_max_iter' depends on axioms: [propext, Classical.choice, Quot.sound]
'GLM.C85_last_step' depends on axioms: [propext, Classical.choice, Quot.sound]
'GLM.C85_never_worse' depends on axioms: [propext, Classical.choice, Quot.sound]
'GLM.C85_nan_start' depends on axioms: [propext, Classical.choice, Quot.sound]
'GLM.C85_reported' depends on axioms: [propext, Classical.choice, Quot.sound]
'GLM.C85_example_moves' depends on axioms: [propext, Classical.choice, Quot.sound]
'GLM.C85_example_nan_start' depends on axioms: [propext, Classical.choice, Quot.sound]
'GLM.C86_sum' depends on axioms: [propext, Classical.choice, Quot.sound]
'GLM.C86_dot' depends on axioms: [propext, Classical.choice, Quot.sound]
'GLM.C86_left' depends on axioms: [propext, Quot.sound]
'GLM.C86_fused' depends on axioms: [propext]
'GLM.C86_mean' depends on axioms: [propext, Classical.choice, Quot.sound]
'GLM.C86_predict' depends on axioms: [propext, Classical.choice, Quot.sound]
'GLM.C86_binary64' depends on axioms: [propext, Classical.choice, Quot.sound]
'GLM.C86_binary32' depends on axioms: [propext, Classical.choice, Quot.sound]
'GLM.C86_logistic_f64' depends on axioms: [propext, Classical.choice, Quot.sound]
'GLM.C86_example' depends on axioms: [propext, Classical.choice, Quot.sound]
'GLM.C87_exists' depends on axioms: [propext, Classical.choice, Quot.sound]
'GLM.C87_optimum' depends on axioms: [propext, Classical.choice, Quot.sound]
'GLM.C87_runaway' depends on axioms: [propext, Classical.choice, Quot.sound]
'GLM.C87_separated_score' depends on axioms: [propext, Classical.choice, Quot.sound]
'GLM.C87_always' depends on axioms: [propext, Classical.choice, Quot.sound]
'GLM.C87_ridge' depends on axioms: [propext, Classical.choice, Quot.sound]
'GLM.C87_ridge_intercept' depends on axioms: [propext, Classical.choice, Quot.sound]
'GLM.C87_negative' depends on axioms: [propext, Classical.choice, Quot.sound]
'GLM.C87_l1' depends on axioms: [propext, Classical.choice, Quot.sound]
'GLM.C88_optimal' depends on axioms: [propext, Classical.choice, Quot.sound]
'GLM.C88_optimal_l1' depends on axioms: [propext, Classical.choice, Quot.sound]
'GLM.C88_nested' depends on axioms: [propext, Classical.choice, Quot.sound]
'GLM.C88_no_gain' depends on axioms: [propext, Classical.choice, Quot.sound]
'GLM.C88_rsq' depends on axioms: [propext, Classical.choice, Quot.sound]
'GLM.C88_stronger_l2' depends on axioms: [propext, Classical.choice, Quot.sound]
'GLM.C88_stronger_l1' depends on axioms: [propext, Classical.choice, Quot.sound]
'GLM.C88_shrinkage' depends on axioms: [propext, Classical.choice, Quot.sound]
'GLM.C89_necessary' depends on axioms: [propext, Classical.choice, Quot.sound]
'GLM.C89_optimal_iff' depends on axioms: [propext, Classical.choice, Quot.sound]
'GLM.C89_kept' depends on axioms: [propext, Classical.choice, Quot.sound]
'GLM.C89_grouping' depends on axioms: [propext, Classical.choice, Quot.sound]
'GLM.C89_identical' depends on axioms: [propext, Classical.choice, Quot.sound]
'GLM.C89_useless' depends on axioms: [propext, Classical.choice, Quot.sound]
'GLM.C89_dropped' depends on axioms: [propext, Classical.choice, Quot.sound]
'GLM.C89_threshold' depends on axioms: [propext, Classical.choice, Quot.sound]
'GLM.C90_local' depends on axioms: [propext, Classical.choice, Quot.sound]
'GLM.C90_canonical' depends on axioms: [propext, Classical.choice, Quot.sound]
'GLM.C90_canonical_exists' depends on axioms: [propext, Classical.choice, Quot.sound]
'GLM.C90_not_separated' depends on axioms: [propext, Classical.choice, Quot.sound]
'GLM.C90_log' depends on axioms: [propext, Classical.choice, Quot.sound]
'GLM.C90_invGaussLog' depends on axioms: [propext, Classical.choice, Quot.sound]
'GLM.C90_cloglog' depends on axioms: [propext, Classical.choice, Quot.sound]
'GLM.C91_exists_unique' depends on axioms: [propext, Classical.choice, Quot.sound]
'GLM.C91_run' depends on axioms: [propext, Classical.choice, Quot.sound]
'GLM.C91_converges' depends on axioms: [propext, Classical.choice, Quot.sound]
'GLM.C91_null' depends on axioms: [propext, Classical.choice, Quot.sound]
'GLM.C91_intercept_only' depends on axioms: [propext, Classical.choice, Quot.sound]
'GLM.C91_no_columns' depends on axioms: [propext, Classical.choice, Quot.sound]
'GLM.C92_stop' depends on axioms: [propext, Classical.choice, Quot.sound]
'GLM.C92_excess' depends on axioms: [propext, Classical.choice, Quot.sound]
'GLM.C93_row' depends on axioms: [propext, Classical.choice, Quot.sound]
'GLM.C93_contrast' depends on axioms: [propext, Classical.choice, Quot.sound]
'GLM.C93_sign' depends on axioms: [propext, Classical.choice, Quot.sound]
'GLM.C93_linear' depends on axioms: [propext, Classical.choice, Quot.sound]
'GLM.C93_ratio' depends on axioms: [propext, Classical.choice, Quot.sound]
'GLM.C93_odds' depends on axioms: [propext, Classical.choice, Quot.sound]
'GLM.C93_hazard' depends on axioms: [propext, Classical.choice, Quot.sound]
'GLM.C93_rate' depends on axioms: [propext, Classical.choice, Quot.sound]
'GLM.C93_inverse_square' depends on axioms: [propext, Classical.choice, Quot.sound]
'GLM.C93_one_feature' depends on axioms: [propext, Classical.choice, Quot.sound]
'GLM.C93_exposure' depends on axioms: [propext, Classical.choice, Quot.sound]
'GLM.C94_exchange' depends on axioms: [propext, Classical.choice, Quot.sound]
'GLM.C94_own' depends on axioms: [propext, Classical.choice, Quot.sound]
'GLM.C94_canonical' depends on axioms: [propext, Classical.choice, Quot.sound]
'GLM.C94_contraction' depends on axioms: [propext, Classical.choice, Quot.sound]
'GLM.C94_ridge' depends on axioms: [propext, Classical.choice, Quot.sound]
'GLM.C94_weight' depends on axioms: [propext, Classical.choice, Quot.sound]
'GLM.C94_left_out' depends on axioms: [propext, Classical.choice, Quot.sound]
'GLM.C94_cross_validation' depends on axioms: [propext, Classical.choice, Quot.sound]
'GLM.C95_term' depends on axioms: [propext, Classical.choice, Quot.sound]
'GLM.C95_natural' depends on axioms: [propext, Classical.choice, Quot.sound]
'GLM.C95_likelihood' depends on axioms: [propext, Classical.choice, Quot.sound]
'GLM.C95_penalized' depends on axioms: [propext, Classical.choice, Quot.sound]
'GLM.C95_fit' depends on axioms: [propext, Classical.choice, Quot.sound]
'GLM.C95_history' depends on axioms: [propext, Classical.choice, Quot.sound]
'GLM.C95_best_step' depends on axioms: [propext, Classical.choice, Quot.sound]
'GLM.C95_never_worse' depends on axioms: [propext, Classical.choice, Quot.sound]
'GLM.C95_logistic_f64' depends on axioms: [propext, Classical.choice, Quot.sound]
'GLM.C96_work' depends on axioms: [propext, Classical.choice, Quot.sound]
'GLM.C96_score' depends on axioms: [propext, Classical.choice, Quot.sound]
'GLM.C96_suboptimality' depends on axioms: [propext, Classical.choice, Quot.sound]
'GLM.C96_distance' depends on axioms: [propext, Classical.choice, Quot.sound]
'GLM.C96_optimum' depends on axioms: [propext, Classical.choice, Quot.sound]
'GLM.C97_features' depends on axioms: [propext, Classical.choice, Quot.sound]
'GLM.C97_coefficients' depends on axioms: [propext, Classical.choice, Quot.sound]
'GLM.C97_round_trip' depends on axioms: [propext, Classical.choice, Quot.sound]
'GLM.C97_predictor' depends on axioms: [propext, Classical.choice, Quot.sound]
'GLM.C97_likelihood' depends on axioms: [propext, Classical.choice, Quot.sound]
'GLM.C97_score' depends on axioms: [propext, Classical.choice, Quot.sound]
'GLM.C97_suboptimality' depends on axioms: [propext, Classical.choice, Quot.sound]
'GLM.C97_distance' depends on axioms: [propext, Classical.choice, Quot.sound]
'GLM.C97_optimum' depends on axioms: [propext, Classical.choice, Quot.sound]
'GLM.C98_scale_positive' depends on axioms: [propext, Classical.choice, Quot.sound]
'GLM.C98_accuracy' depends on axioms: [propext, Classical.choice, Quot.sound]
'GLM.C98_moderate' depends on axioms: [propext, Classical.choice, Quot.sound]
'GLM.C98_f64' depends on axioms: [propext, Classical.choice, Quot.sound]
'GLM.C98_constant' depends on axioms: [propext, Classical.choice, Quot.sound]
'GLM.C98_constant_missed' depends on axioms: [propext, Classical.choice, Quot.sound]
'GLM.C99_deviance' depends on axioms: [propext, Classical.choice, Quot.sound]
'GLM.C99_deviance_sign' depends on axioms: [propext, Classical.choice, Quot.sound]
'GLM.C99_aic' depends on axioms: [propext, Classical.choice, Quot.sound]
'GLM.C99_bic' depends on axioms: [propext, Classical.choice, Quot.sound]
'GLM.C99_dispersion' depends on axioms: [propext, Classical.choice, Quot.sound]
'GLM.C99_residual' depends on axioms: [propext, Classical.choice, Quot.sound]
'GLM.C99_standardized' depends on axioms: [propext, Classical.choice, Quot.sound]
'GLM.C99_moderate' depends on axioms: [propext, Classical.choice, Quot.sound]
'GLM.C99_f64' depends on axioms: [propext, Classical.choice, Quot.sound]
