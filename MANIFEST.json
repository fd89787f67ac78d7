{
 "claims": [
  {
   "property": "C01",
   "status": "proved",
   "theorems": [
    "GLM.C01_bad_input",
    "GLM.C01_consistent",
    "GLM.C01_unchecked_weights",
    "GLM.C01_weight_lengths",
    "GLM.C01_sized"
   ],
   "note": "C01_unchecked_weights and C01_weight_lengths describe what build() does with weight arrays of a wrong length, which it does not check."
  },
  {
   "property": "C02",
   "status": "proved",
   "theorems": [
    "GLM.C02_repeated"
   ],
   "note": "For every arithmetic."
  },
  {
   "property": "C03",
   "status": "proved",
   "theorems": [
    "GLM.C03_order",
    "GLM.C03_repeated"
   ],
   "note": "C03_repeated: with a repeated setting every order fails too."
  },
  {
   "property": "C04",
   "status": "proved",
   "theorems": [
    "GLM.C04_invalid",
    "GLM.C04_test",
    "GLM.C04_float",
    "GLM.C04_discrete",
    "GLM.C04_domain"
   ],
   "note": "C04_test is for every arithmetic, including NaN."
  },
  {
   "property": "C05",
   "status": "proved",
   "theorems": [
    "GLM.C05_standardized_columns",
    "GLM.C05_panic_iff"
   ],
   "note": "exact arithmetic; the build panics exactly when 2 or more rows have effective sample size at most 1"
  },
  {
   "property": "C06",
   "status": "proved",
   "theorems": [
    "GLM.C06_no_centring"
   ],
   "note": "exact arithmetic"
  },
  {
   "property": "C07",
   "status": "proved",
   "theorems": [
    "GLM.C07_lossless"
   ],
   "note": "exact arithmetic"
  },
  {
   "property": "C08",
   "status": "proved",
   "theorems": [
    "GLM.C08_linear_predictor"
   ],
   "note": "exact arithmetic"
  },
  {
   "property": "C09",
   "status": "proved",
   "theorems": [
    "GLM.C09_predict_training",
    "GLM.C09_predict_new"
   ],
   "note": ""
  },
  {
   "property": "C10",
   "status": "proved",
   "theorems": [
    "GLM.C10_external",
    "GLM.C10_standardization_irrelevant"
   ],
   "note": "L1 not active."
  },
  {
   "property": "C100",
   "status": "proved",
   "theorems": [
    "GLM.C100_accuracy",
    "GLM.C100_accuracy_zero",
    "GLM.C100_predictions",
    "GLM.C100_no_linalg_error",
    "GLM.C100_sharp",
    "GLM.C100_example"
   ],
   "note": "The solver may err, everything else is exact arithmetic; the spec of the solver is SolvesWithin (Spec/Inexact)."
  },
  {
   "property": "C101",
   "status": "proved",
   "theorems": [
    "GLM.C101_newton_step",
    "GLM.C101_score",
    "GLM.C101_example"
   ],
   "note": "The solver may err (SolvesWithin, Spec/Inexact), everything else is exact arithmetic; extends C70_zero_tolerance."
  },
  {
   "property": "C102",
   "status": "proved",
   "theorems": [
    "GLM.C102_direction",
    "GLM.C102_build",
    "GLM.C102_pvalue_exact",
    "GLM.C102_recoding"
   ],
   "note": "Lockstep simulation of the whole iteration, as in C74. The hypothesis on the linear algebra (SignFree) is met by exact linear algebra (exactEnv_signFree). C102_recoding composes it with C67: features must vary."
  },
  {
   "property": "C103",
   "status": "proved",
   "theorems": [
    "GLM.C103_never",
    "GLM.C103_optimum"
   ],
   "note": "A negative result: it limits C91_converges, whose condition on the penalty parameter cannot be dropped."
  },
  {
   "property": "C104",
   "status": "proved",
   "theorems": [
    "GLM.C104_orthogonal",
    "GLM.C104_plain",
    "GLM.C104_uncorrelated",
    "GLM.C104_one_feature",
    "GLM.C104_optimum"
   ],
   "note": "Exact arithmetic, Linear family. C104_orthogonal is the general form, in terms of the matrix that is fitted; the others state it for the features the user gives. Complements C103: the data of C103 cannot be fitted with no_standardize but can with the default settings (an example after the theorems)."
  },
  {
   "property": "C105",
   "status": "proved",
   "theorems": [
    "GLM.C105_fisher",
    "GLM.C105_wald",
    "GLM.C105_resp",
    "GLM.C105_pearson",
    "GLM.C105_working",
    "GLM.C105_moderate",
    "GLM.C105_f64",
    "GLM.C105_example"
   ],
   "note": "Bounds in Spec/InfoAccuracy; conditions of the f64 version in Spec/InfoF64. Fits without standardization; the information and the Wald statistic without L1 penalty, whose reported information contains the internal penalty parameter. The complementary log-log link has no bound of its slope and is left out of the information and the working residual."
  },
  {
   "property": "C106",
   "status": "proved",
   "theorems": [
    "GLM.C106_covariance",
    "GLM.C106_leverage",
    "GLM.C106_leverage_sum",
    "GLM.C106_variance",
    "GLM.C106_z",
    "GLM.C106_influence",
    "GLM.C106_cooks",
    "GLM.C106_resid_pear_std",
    "GLM.C106_score_test",
    "GLM.C106_example"
   ],
   "note": "Exact arithmetic outside the inversion. InvertsWithin (Spec/InexactInverse) is the accuracy of the inversion; C106_example shows an inversion that meets it, a fit that meets the other hypotheses, and that the bounds for leverages, variances and score tests are attained."
  },
  {
   "property": "C107",
   "status": "proved",
   "theorems": [
    "GLM.C107_reordering",
    "GLM.C107_identical",
    "GLM.C107_proportional",
    "GLM.C107_balanced",
    "GLM.C107_balanced_signs",
    "GLM.C107_useless",
    "GLM.C107_example_identical",
    "GLM.C107_example_balanced",
    "GLM.C107_example_signs",
    "GLM.C107_example_proportional"
   ],
   "note": "Unlike C89 this needs neither an optimum nor a penalty. The recodings of C107_balanced and C107_proportional need features that vary; the start is the default one there."
  },
  {
   "property": "C108",
   "status": "proved",
   "theorems": [
    "GLM.C108_means",
    "GLM.C108_coefficients",
    "GLM.C108_covariance",
    "GLM.C108_t_test",
    "GLM.C108_between",
    "GLM.C108_odds",
    "GLM.C108_g_test",
    "GLM.C108_rates",
    "GLM.C108_poisson_lr",
    "GLM.C108_ratio",
    "GLM.C108_score_test",
    "GLM.C108_chi_squared",
    "GLM.C108_example_linear",
    "GLM.C108_example_logistic",
    "GLM.C108_example_ratio"
   ],
   "note": "Vanishing score is what a converged fit approximates (C56, C70, C101); C57 gives it exactly for the Linear family in exact arithmetic."
  },
  {
   "property": "C109",
   "status": "proved",
   "theorems": [
    "GLM.C109_line",
    "GLM.C109_ridge",
    "GLM.C109_deviance",
    "GLM.C109_covariance",
    "GLM.C109_leverage",
    "GLM.C109_explained",
    "GLM.C109_t_test",
    "GLM.C109_example",
    "GLM.C109_example_ridge"
   ],
   "note": "Over the reals with exact inversion; the slope, ridge, deviance, r_sq and lr_test statements hold in any environment. A fit with vanishing score exists by C57 and C22; the z statistic needs more than two observations and no variance weights."
  },
  {
   "property": "C11",
   "status": "proved",
   "theorems": [
    "GLM.C11_frequencies_are_repeats",
    "GLM.C11_recount"
   ],
   "note": "Equality of counts, standardizer, likelihood, IRLS equation, every iterator step and fit statistics; the 'converged' flag may differ because its tolerance counts rows"
  },
  {
   "property": "C110",
   "status": "proved",
   "theorems": [
    "GLM.C110_aggregate",
    "GLM.C110_aggregate_fit",
    "GLM.C110_rates",
    "GLM.C110_predict",
    "GLM.C110_rate",
    "GLM.C110_example",
    "GLM.C110_example_rate"
   ],
   "note": "Over the reals with exact inversion for the covariance formulas; aggregation in any environment. Agreement of the aggregated fit needs linearly independent features, non-negative weights and vanishing score at both results; the tests against the null model are not covered because with an offset the library finds it by another fit."
  },
  {
   "property": "C111",
   "status": "proved",
   "theorems": [
    "GLM.C111_average",
    "GLM.C111_average_fit",
    "GLM.C111_example"
   ],
   "note": "Spec/Averages.lean says what the averages are."
  },
  {
   "property": "C112",
   "status": "proved",
   "theorems": [
    "GLM.C112_means",
    "GLM.C112_deviance",
    "GLM.C112_covariance",
    "GLM.C112_leverage",
    "GLM.C112_lr",
    "GLM.C112_score_test",
    "GLM.C112_anova",
    "GLM.C112_chi_squared",
    "GLM.C112_example"
   ],
   "note": "Spec/Cells.lean says what cells, their means and sums of squares are."
  },
  {
   "property": "C113",
   "status": "proved",
   "theorems": [
    "GLM.C113_slope",
    "GLM.C113_variance",
    "GLM.C113_omitted",
    "GLM.C113_uncorrelated",
    "GLM.C113_inflation",
    "GLM.C113_example"
   ],
   "note": "The other regression is itself a fit of the model, of the data set with the feature as response."
  },
  {
   "property": "C114",
   "status": "proved",
   "theorems": [
    "GLM.C114_exact",
    "GLM.C114_others",
    "GLM.C114_refit",
    "GLM.C114_linear",
    "GLM.C114_studentized",
    "GLM.C114_example"
   ],
   "note": "The studentized residual of the code lacks the factor that would make it t-distributed: finding 32."
  },
  {
   "property": "C115",
   "status": "proved",
   "theorems": [
    "GLM.C115_against",
    "GLM.C115_null",
    "GLM.C115_units"
   ],
   "note": "Documentation finding 33."
  },
  {
   "property": "C116",
   "status": "proved",
   "theorems": [
    "GLM.C116_best",
    "GLM.C116_ridge",
    "GLM.C116_ridge_error"
   ],
   "note": "Linear family; combinations of coefficients include predictions."
  },
  {
   "property": "C117",
   "status": "proved",
   "theorems": [
    "GLM.C117_coef",
    "GLM.C117_coverage",
    "GLM.C117_independent"
   ],
   "note": "Exact real arithmetic; no frequency weights; the fit is unpenalized and its score is zero, which C57 provides for exact solvers."
  },
  {
   "property": "C118",
   "status": "proved",
   "theorems": [
    "GLM.C118_deviance",
    "GLM.C118_wald_weighted",
    "GLM.C118_wald",
    "GLM.C118_pvalue",
    "GLM.C118_exact"
   ],
   "note": "Exact real arithmetic, with the mathematical distributions (realDists); no frequency weights; the score of the fit is zero, which C57 provides for exact solvers."
  },
  {
   "property": "C119",
   "status": "proved",
   "theorems": [
    "GLM.C119_against",
    "GLM.C119_against_fisher",
    "GLM.C119_null",
    "GLM.C119_pvalue"
   ],
   "note": "Exact real arithmetic, with the mathematical distributions (realDists); no frequency weights; the score of the fit is zero, which C57 provides for exact solvers."
  },
  {
   "property": "C12",
   "status": "proved",
   "theorems": [
    "GLM.C12_zero_frequency_is_absent",
    "GLM.C12_build_not_conversely"
   ],
   "note": "Also shows the converse for building fails: freqs (1,0) panics in standardization while the one-row data set builds"
  },
  {
   "property": "C120",
   "status": "proved",
   "theorems": [
    "GLM.C120_pivot_weighted",
    "GLM.C120_pivot",
    "GLM.C120_interval"
   ],
   "note": "Exact real arithmetic and an exact matrix inverse; the fit is stationary; frequency weights are excluded."
  },
  {
   "property": "C13",
   "status": "proved",
   "theorems": [
    "GLM.C13_nEff",
    "GLM.C13_build",
    "GLM.C13_logLike",
    "GLM.C13_irls",
    "GLM.C13_step",
    "GLM.C13_run",
    "GLM.C13_statistics",
    "GLM.C13_criteria",
    "GLM.C13_student",
    "GLM.C13_tests",
    "GLM.C13_linear"
   ],
   "note": "Exact arithmetic and linear algebra; whole runs need tolerance zero (any tolerance for Linear); without L1. Not invariant: the covariance is divided by c for every family."
  },
  {
   "property": "C14",
   "status": "proved",
   "theorems": [
    "GLM.C14_n_eff"
   ],
   "note": "exact arithmetic"
  },
  {
   "property": "C15",
   "status": "proved",
   "theorems": [
    "GLM.C15_link_inverse",
    "GLM.C60_link"
   ],
   "note": "exact arithmetic; all 11 family/link pairs"
  },
  {
   "property": "C16",
   "status": "proved",
   "theorems": [
    "GLM.C16_nat_param"
   ],
   "note": "exact arithmetic"
  },
  {
   "property": "C17",
   "status": "proved",
   "theorems": [
    "GLM.C17_d_nat_param"
   ],
   "note": "exact arithmetic"
  },
  {
   "property": "C18",
   "status": "proved",
   "theorems": [
    "GLM.C18_exponential_family",
    "GLM.C18_covers"
   ],
   "note": "exact arithmetic"
  },
  {
   "property": "C19",
   "status": "proved",
   "theorems": [
    "GLM.C19_log_like_natural"
   ],
   "note": "exact arithmetic"
  },
  {
   "property": "C20",
   "status": "proved",
   "theorems": [
    "GLM.C20_saturated_is_sup",
    "GLM.C20_saturated_attained"
   ],
   "note": "exact arithmetic; the deviance consequence is under C36"
  },
  {
   "property": "C21",
   "status": "proved",
   "theorems": [
    "GLM.C21_mean_range",
    "GLM.C21_mean_range_explicit",
    "GLM.C21_reciprocal_needs_negative"
   ],
   "note": "exact arithmetic"
  },
  {
   "property": "C22",
   "status": "proved",
   "theorems": [
    "GLM.C22_newton_steps",
    "GLM.C22_fixed_point",
    "GLM.C22_stationary_start"
   ],
   "note": "Exact linear algebra (Env.Exact); L1 not active."
  },
  {
   "property": "C23",
   "status": "proved",
   "theorems": [
    "GLM.C23_geometric"
   ],
   "note": "Exact linear algebra; the error after k steps is exactly (eps/(1+eps))^k times the initial error."
  },
  {
   "property": "C24",
   "status": "proved",
   "theorems": [
    "GLM.C24_ok",
    "GLM.C24_err",
    "GLM.C24_budget_ok",
    "GLM.C24_budget_err"
   ],
   "note": "every arithmetic, every environment"
  },
  {
   "property": "C25",
   "status": "proved",
   "theorems": [
    "GLM.C25_best_of_history",
    "GLM.transCmp_f64"
   ],
   "note": "every arithmetic whose total_cmp is a total order; proved for the reals and for f64 bit patterns"
  },
  {
   "property": "C26",
   "status": "proved",
   "theorems": [
    "GLM.C26_monotone"
   ],
   "note": "exact arithmetic"
  },
  {
   "property": "C27",
   "status": "proved",
   "theorems": [
    "GLM.C27_recorded_likelihoods",
    "GLM.C27_error_history"
   ],
   "note": "every arithmetic"
  },
  {
   "property": "C28",
   "status": "proved",
   "theorems": [
    "GLM.C28_only_improvements",
    "GLM.C28_line_search",
    "GLM.C28_zero_tolerance_diverges",
    "GLM.C28_fit_returns"
   ],
   "note": "exact arithmetic; the improvement part for every arithmetic"
  },
  {
   "property": "C29",
   "status": "proved",
   "theorems": [
    "GLM.C29_global_optimum",
    "GLM.C29_unique_optimum",
    "GLM.C29_fixed_point"
   ],
   "note": "Proved for every pair except inverse Gaussian with log link (whose log-likelihood is not concave), with L1 and L2 penalties."
  },
  {
   "property": "C30",
   "status": "proved",
   "theorems": [
    "GLM.C30_families",
    "GLM.C30_no_linalg_error",
    "GLM.C30_ridge_posDef",
    "GLM.C30_fullRank_posDef"
   ],
   "note": "Exact linear algebra, positive machine epsilon."
  },
  {
   "property": "C31",
   "status": "proved",
   "theorems": [
    "GLM.C31_selection",
    "GLM.C31_penalty"
   ],
   "note": ""
  },
  {
   "property": "C32",
   "status": "proved",
   "theorems": [
    "GLM.C32_gradient",
    "GLM.C32_supergradient",
    "GLM.C32_ridge_newton"
   ],
   "note": "Gradient where differentiable (L1: coordinate non-zero or unpenalized), supergradient everywhere, ridge Newton terms."
  },
  {
   "property": "C33",
   "status": "proved",
   "theorems": [
    "GLM.C33_prox",
    "GLM.C33_dual"
   ],
   "note": "Soft thresholding is the unique proximal point; lifted to each entry of the ADMM dual update."
  },
  {
   "property": "C34",
   "status": "proved",
   "theorems": [
    "GLM.C34_invariant",
    "GLM.C34_unpenalized",
    "GLM.C34_fit"
   ],
   "note": "Any sequence of updates; and the regularizer of every successful L1 fit, whose residual norms are within tolerance."
  },
  {
   "property": "C35",
   "status": "proved",
   "theorems": [
    "GLM.C35_step",
    "GLM.C35_kkt",
    "GLM.C35_optimum",
    "GLM.C35_fixed_point",
    "GLM.C35_kkt_conversely",
    "GLM.C35_zero_start"
   ],
   "note": "Exact linear algebra over the reals. Fixed points with dual = coefficients are exactly the KKT points; they maximize the penalized log-likelihood for log-concave families (all pairs except inverse Gaussian with log link)."
  },
  {
   "property": "C36",
   "status": "proved",
   "theorems": [
    "GLM.C36_deviance",
    "GLM.C36_lr_self",
    "GLM.C36_lr",
    "GLM.C36_resid_dev",
    "GLM.C36_nonneg",
    "GLM.C36_zero_iff",
    "GLM.C36_linear"
   ],
   "note": "Every family and option; non-negativity for valid families and admissible responses."
  },
  {
   "property": "C37",
   "status": "proved",
   "theorems": [
    "GLM.C37_intercept",
    "GLM.C37_optimal",
    "GLM.C37_no_intercept",
    "GLM.C37_empty_panics",
    "GLM.C37_offset",
    "GLM.C37_offset_linear",
    "GLM.C37_value"
   ],
   "note": "Includes the offset branch, which refits, and the panic for a model with no parameters."
  },
  {
   "property": "C38",
   "status": "proved",
   "theorems": [
    "GLM.C38_linear",
    "GLM.C38_linear_null",
    "GLM.C38_lr_null"
   ],
   "note": "Exact linear algebra."
  },
  {
   "property": "C39",
   "status": "proved",
   "theorems": [
    "GLM.C39_rsq",
    "GLM.C39_range",
    "GLM.C39_linear",
    "GLM.C39_regularized"
   ],
   "note": "Also proves what r_sq is under a penalty."
  },
  {
   "property": "C40",
   "status": "proved",
   "theorems": [
    "GLM.C40_fixes",
    "GLM.C40_idempotent",
    "GLM.C40_trace",
    "GLM.C40_leverage",
    "GLM.C40_residuals",
    "GLM.C40_available",
    "GLM.C40_linear"
   ],
   "note": "Exact linear algebra."
  },
  {
   "property": "C41",
   "status": "proved",
   "theorems": [
    "GLM.C41_fisher",
    "GLM.C41_covariance",
    "GLM.C41_unregularized"
   ],
   "note": "Exact linear algebra."
  },
  {
   "property": "C42",
   "status": "proved",
   "theorems": [
    "GLM.C42_fixed",
    "GLM.C42_free",
    "GLM.C42_no_weights",
    "GLM.C42_nonneg",
    "GLM.C42_underdetermined",
    "GLM.C62_dispersion"
   ],
   "note": ""
  },
  {
   "property": "C43",
   "status": "proved",
   "theorems": [
    "GLM.C43_formula",
    "GLM.C43_deletion",
    "GLM.C43_deleted_residual",
    "GLM.C43_least_squares",
    "GLM.C43_deleted_sse",
    "GLM.C43_studentized",
    "GLM.C43_unique_iff"
   ],
   "note": "exact arithmetic; deletion identities also hold with a ridge penalty"
  },
  {
   "property": "C44",
   "status": "proved",
   "theorems": [
    "GLM.C44_transparent",
    "GLM.C44_history",
    "GLM.C44_stable",
    "GLM.C44_no_stored_errors",
    "GLM.C44_mutation"
   ],
   "note": "For every arithmetic and linear algebra; C44_mutation shows that assigning the public field result between calls leaves stale values."
  },
  {
   "property": "C45",
   "status": "proved",
   "theorems": [
    "GLM.C45_sum",
    "GLM.C45_linear",
    "GLM.C45_poisson_counterexample",
    "GLM.C45_columns",
    "GLM.C45_decompose"
   ],
   "note": "The documented claim is proved for Linear and refuted for Poisson."
  },
  {
   "property": "C46",
   "status": "proved",
   "theorems": [
    "GLM.C46_external_scale"
   ],
   "note": ""
  },
  {
   "property": "C47",
   "status": "proved",
   "theorems": [
    "GLM.C47_ndf"
   ],
   "note": ""
  },
  {
   "property": "C48",
   "status": "proved",
   "theorems": [
    "GLM.C48_feature",
    "GLM.C48_intercept",
    "GLM.C48_column",
    "GLM.C48_only_column",
    "GLM.C48_only_column_panics",
    "GLM.C48_penalized_no_intercept"
   ],
   "note": "The last two are the exceptions named in the statement: a panic and a counterexample."
  },
  {
   "property": "C49",
   "status": "proved",
   "theorems": [
    "GLM.C49_canonical",
    "GLM.C49_expected",
    "GLM.C49_response_free"
   ],
   "note": "Canonical links: observed information; other links: expected information. No L1."
  },
  {
   "property": "C50",
   "status": "proved",
   "theorems": [
    "GLM.C50_score_gradient",
    "GLM.C50_lr_gradient"
   ],
   "note": "Every family and link; with L1, at coefficients where the penalty is differentiable."
  },
  {
   "property": "C51",
   "status": "proved",
   "theorems": [
    "GLM.C51_pearson",
    "GLM.C51_working",
    "GLM.C51_linear",
    "GLM.C51_standardized"
   ],
   "note": ""
  },
  {
   "property": "C52",
   "status": "proved",
   "theorems": [
    "GLM.C52_last_wins",
    "GLM.C52_default",
    "GLM.C52_commute",
    "GLM.C52_swap"
   ],
   "note": ""
  },
  {
   "property": "C53",
   "status": "proved",
   "theorems": [
    "GLM.C53_loo_exact",
    "GLM.C53_linear"
   ],
   "note": "loo_exact is characterised by an iff; for Linear without penalty it equals result - infl_coef"
  },
  {
   "property": "C54",
   "status": "proved",
   "theorems": [
    "GLM.C54_formulas",
    "GLM.C54_no_weights",
    "GLM.C54_bic_aic",
    "GLM.C54_standardization"
   ],
   "note": ""
  },
  {
   "property": "C55",
   "status": "proved",
   "theorems": [
    "GLM.C55_adjustments",
    "GLM.C55_dispersion_type"
   ],
   "note": "exact arithmetic"
  },
  {
   "property": "C56",
   "status": "proved",
   "theorems": [
    "GLM.C56_certified"
   ],
   "note": "Exact linear algebra; L1 not active."
  },
  {
   "property": "C57",
   "status": "proved",
   "theorems": [
    "GLM.C57_only_maxIter",
    "GLM.C57_exact_least_squares",
    "GLM.C57_converges"
   ],
   "note": "Exact linear algebra."
  },
  {
   "property": "C58",
   "status": "proved",
   "theorems": [
    "GLM.C58_posDef",
    "GLM.C58_no_linalg_error",
    "GLM.C58_families"
   ],
   "note": "Exact linear algebra over the reals."
  },
  {
   "property": "C59",
   "status": "proved",
   "theorems": [
    "GLM.C59_cooks"
   ],
   "note": "with frequency weights the distance is per copy of the observation"
  },
  {
   "property": "C60",
   "status": "proved",
   "theorems": [
    "GLM.C60_link",
    "GLM.C60_predictor",
    "GLM.C60_variance",
    "GLM.C60_log_like",
    "GLM.C60_saturated",
    "GLM.C60_outside"
   ],
   "note": "in the arithmetic NReal (Spec/Strict.lean), exact reals plus not-a-number"
  },
  {
   "property": "C61",
   "status": "proved",
   "theorems": [
    "GLM.C61_build",
    "GLM.C61_fit",
    "GLM.C61_start",
    "GLM.C61_boundary_start"
   ],
   "note": "reciprocal links, whose predictors are restricted, are treated in C63"
  },
  {
   "property": "C62",
   "status": "proved",
   "theorems": [
    "GLM.C62_statistics",
    "GLM.C62_criteria",
    "GLM.C62_criteria_zero_weight",
    "GLM.C62_dispersion",
    "GLM.C62_residuals",
    "GLM.C62_leverage",
    "GLM.C62_covariance",
    "GLM.C62_standardized",
    "GLM.C62_predict"
   ],
   "note": ""
  },
  {
   "property": "C63",
   "status": "proved",
   "theorems": [
    "GLM.C63_stays_defined",
    "GLM.C63_stuck"
   ],
   "note": "Stated in the arithmetic with not-a-number of Spec/Strict.lean. Unlike floats it has no infinities: ln 0 and x/0 are not-a-number."
  },
  {
   "property": "C64",
   "status": "proved",
   "theorems": [
    "GLM.C64_lr",
    "GLM.C64_lr_mono",
    "GLM.C64_wald_fixed",
    "GLM.C64_wald_free",
    "GLM.C64_exact",
    "GLM.C64_exact_iff",
    "GLM.realDists_lawful"
   ],
   "note": "The distribution functions of statrs are assumed to satisfy Dists.Lawful, which realDists_lawful proves of the textbook distributions built from Mathlib's measures."
  },
  {
   "property": "C65",
   "status": "proved",
   "theorems": [
    "GLM.C65_exact_eq_wald",
    "GLM.lin_devWithout",
    "GLM.realDists_square"
   ],
   "note": "Assumes the square law of the t distribution (Dists.SquareLaw), which realDists_square proves of the textbook distributions; exact arithmetic with machine epsilon zero."
  },
  {
   "property": "C66",
   "status": "proved",
   "theorems": [
    "GLM.C66_moments",
    "GLM.C66_accepts",
    "GLM.C66_no_panic",
    "GLM.C66_quantile",
    "GLM.C66_linear"
   ],
   "note": "statrs constructors and distribution functions are represented by Mathlib's measures (realDists); underflow guards are modelled, excluded by InRange where they change the parameters; gamma with mean exactly 0 is left out of C66_accepts"
  },
  {
   "property": "C67",
   "status": "proved",
   "theorems": [
    "GLM.C67_units"
   ],
   "note": "Over the reals. Features must vary (weighted): a constant feature has scale 1 whatever its unit, so without intercept it is not unit-invariant."
  },
  {
   "property": "C68",
   "status": "proved",
   "theorems": [
    "GLM.C68_gamma_is_exponential",
    "GLM.C68_binomial_is_logistic"
   ],
   "note": "The binomial part needs machine epsilon 0 (the epsilon added to the variances is not multiplied by N) and, for the default start, a regular Gram matrix."
  },
  {
   "property": "C69",
   "status": "proved",
   "theorems": [
    "GLM.C69_row_order",
    "GLM.C69_build"
   ],
   "note": "Over the reals; floating-point sums depend on the order."
  },
  {
   "property": "C70",
   "status": "proved",
   "theorems": [
    "GLM.C70_ascent",
    "GLM.C70_zero_tolerance",
    "GLM.C70_zero_tolerance_optimum",
    "GLM.C70_same_result",
    "GLM.C70_forward"
   ],
   "note": "exact arithmetic, no L1; the result and competitors are assumed to have admissible means"
  },
  {
   "property": "C71",
   "status": "proved",
   "theorems": [
    "GLM.C71_suboptimality",
    "GLM.C71_distance",
    "GLM.C71_exists"
   ],
   "note": "with an intercept the intercept component of the score must be zero; existence without intercept"
  },
  {
   "property": "C72",
   "status": "proved",
   "theorems": [
    "GLM.C72_default_start",
    "GLM.C72_same_as_explicit",
    "GLM.C72_standardization_free",
    "GLM.C72_fallback",
    "GLM.C72_zero_start"
   ],
   "note": "exact linear algebra except for the fallback"
  },
  {
   "property": "C73",
   "status": "proved",
   "theorems": [
    "GLM.C73_lawful",
    "GLM.C73_score_gradient",
    "GLM.C73_expected_information",
    "GLM.C73_newton_steps",
    "GLM.C73_deviance_nonneg",
    "GLM.C73_shipped",
    "GLM.C73_affine"
   ],
   "note": "links are arbitrary functions meeting the documented contract on an open set of linear predictors; real arithmetic"
  },
  {
   "property": "C74",
   "status": "proved",
   "theorems": [
    "GLM.C74_feature_order",
    "GLM.C74_build",
    "GLM.C74_pvalue_exact"
   ],
   "note": "Lockstep simulation of the whole iteration, including the ADMM state of L1 penalties. The hypothesis on the linear algebra (numbering independence) is met by exact linear algebra (exactEnv_orderFree); pivoting in floating point meets it up to rounding only. Without an intercept and with a penalty dev_without_covariate exempts the first remaining feature, so the exact p-values are excluded there."
  },
  {
   "property": "C75",
   "status": "proved",
   "theorems": [
    "GLM.C75_intercept_column"
   ],
   "note": "Holds for any linear algebra: the systems solved are literally the same. The omnibus tests are excluded, since their null model is the intercept-only model only when the intercept is declared."
  },
  {
   "property": "C76",
   "status": "proved",
   "theorems": [
    "GLM.C76_score",
    "GLM.C76_linear_coef",
    "GLM.C76_linear_resid",
    "GLM.C76_linear_deviance",
    "GLM.C76_linear_dispersion",
    "GLM.C76_ridge_covariance"
   ],
   "note": "Frequency weights excluded: a repeated observation is not an independent one. With unequal variance weights the expected deviance is phi (n-K) while dispersion() divides by (1-K/n_eff) sum w, so unbiasedness of dispersion() is claimed only without variance weights."
  },
  {
   "property": "C77",
   "status": "proved",
   "theorems": [
    "GLM.C77_repeated_rows",
    "GLM.C77_stops_first",
    "GLM.C77_same_fit",
    "GLM.C77_statistics"
   ],
   "note": "The tests against the null model are compared without an offset or without an intercept: with both, the null model is fitted from its own default start with a tolerance that counts rows. The default start is not compared because it uses the unweighted mean of y."
  },
  {
   "property": "C78",
   "status": "proved",
   "theorems": [
    "GLM.C78_solution",
    "GLM.C78_rate",
    "GLM.C78_only_maxIter",
    "GLM.C78_converges",
    "GLM.C78_exact_ridge"
   ],
   "note": "Exact real arithmetic; the target is the minimizer of the weighted sum of squares plus l2 times the squared (standardized) slopes. C23 and C57 are the case l2 = 0."
  },
  {
   "property": "C79",
   "status": "proved",
   "theorems": [
    "GLM.C79_run",
    "GLM.C79_start_given",
    "GLM.C79_start_default",
    "GLM.C79_statistics",
    "GLM.C79_itself",
    "GLM.C79_offset",
    "GLM.C79_mixed_features",
    "GLM.C79_groups"
   ],
   "note": "Over the reals with exact linear algebra that reports every singular matrix. The course of the fits is compared at zero tolerance, because the stopping rule and the line search measure coefficients in the coding that is fitted; the statistics are compared at any tolerance. Without L1 penalty."
  },
  {
   "property": "C80",
   "status": "proved",
   "theorems": [
    "GLM.C80_balance",
    "GLM.C80_means",
    "GLM.C80_ratios",
    "GLM.C80_features",
    "GLM.C80_groups",
    "GLM.C80_explained",
    "GLM.C80_rsq"
   ],
   "note": "Calibration of fitted means: with the size of the intercept score as bound, for all canonical links and penalties; per feature without penalties; group means for every family and link; decomposition of the sum of squares and r_sq for least squares."
  },
  {
   "property": "C81",
   "status": "proved",
   "theorems": [
    "GLM.C81_deviance",
    "GLM.C81_resid_dev",
    "GLM.C81_intercept",
    "GLM.C81_reciprocal"
   ],
   "note": "Textbook unit deviances (Spec/Deviance) for all families and links, boundary responses included, and their simplifications at the optimum."
  },
  {
   "property": "C82",
   "status": "proved",
   "theorems": [
    "GLM.C82_build",
    "GLM.C82_run",
    "GLM.C82_statistics",
    "GLM.C82_errors",
    "GLM.C82_tests",
    "GLM.C82_linear"
   ],
   "note": "Exact real arithmetic. Runs correspond exactly at tolerance zero (any tolerance for exchanged labels; any tolerance for unpenalized Linear with epsilon zero). Poisson and inverse Gaussian runs additionally need machine epsilon zero in the step test. L1 penalties are excluded."
  },
  {
   "property": "C83",
   "status": "proved",
   "theorems": [
    "GLM.C83_mean",
    "GLM.C83_mean_reciprocal",
    "GLM.C83_predict",
    "GLM.C83_variance",
    "GLM.C83_information",
    "GLM.C83_sums",
    "GLM.C83_mean_monotone",
    "GLM.C83_mean_monotone_binary",
    "GLM.C83_trials",
    "GLM.C83_logistic_term",
    "GLM.C83_logistic_likelihood",
    "GLM.C83_reciprocal_at_zero",
    "GLM.C83_residual_nan",
    "GLM.C83_cloglog_nan",
    "GLM.C83_cloglog_nan_binary64"
   ],
   "note": "Proved for every FloatFormat (Spec/Ieee); binary64 and binary32 are constructed with round-to-nearest, ties to even, and correctly rounded library functions. The order of summation and the fused operations in inner products are part of the format, so the claims hold for each of them. The information claim excludes standardized data, L1 penalties and the reciprocal square link."
  },
  {
   "property": "C84",
   "status": "proved",
   "theorems": [
    "GLM.C84_line_search",
    "GLM.C84_fit_returns",
    "GLM.C84_fit_returns_binary64",
    "GLM.C84_fit_returns_binary32",
    "GLM.C84_least",
    "GLM.C84_zero_tolerance",
    "GLM.C84_zero_tolerance_hangs",
    "GLM.C84_example_hangs"
   ],
   "note": "In floating-point arithmetic with rounding. The bound is the fuel of the modelled line search, so a fit with at least that much fuel is the real loop run to its end. The last three theorems are the negative part. Holds for every order of summation."
  },
  {
   "property": "C85",
   "status": "proved",
   "theorems": [
    "GLM.C85_increases",
    "GLM.C85_increases_max_iter",
    "GLM.C85_last_step",
    "GLM.C85_never_worse",
    "GLM.C85_nan_start",
    "GLM.C85_reported",
    "GLM.C85_example_moves",
    "GLM.C85_example_nan_start"
   ],
   "note": "In floating-point arithmetic with rounding. Assumes that the starting point and the vectors returned by the solver are values of the format (finite, infinite or NaN), which is all that a program can store. Holds for every order of summation; the same order is used each time for arrays of the same shape."
  },
  {
   "property": "C86",
   "status": "proved",
   "theorems": [
    "GLM.C86_sum",
    "GLM.C86_dot",
    "GLM.C86_left",
    "GLM.C86_fused",
    "GLM.C86_mean",
    "GLM.C86_predict",
    "GLM.C86_binary64",
    "GLM.C86_binary32",
    "GLM.C86_logistic_f64",
    "GLM.C86_example"
   ],
   "note": "The exponentials of binary64 and binary32 are taken to be correctly rounded; for a library with larger errors Accurate holds with a larger u. The order of summation is arbitrary (unrolled and blocked sums, fused multiply-add). C86_example is a fit that meets the hypotheses."
  },
  {
   "property": "C87",
   "status": "proved",
   "theorems": [
    "GLM.C87_exists",
    "GLM.C87_optimum",
    "GLM.C87_runaway",
    "GLM.C87_separated_score",
    "GLM.C87_always",
    "GLM.C87_ridge",
    "GLM.C87_ridge_intercept",
    "GLM.C87_negative",
    "GLM.C87_l1"
   ],
   "note": "All families but inverse Gaussian with the log link, whose log-likelihood is not concave. C87_exists to C87_ridge_intercept and C87_l1 (L1 penalty): pairs defined for every linear predictor. C87_negative: canonical links of exponential, gamma and inverse Gaussian."
  },
  {
   "property": "C88",
   "status": "proved",
   "theorems": [
    "GLM.C88_optimal",
    "GLM.C88_optimal_l1",
    "GLM.C88_nested",
    "GLM.C88_no_gain",
    "GLM.C88_rsq",
    "GLM.C88_stronger_l2",
    "GLM.C88_stronger_l1",
    "GLM.C88_shrinkage"
   ],
   "note": "Exact real arithmetic. Optimality is stated with lr_test_against only, and the two criteria say when a fit is optimal. C88_nested allows any options for the smaller model, and different standardization for the two."
  },
  {
   "property": "C89",
   "status": "proved",
   "theorems": [
    "GLM.C89_necessary",
    "GLM.C89_optimal_iff",
    "GLM.C89_kept",
    "GLM.C89_grouping",
    "GLM.C89_identical",
    "GLM.C89_useless",
    "GLM.C89_dropped",
    "GLM.C89_threshold"
   ],
   "note": "Exact real arithmetic, about optimal fits; C34, C35 and C58 are about how the L1 iteration gets there."
  },
  {
   "property": "C90",
   "status": "proved",
   "theorems": [
    "GLM.C90_local",
    "GLM.C90_canonical",
    "GLM.C90_canonical_exists",
    "GLM.C90_not_separated",
    "GLM.C90_log",
    "GLM.C90_invGaussLog",
    "GLM.C90_cloglog"
   ],
   "note": "Exact arithmetic, no L1 penalty. C90_local states the condition on the curvature under which it holds for any pair; the others check that condition."
  },
  {
   "property": "C91",
   "status": "proved",
   "theorems": [
    "GLM.C91_exists_unique",
    "GLM.C91_run",
    "GLM.C91_converges",
    "GLM.C91_null",
    "GLM.C91_intercept_only",
    "GLM.C91_no_columns"
   ],
   "note": "Exact arithmetic, Linear family (C91_no_columns: every family). Convergence is proved when the penalty parameter is eventually monotone; C103 shows that this cannot be dropped: there are fits in which it is raised and lowered for ever and that never succeed. smoothLik, moveCost and l1Vec (Spec/Admm) are the penalized log-likelihood, the eps-weighted price of a step and the L1 strengths on the standardized scale."
  },
  {
   "property": "C92",
   "status": "proved",
   "theorems": [
    "GLM.C92_stop",
    "GLM.C92_excess"
   ],
   "note": "The last linear system of a successful L1 fit, how the iteration may end, and the distance to the optimum of the penalized log-likelihood for the concave families. Vocabulary in Spec/Admm. Exact arithmetic."
  },
  {
   "property": "C93",
   "status": "proved",
   "theorems": [
    "GLM.C93_row",
    "GLM.C93_contrast",
    "GLM.C93_sign",
    "GLM.C93_linear",
    "GLM.C93_ratio",
    "GLM.C93_odds",
    "GLM.C93_hazard",
    "GLM.C93_rate",
    "GLM.C93_inverse_square",
    "GLM.C93_one_feature",
    "GLM.C93_exposure"
   ],
   "note": "Predictions of new rows, for fits in exact arithmetic. Vocabulary in Spec/Effects."
  },
  {
   "property": "C94",
   "status": "proved",
   "theorems": [
    "GLM.C94_exchange",
    "GLM.C94_own",
    "GLM.C94_canonical",
    "GLM.C94_contraction",
    "GLM.C94_ridge",
    "GLM.C94_weight",
    "GLM.C94_left_out",
    "GLM.C94_cross_validation"
   ],
   "note": "Pairs of optimal fits. Optimality is a hypothesis here; C88 and C89 show which fits have it. Exact arithmetic."
  },
  {
   "property": "C95",
   "status": "proved",
   "theorems": [
    "GLM.C95_term",
    "GLM.C95_natural",
    "GLM.C95_likelihood",
    "GLM.C95_penalized",
    "GLM.C95_fit",
    "GLM.C95_history",
    "GLM.C95_best_step",
    "GLM.C95_never_worse",
    "GLM.C95_logistic_f64"
   ],
   "note": "Forward error bounds for the log-likelihood, the penalized objective and the reported fit. Bounds and conditions in Spec/LikeAccuracy. accurateLogs_binary64 and accurateLogs_binary32 show that f64 and f32 meet the hypotheses; C95_example and C95_logistic_example are concrete cases. Complementary log-log is outside the statement; standardized features are C97."
  },
  {
   "property": "C96",
   "status": "proved",
   "theorems": [
    "GLM.C96_work",
    "GLM.C96_score",
    "GLM.C96_suboptimality",
    "GLM.C96_distance",
    "GLM.C96_optimum"
   ],
   "note": "Forward error bound for the score and what it certifies about the exact optimum, for any linear solver. Bounds and conditions in Spec/ScoreAccuracy. C96_example is a ridge regression in f64 whose solver returns a wrong answer. Complementary log-log is outside the statement; standardized features are C97."
  },
  {
   "property": "C97",
   "status": "proved",
   "theorems": [
    "GLM.C97_features",
    "GLM.C97_coefficients",
    "GLM.C97_round_trip",
    "GLM.C97_predictor",
    "GLM.C97_likelihood",
    "GLM.C97_score",
    "GLM.C97_suboptimality",
    "GLM.C97_distance",
    "GLM.C97_optimum"
   ],
   "note": "Standardized features, the default of the builder. Spec/StandardAccuracy has the exact problem that the stored numbers stand for (readBack, exactBack) and the bounds. C97_example is an f64 fit that meets every condition. Complementary log-log is outside the statement."
  },
  {
   "property": "C98",
   "status": "proved",
   "theorems": [
    "GLM.C98_scale_positive",
    "GLM.C98_accuracy",
    "GLM.C98_moderate",
    "GLM.C98_f64",
    "GLM.C98_constant",
    "GLM.C98_constant_missed"
   ],
   "note": "C98_accuracy covers weights and frequencies; C98_moderate and C98_f64 state it for unweighted data in simple terms. C98_example applies it to the f64 column 2, 5, 8, C98_example_constant has a constant column that is recognized, C98_constant_missed one that is scaled by rounding error (finding 30)."
  },
  {
   "property": "C99",
   "status": "proved",
   "theorems": [
    "GLM.C99_deviance",
    "GLM.C99_deviance_sign",
    "GLM.C99_aic",
    "GLM.C99_bic",
    "GLM.C99_dispersion",
    "GLM.C99_residual",
    "GLM.C99_standardized",
    "GLM.C99_moderate",
    "GLM.C99_f64"
   ],
   "note": "Not for the complementary log-log link (its likelihood has no error bound here)."
  }
 ]
}
