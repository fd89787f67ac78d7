{"id": "C01", "title": "Builder detects inconsistent shapes", "statement": "ModelBuilder::data(y,x)...build() returns BadInput whenever no setting was given twice and y.len() differs from the row count of x, or an offset was supplied whose length differs from y.len(); a successful build therefore has y, x and the offset of equal length.", "quantifier": "all y, x, offsets, weights of every length, and every sequence of builder calls", "why_tests_cant": "the set of shapes and call sequences is infinite", "anchors": ["src/model.rs: ModelBuilderData::build"]}
{"id": "C02", "title": "Duplicate settings are always an error", "statement": "If linear_offset, freq_weights or var_weights is called twice or more anywhere in the chain of builder calls, build() returns BuildError, whatever the data and the other calls are; if none is called twice, build() never returns BuildError.", "quantifier": "all finite sequences of builder calls and all data", "why_tests_cant": "sequences of calls are unbounded", "anchors": ["src/model.rs: linear_offset", "src/model.rs: freq_weights", "src/model.rs: var_weights", "src/model.rs: build"]}
{"id": "C03", "title": "Builder calls commute", "statement": "Permuting the chain of builder calls (with no setting given twice) does not change the outcome of build().", "quantifier": "all permutations of all finite call sequences without duplicates", "why_tests_cant": "factorially many orders", "anchors": ["src/model.rs: ModelBuilderData"]}
{"id": "C04", "title": "Response domain is enforced", "statement": "build() accepts a response vector only if every entry satisfies the family's admission test (logistic floats in [0,1]; exponential, gamma and inverse Gaussian: not y <= 0; linear, Poisson and binomial: every representable value), and otherwise reports InvalidY.", "quantifier": "all response vectors of every family and length", "why_tests_cant": "infinitely many response values", "anchors": ["src/response/linear.rs: into_float", "src/response/logistic.rs: into_float", "src/response/binomial.rs: into_float", "src/response/poisson.rs: into_float", "src/response/exponential.rs: into_float", "src/response/gamma.rs: into_float", "src/response/inverse_gaussian.rs: into_float", "src/model.rs: build"]}
{"id": "C05", "title": "Standardized columns have weighted mean 0 and unit sample variance", "statement": "After a default build with an intercept, every feature column of the internal design matrix has total-weighted mean zero, and bias-corrected total-weighted variance one unless the input column is constant on the weighted observations, in which case it is exactly zero there.", "quantifier": "all data matrices and all non-negative weights with positive total and n_eff > 1", "why_tests_cant": "real-valued data of any size", "anchors": ["src/data.rs: Standardizer::from_dataset", "src/data.rs: finalize_design_matrix"]}
{"id": "C06", "title": "No intercept means no centring", "statement": "With no_constant(), standardization rescales columns by a positive factor and never shifts them, so a zero entry stays zero.", "quantifier": "all data matrices and weights", "why_tests_cant": "real-valued data of any size", "anchors": ["src/data.rs: Standardizer::from_dataset"]}
{"id": "C07", "title": "Standardization is lossless", "statement": "The original design matrix is recovered exactly (in exact arithmetic) from the internal one, and transforming coefficients internal->external->internal and external->internal->external are identities.", "quantifier": "all data, weights, coefficient vectors, intercept and standardize flags", "why_tests_cant": "uncountably many inputs", "anchors": ["src/data.rs: x_orig", "src/data.rs: inverse_transform_beta", "src/data.rs: transform_beta"]}
{"id": "C08", "title": "The linear predictor does not depend on standardization", "statement": "For any external coefficient vector, the internal design matrix applied to the transformed coefficients gives the same linear predictor (with offset) as the raw design matrix applied to the coefficients.", "quantifier": "all data, weights, offsets, coefficients, flags", "why_tests_cant": "uncountably many inputs", "anchors": ["src/data.rs: linear_predictor_std", "src/data.rs: transform_beta"]}
{"id": "C09", "title": "predict on the training data reproduces the fitted values", "statement": "fit.predict(x_train, offset) equals the fitted means used by every residual, i.e. y - resid_resp().", "quantifier": "all models, options and fits (any successful fit)", "why_tests_cant": "all data and all iteration histories", "anchors": ["src/fit.rs: predict", "src/fit.rs: resid_resp", "src/fit.rs: Fit::new"]}
{"id": "C10", "title": "Likelihood, score and Fisher information do not depend on standardization", "statement": "Without regularization, log-likelihood, score(beta), fisher(beta), lr/wald/score tests against any external alternative evaluated on the standardized model equal those on the model built with no_standardize().", "quantifier": "all data, weights, offsets, families, links, coefficient vectors", "why_tests_cant": "uncountably many inputs", "anchors": ["src/fit.rs: score", "src/fit.rs: fisher", "src/fit.rs: wald_test_against", "src/fit.rs: lr_test_against", "src/fit.rs: score_test_against", "src/data.rs: inverse_transform_fisher", "src/data.rs: inverse_transform_score"]}
{"id": "C11", "title": "Frequency weights mean repeated rows", "statement": "A dataset with frequency weights f_i has the same log-likelihood, IRLS equation, score, Fisher information, n_obs, n_eff, standardizer and deviance as the dataset in which row i is repeated f_i times.", "quantifier": "all datasets, all frequency vectors, all coefficient vectors, all families", "why_tests_cant": "all multiplicities", "anchors": ["src/data.rs: apply_freq_weights", "src/data.rs: freq_sum", "src/data.rs: x_conj", "src/glm.rs: log_like"]}
{"id": "C12", "title": "Zero frequency means absent", "statement": "An observation with frequency zero contributes nothing: likelihood, IRLS equation, score, Fisher information and deviance are those of the dataset with that row removed.", "quantifier": "all datasets, all positions", "why_tests_cant": "all data", "anchors": ["src/data.rs: apply_freq_weights", "src/fit.rs: loo_exact"]}
{"id": "C13", "title": "Rescaling variance weights", "statement": "Multiplying all variance weights by c>0 leaves n_eff, the standardizer and every unregularized IRLS step unchanged and multiplies log-likelihood, score, Fisher information and deviance by c. With the L2 strength multiplied too and tolerance zero, the fit visits the same coefficients from the same start, takes the same number of steps and ends the same way. Fits that report the same coefficients have the same fitted values, predictions, dispersion, leverages, influences, working and partial residuals and R^2; deviance, rss, likelihood, score, information, Cook's distances and all test statistics are multiplied by c; Pearson, deviance, standardized and studentized residuals and z statistics by its root; the covariance is divided by c; aic and bic move by the change of the deviance or likelihood and by -2 log c per observation.", "quantifier": "all datasets, families, c > 0, starts, budgets, machine epsilons and L2 strengths", "why_tests_cant": "uncountably many inputs and unboundedly long iterations", "anchors": ["src/data.rs: n_eff", "src/data.rs: from_dataset", "src/irls.rs: irls_mat_vec", "src/fit.rs: covariance", "src/fit.rs: dispersion", "src/fit.rs: resid_student"]}
{"id": "C14", "title": "Effective sample size bounds", "statement": "For non-negative weights with positive total, n_eff is positive and at most the number of observations n_obs, with equality when all variance weights are equal.", "quantifier": "all weight vectors", "why_tests_cant": "uncountably many inputs", "anchors": ["src/data.rs: n_eff", "src/data.rs: n_obs"]}
{"id": "C15", "title": "Every link and its inverse are mutually inverse", "statement": "For each provided family/link, g^-1(g(mu)) = mu on the response-mean domain and g(g^-1(omega)) = omega on the linear-predictor domain.", "quantifier": "all real mu / omega in the stated domains, all binomial N", "why_tests_cant": "continuum of inputs; the repository only samples a dozen points", "anchors": ["src/response/linear.rs: link::linear::func, func_inv", "src/response/logistic.rs: link::logistic::func, func_inv", "src/response/binomial.rs: link::binomial::func, func_inv", "src/response/poisson.rs: link::poisson::func, func_inv", "src/response/exponential.rs: link::exponential::func, func_inv", "src/response/gamma.rs: link::gamma::func, func_inv", "src/response/inverse_gaussian.rs: link::inverse_gaussian::func, func_inv"]}
{"id": "C16", "title": "nat_param is the canonical link of the mean", "statement": "For every provided link, nat_param(omega) = g0(g^-1(omega)) with g0 the family's canonical link.", "quantifier": "all linear predictors", "why_tests_cant": "continuum", "anchors": ["src/link.rs: Transform::nat_param", "src/response/logistic.rs", "src/response/exponential.rs", "src/response/gamma.rs", "src/response/inverse_gaussian.rs"]}
{"id": "C17", "title": "d_nat_param is the derivative and equals 1/(g'(mu)V(mu))", "statement": "For every provided link, d_nat_param is the derivative of nat_param and satisfies eta'(omega) = 1/(g'(mu) V(mu)).", "quantifier": "all linear predictors in the domain", "why_tests_cant": "continuum; tests use finite differences", "anchors": ["src/link.rs: Transform::d_nat_param"]}
{"id": "C18", "title": "Exponential-family identities", "statement": "For every family the canonical inverse link is A' and the variance function is A'' (as functions of the natural parameter).", "quantifier": "all natural parameters in the domain", "why_tests_cant": "continuum", "anchors": ["src/response/linear.rs: log_partition, variance", "src/response/logistic.rs: log_partition, variance", "src/response/binomial.rs: log_partition, variance", "src/response/poisson.rs: log_partition, variance", "src/response/exponential.rs: log_partition, variance", "src/response/gamma.rs: log_partition, variance", "src/response/inverse_gaussian.rs: log_partition, variance", "src/glm.rs: Glm"]}
{"id": "C19", "title": "Specialised likelihoods equal the defining formula", "statement": "log_like_natural(y, eta) = y*eta - A(eta) for every family, including the overridden logistic version.", "quantifier": "all y and eta", "why_tests_cant": "continuum", "anchors": ["src/glm.rs: log_like_natural", "src/response/logistic.rs: log_like_natural"]}
{"id": "C20", "title": "The saturated likelihood is the best attainable", "statement": "log_like_natural(y, eta) <= log_like_sat(y) for every admissible y and natural parameter, with equality at eta = g0(y) when y is interior; hence deviance contributions and the deviance are non-negative.", "quantifier": "all y, eta, all fits", "why_tests_cant": "continuum", "anchors": ["src/response/linear.rs: log_like_sat", "src/response/logistic.rs: log_like_sat", "src/response/binomial.rs: log_like_sat", "src/response/poisson.rs: log_like_sat", "src/response/exponential.rs: log_like_sat", "src/response/gamma.rs: log_like_sat", "src/response/inverse_gaussian.rs: log_like_sat", "src/fit.rs: deviance_terms", "src/fit.rs: deviance"]}
{"id": "C21", "title": "Predicted means lie in the response range", "statement": "For links that promise it (logit, cloglog, log, binomial logit) the predicted mean is in (0,1), (0,inf) or (0,N) for every linear predictor.", "quantifier": "all linear predictors", "why_tests_cant": "continuum", "anchors": ["src/response/linear.rs: func_inv", "src/response/logistic.rs: func_inv", "src/response/binomial.rs: func_inv", "src/response/poisson.rs: func_inv", "src/response/exponential.rs: func_inv", "src/response/gamma.rs: func_inv", "src/response/inverse_gaussian.rs: func_inv"]}
{"id": "C22", "title": "The IRLS step solves the regularized Newton equation", "statement": "Without L1, a step from beta to beta' satisfies (I_eps(beta) + Lambda)(beta' - beta) = score_reg(beta), where score_reg is the public score function's internal value; in particular beta' = beta exactly when the regularized score vanishes.", "quantifier": "all datasets, families, links, weights, l2 >= 0, all beta", "why_tests_cant": "continuum", "anchors": ["src/irls.rs: irls_mat_vec", "src/regularization.rs: next_guess"]}
{"id": "C23", "title": "Least squares converges geometrically from any start", "statement": "For the Linear family each unregularized IRLS step multiplies the distance to the weighted-least-squares solution by eps/(1+eps), whatever the starting point.", "quantifier": "all full-rank data, weights, offsets, starting points", "why_tests_cant": "continuum", "anchors": ["src/irls.rs: irls_mat_vec", "src/response/linear.rs"]}
{"id": "C24", "title": "The iteration budget is respected exactly", "statement": "For every arithmetic (including NaN), fit() takes at most max_iter accepted steps; MaxIter is returned exactly when one more step would be taken, and then carries max_iter and a history of max_iter+1 steps; on success n_iter = history.len() <= max_iter.", "quantifier": "all data, options, regularizers and arithmetic behaviours", "why_tests_cant": "iteration histories are unbounded", "anchors": ["src/irls.rs: step_with", "src/irls.rs: Iterator::next", "src/glm.rs: regression"]}
{"id": "C25", "title": "The reported optimum is the best step of the history", "statement": "On success the result is a step of the history whose penalized likelihood is maximal in total_cmp order (the last such), or the initial guess if no step was taken; model_like is that step's likelihood.", "quantifier": "all histories, all arithmetic behaviours with total_cmp a total preorder", "why_tests_cant": "unbounded histories", "anchors": ["src/glm.rs: regression", "src/fit.rs: Fit::new"]}
{"id": "C26", "title": "Penalized likelihood strictly increases along the iteration without L1", "statement": "For unregularized and ridge fits each accepted step has strictly larger penalized likelihood than the one before (and than the initial guess), so the result is the last step and is never worse than the initial guess.", "quantifier": "all data, families, options, iteration histories", "why_tests_cant": "unbounded histories", "anchors": ["src/irls.rs: Iterator::next", "src/irls.rs: step_scale"]}
{"id": "C27", "title": "Recorded likelihoods are the likelihoods of the recorded guesses", "statement": "Every history entry's like equals data log-likelihood at its guess plus the penalty at its guess, and the fit's model_like equals that of its result.", "quantifier": "all histories, all arithmetic behaviours", "why_tests_cant": "unbounded histories", "anchors": ["src/irls.rs: step_with", "src/irls.rs: make_last_step"]}
{"id": "C28", "title": "Step halving terminates for positive tolerance and only returns improvements", "statement": "step halving ends after at most log(tol)/log(0.618...) + 1 evaluations when tol > 0 and returns 0 or a multiplier with strictly better objective; with tol = 0 it need not terminate.", "quantifier": "all objective functions and tolerances", "why_tests_cant": "loop bound depends on real-valued input", "anchors": ["src/irls.rs: step_scale"]}
{"id": "C29", "title": "A stationary canonical fit is the global optimum", "statement": "For canonical links, l2 >= 0 and no L1, a coefficient vector at which the IRLS step is stationary maximises the penalized likelihood over all admissible coefficient vectors.", "quantifier": "all data with non-negative weights, all families with canonical link", "why_tests_cant": "continuum of competitors", "anchors": ["src/irls.rs: Iterator::next", "src/glm.rs: log_like"]}
{"id": "C30", "title": "Ridge makes every IRLS system solvable", "statement": "With l2 > 0, non-negative weights and variances and (if there is an intercept) a positive total weight, the IRLS matrix is positive definite, so the step cannot fail with a linear-algebra error in exact arithmetic.", "quantifier": "all data including collinear and underdetermined designs, all beta", "why_tests_cant": "all designs", "anchors": ["src/regularization.rs: Ridge::irls_mat", "src/irls.rs: irls_mat_vec"]}
{"id": "C31", "title": "Regularizer selection and intercept exemption", "statement": "Null/Ridge/Lasso/ElasticNet is selected exactly by the signs of l1 and l2; the penalty equals l1*sum|b_j| + l2/2*sum b_j^2 over non-intercept internal coefficients; the intercept is never penalised; the penalty is zero at zero.", "quantifier": "all options, dimensions and coefficient vectors", "why_tests_cant": "continuum", "anchors": ["src/irls.rs: get_reg", "src/irls.rs: zero_first_maybe", "src/regularization.rs: likelihood"]}
{"id": "C32", "title": "The penalty gradient is the derivative of the penalty", "statement": "reg.gradient(0, beta) is the gradient of reg.likelihood at beta (for L1, at coordinates that are non-zero), and irls_mat/irls_vec are its Newton terms for ridge.", "quantifier": "all beta", "why_tests_cant": "continuum", "anchors": ["src/regularization.rs: gradient", "src/regularization.rs: irls_mat"]}
{"id": "C33", "title": "Soft thresholding is the L1 proximal map", "statement": "Each entry of the ADMM dual update is the unique minimiser of (z-x)^2/2 + lambda|z|.", "quantifier": "all real x and lambda >= 0", "why_tests_cant": "continuum", "anchors": ["src/regularization.rs: soft_thresh"]}
{"id": "C34", "title": "ADMM invariants hold after any history", "statement": "After any sequence of ADMM updates rho is positive (a power of two), |rho * cum_res_j| <= l1_j for every coordinate, and for unpenalised coordinates the residual is zero and the dual equals the coefficient.", "quantifier": "all sequences of coefficient vectors", "why_tests_cant": "unbounded histories", "anchors": ["src/regularization.rs: Lasso::prepare", "src/regularization.rs: update_rho", "src/regularization.rs: ElasticNet::prepare"]}
{"id": "C35", "title": "ADMM stationary points are L1 optima", "statement": "If the dual equals the coefficients and the next guess equals the guess, the KKT conditions of the L1/elastic-net problem hold and, for canonical links, the coefficients maximise the penalized likelihood.", "quantifier": "all data, l1, l2, families", "why_tests_cant": "continuum", "anchors": ["src/regularization.rs: Lasso::next_guess", "src/regularization.rs: ElasticNet"]}
{"id": "C36", "title": "lr_test_against the result is zero and deviance identities", "statement": "deviance() = 2*(l_sat - l(result)) with total weights; the frequency-weighted sum of squared deviance residuals equals deviance(); for Linear it equals rss(); lr_test_against(result) = 0.", "quantifier": "all fits", "why_tests_cant": "all data and histories", "anchors": ["src/fit.rs: deviance", "src/fit.rs: resid_dev", "src/fit.rs: rss", "src/fit.rs: lr_test_against"]}
{"id": "C37", "title": "Null model is the optimal intercept-only model", "statement": "Without offset, null_like() equals the log-likelihood at (g(ybar),0,...,0), and for canonical and provided links it is the maximum over all intercept-only models; without intercept it is the likelihood at zero.", "quantifier": "all data, weights, families", "why_tests_cant": "continuum", "anchors": ["src/fit.rs: null_model_fit", "src/fit.rs: null_like"]}
{"id": "C38", "title": "LR, Wald and score tests coincide for linear models", "statement": "For an exact unregularized Linear fit, lr_test_against, wald_test_against and score_test_against agree for every alternative, and lr_test, wald_test and score_test agree.", "quantifier": "all data, weights, offsets, alternatives", "why_tests_cant": "continuum", "anchors": ["src/fit.rs: lr_test", "src/fit.rs: wald_test", "src/fit.rs: score_test"]}
{"id": "C39", "title": "R squared is 1 - D/D0 and lies in [0,1]", "statement": "For an exact unregularized Linear fit with intercept, r_sq() = 1 - D/D0 and 0 <= r_sq <= 1.", "quantifier": "all data, weights", "why_tests_cant": "continuum", "anchors": ["src/fit.rs: r_sq"]}
{"id": "C40", "title": "Hat matrix is a projection", "statement": "Without regularization hat() is idempotent with trace K, leverages lie in [0,1] and sum to K; at a zero of the score hat()*(y - yhat) = 0.", "quantifier": "all data, weights, families", "why_tests_cant": "continuum", "anchors": ["src/fit.rs: hat", "src/fit.rs: leverage"]}
{"id": "C41", "title": "Fisher information and covariance are symmetric positive semidefinite", "statement": "fisher(beta) is symmetric positive semidefinite for non-negative weights; covariance() is symmetric positive semidefinite for non-negative dispersion and equals phi * fisher^-1 when unregularized.", "quantifier": "all data, weights, regularizers, beta", "why_tests_cant": "continuum", "anchors": ["src/fit.rs: fisher", "src/fit.rs: covariance"]}
{"id": "C42", "title": "Dispersion", "statement": "dispersion() is 1 for logistic, Poisson, binomial and exponential; for linear, gamma and inverse Gaussian it equals D/((1-K/n_eff)*sum w), which is D/(N-K) without variance weights, whenever K < n_eff.", "quantifier": "all fits", "why_tests_cant": "continuum", "anchors": ["src/fit.rs: dispersion"]}
{"id": "C43", "title": "One-step deletion is exact for linear models", "statement": "For Linear without regularization, result - infl_coef row i solves the weighted normal equations of the data without observation i; the externally studentized residual is computed from exactly that deletion fit.", "quantifier": "all data, weights, frequencies, observations i", "why_tests_cant": "continuum", "anchors": ["src/fit.rs: infl_coef", "src/fit.rs: deviance_terms_loo", "src/fit.rs: dispersion_loo", "src/fit.rs: resid_student"]}
{"id": "C44", "title": "Cached statistics are transparent", "statement": "Whatever sequence of accessor calls is made on a fit, each call returns the value it would return on a fresh fit; errors are not cached.", "quantifier": "all finite sequences of accessor calls", "why_tests_cant": "unbounded call histories", "anchors": ["src/fit.rs: OnceCell fields"]}
{"id": "C45", "title": "Weighted sum of partial residuals", "statement": "With an intercept, the weighted sum of each partial-residual column of resid_part() equals the weighted sum of the working residuals; it is zero for an exact unregularized Linear fit, as documented, but the documented claim fails for other families: there is a Poisson fit at an exact zero of the score whose partial residuals do not sum to zero. Each partial residual is the working residual plus the reported slope of the feature times its (with an intercept, centered) value, so the added parts of an observation sum to its linear predictor without offset, minus its weighted mean if there is an intercept.", "quantifier": "all fits with an intercept, all columns", "why_tests_cant": "continuum of data; a test only sees one data set", "anchors": ["src/fit.rs: resid_part", "src/fit.rs: resid_work"]}
{"id": "C46", "title": "Initial guess is interpreted on the external scale", "statement": "With options.init_guess = beta0 the iteration starts at the linear predictor X beta0 + offset, whether or not the data is standardized; every history entry of a successful fit is on the external scale.", "quantifier": "all data and guesses", "why_tests_cant": "continuum", "anchors": ["src/glm.rs: regression", "src/fit.rs: Fit::new"]}
{"id": "C47", "title": "Degrees of freedom bookkeeping", "statement": "test_ndf() = number of parameters minus one if there is an intercept; ndf() = n_obs - number of parameters; number of parameters = columns of x plus one if there is an intercept.", "quantifier": "all builds", "why_tests_cant": "all shapes", "anchors": ["src/fit.rs: test_ndf", "src/fit.rs: ndf"]}
{"id": "C48", "title": "Drop-one reduced models", "statement": "For each coefficient k, pvalue_exact compares the fit with a fit of the model without column k. With an intercept, dropping a feature gives exactly the fit of the model built the same way from the data without that feature, with the same options and penalty scale, started from the remaining coefficients; dropping the intercept gives the fit of the model built without intercept and without standardization. Without an intercept and without penalty, dropping a column gives the fit of the data without that feature. With a penalty and no intercept this is false: the first remaining coefficient is left unpenalized, and with a single column pvalue_exact panics.", "quantifier": "every family, data set, standardization choice, options, backend and column", "why_tests_cant": "The reduced model must coincide with an independently built one for every data set and option set; the exceptions only show with a penalty and no intercept.", "anchors": ["src/fit.rs: dev_without_covariate", "src/fit.rs: pvalue_exact"]}
{"id": "C49", "title": "Fisher information is the negative derivative of the score", "statement": "For canonical links and no L1 penalty, fisher(beta) is the negative Jacobian of score(beta), on the external scale.", "quantifier": "all data, beta", "why_tests_cant": "continuum", "anchors": ["src/fit.rs: fisher", "src/fit.rs: score"]}
{"id": "C50", "title": "Score is the gradient of the penalized likelihood", "statement": "score(beta) is the gradient in the external coefficients of the penalized log-likelihood (no L1), for canonical and provided non-canonical links.", "quantifier": "all data, weights, families, beta in the domain", "why_tests_cant": "continuum", "anchors": ["src/fit.rs: score", "src/link.rs: adjust_errors"]}
{"id": "C51", "title": "Residuals: Pearson, working, deviance and standardized", "statement": "Pearson residuals are sqrt(w/V(mu)) (y - mu); working residuals are (y - mu) g'(mu); for Linear, Pearson and deviance residuals both equal sqrt(w) (y - yhat) and working residuals equal response residuals. The standardized deviance and Pearson residuals are the residuals divided by sqrt(phi (1 - leverage)).", "quantifier": "all fits, all observations", "why_tests_cant": "continuum", "anchors": ["src/fit.rs: resid_pear", "src/fit.rs: resid_work", "src/fit.rs: resid_dev", "src/fit.rs: resid_dev_std", "src/fit.rs: resid_pear_std"]}
{"id": "C52", "title": "Fit options builder", "statement": "Setters of the fit options are last-wins and commute when they touch different fields; with_options/fit_options agree with the default options; fit() is fit_options().fit().", "quantifier": "all call sequences", "why_tests_cant": "unbounded sequences", "anchors": ["src/fit/options.rs"]}
{"id": "C53", "title": "Exact leave-one-out refits the deleted data", "statement": "Row i of loo_exact() is the result of fitting, with the same options and regularization, the model whose data has observation i removed (given zero frequency), started at the one-step approximation.", "quantifier": "all fits, all i", "why_tests_cant": "all data", "anchors": ["src/fit.rs: loo_exact"]}
{"id": "C54", "title": "Information criteria", "statement": "aic() = D + 2K - 2 sum f_i ln w_i and bic() = K ln n_obs - 2*model_like - 2 sum f_i ln w_i; without variance weights the last term vanishes; without regularization both are the same for a standardized and an unstandardized fit with the same coefficients.", "quantifier": "all fits", "why_tests_cant": "continuum", "anchors": ["src/fit.rs: aic", "src/fit.rs: bic"]}
{"id": "C55", "title": "Iteration adjustments follow the link derivative", "statement": "For every provided family and link the error and variance adjustments used by the fit and its statistics are multiplication by eta'(omega) and eta'(omega)^2, and the combined adjustment agrees with the separate ones; a family has a free dispersion parameter exactly if it is linear, gamma or inverse Gaussian.", "quantifier": "every family/link pair, every error, variance and linear predictor", "why_tests_cant": "quantifies over all reals and all implementations of the Transform trait, three of which are overridden separately for canonical links", "anchors": ["src/link.rs: Transform::adjust_errors, adjust_variance, adjust_errors_variance", "src/response/linear.rs: Linear", "src/response/logistic.rs: Logistic", "src/response/poisson.rs: Poisson", "src/response/gamma.rs: Gamma", "src/response/exponential.rs: Exponential"]}
{"id": "C56", "title": "What a reported convergence certifies", "statement": "When an unregularized or ridge fit returns Ok, the last point satisfies one of three conditions: the penalized score there is exactly zero; or no point tried by the line search along the Newton direction from it improves the penalized log-likelihood; or the last accepted step satisfied the documented tolerance on both the objective and the coefficients.", "quantifier": "every family, data set, start, tolerance and budget; exact arithmetic", "why_tests_cant": "Tests look at the final coefficients of fits that happen to converge; they cannot show that there is no other way for the iteration to report success.", "anchors": ["src/irls.rs: Irls::next", "src/irls.rs: step_scale", "src/glm.rs: Glm::regression"]}
{"id": "C57", "title": "Linear regression always converges to the least-squares solution", "statement": "A Linear fit without regularization on a design of full column rank with non-negative weights never fails in linear algebra and never runs the line search; with machine epsilon zero it succeeds within one step and returns the weighted least-squares solution exactly; with any machine epsilon and a positive tolerance there is a budget beyond which it succeeds.", "quantifier": "every data set, weighting, offset, start, with or without standardization and intercept; exact arithmetic", "why_tests_cant": "Total correctness ranges over all data sets and starting points.", "anchors": ["src/irls.rs: Irls::next", "src/response/linear.rs: Linear", "src/glm.rs: Glm::regression"]}
{"id": "C58", "title": "L1 fits cannot fail in linear algebra", "statement": "With l1 > 0, non-negative weights and a non-negative variance function, the linear system of every iteration is positive definite whatever the design matrix, and fitting never returns a linear-algebra error.", "quantifier": "all data (including collinear designs), all l2, all starting points, budgets and tolerances", "why_tests_cant": "The claim is the absence of an error over all designs and all intermediate iterates.", "anchors": ["src/regularization.rs: Lasso::irls_mat, ElasticNet::irls_mat, update_rho", "src/irls.rs: Irls::next"]}
{"id": "C59", "title": "Cook's distance is the deletion distance in the information metric", "statement": "For every family, cooks() of observation i, times the number of parameters, the dispersion and the frequency of the observation, equals the quadratic form of the Fisher information in the one-step change of the coefficients reported by infl_coef().", "quantifier": "all families, data, weights, fits and observations", "why_tests_cant": "continuum of data", "anchors": ["src/fit.rs: cooks", "src/fit.rs: infl_coef"]}
{"id": "C60", "title": "Family functions are defined on their documented domains", "statement": "For every family and link: the link is a number (no division by zero, no logarithm of a non-positive number) at every admissible mean and equals the documented function; mean, natural parameter, its derivative and both adjustments are numbers at every admissible predictor; the variance function, the log-likelihood on the natural parameter space and the saturated log-likelihood of every admissible response including boundary values are numbers; outside the closure of the natural parameter space the log-likelihood is not a number.", "quantifier": "every family/link pair, every mean, predictor, natural parameter and response", "why_tests_cant": "the domains are continua and the claim is the absence of NaN/inf at every point of them", "anchors": ["src/link.rs: Link::func, func_inv, Transform", "src/response/linear.rs: log_partition, log_like_natural, log_like_sat, variance", "src/response/logistic.rs: log_partition, log_like_natural, log_like_sat, variance", "src/response/binomial.rs: log_partition, log_like_natural, log_like_sat, variance", "src/response/poisson.rs: log_partition, log_like_natural, log_like_sat, variance", "src/response/exponential.rs: log_partition, log_like_natural, log_like_sat, variance", "src/response/gamma.rs: log_partition, log_like_natural, log_like_sat, variance", "src/response/inverse_gaussian.rs: log_partition, log_like_natural, log_like_sat, variance"]}
{"id": "C61", "title": "Building and fitting perform no undefined operation", "statement": "Building a data set (standardized or not) and fitting any family whose link accepts all predictors never divides by zero and never takes the logarithm or root of an inadmissible number, as long as the starting point is given or the responses are not all at the same boundary of the mean domain; in that boundary case the computed starting point is undefined.", "quantifier": "every data set, weights, offset, penalties, tolerance, budget and linear algebra outcome", "why_tests_cant": "a NaN can arise at any intermediate iterate of any run", "anchors": ["src/data.rs: Dataset::finalize_design_matrix", "src/data.rs: Standardizer", "src/glm.rs: init_guess, regression", "src/irls.rs: Irls::next"]}
{"id": "C62", "title": "Exactly when each statistic of a fit is a number", "statement": "For every fit with admissible predictors and responses: deviance, residual sum of squares, tests, score and information are numbers; aic and bic are numbers for positive variance weights and are not if a variance weight is zero; the dispersion is a number iff it is fixed or the effective sample size exceeds the number of coefficients; residuals are numbers for non-negative weights; leverages are numbers, influences and standardized residuals are numbers if leverages are below one and the dispersion is a positive number; predictions are numbers for admissible new predictors.", "quantifier": "every family, data set, weights, fit and alternative", "why_tests_cant": "absence of NaN over a continuum of data sets and weights", "anchors": ["src/fit.rs: deviance, aic, bic, dispersion, resid_pear, resid_dev, resid_work, resid_part, hat, leverage, infl_coef, covariance, wald_z, cooks, predict"]}
{"id": "C63", "title": "A fit without an L1 penalty never leaves the domain it started in, and one that starts outside it returns the start", "statement": "In an arithmetic where every undefined operation (log of a non-positive number, square root of a negative number, division by zero) yields not-a-number and not-a-number propagates: if the likelihood at the starting coefficients is a number and no L1 penalty is requested, then every likelihood in the fit's history is a number, they are strictly increasing, the reported likelihood is a number at least as large as the start's, and every fitted linear predictor lies in the domain of the link with the fitted mean in the domain of the family. If instead a linear predictor of the start is outside the domain of the link, the fit returns Ok with the unmodified start, no iterations and a not-a-number likelihood: the caller is told the fit succeeded.", "quantifier": "every family and link, every data set, every option set without L1, every starting point, every behaviour of the linear-algebra backend", "why_tests_cant": "The iterates depend on the data; tests see only a few fits and only ones that converge. The failure mode is silent.", "anchors": ["src/irls.rs: Irls::next, Irls::step_with", "src/glm.rs: Glm::regression, Glm::log_like", "src/link.rs", "src/response/linear.rs: log_partition", "src/response/logistic.rs: log_partition", "src/response/binomial.rs: log_partition", "src/response/poisson.rs: log_partition", "src/response/exponential.rs: log_partition", "src/response/gamma.rs: log_partition", "src/response/inverse_gaussian.rs: log_partition"]}
{"id": "C64", "title": "P-values are probabilities, ordered by their statistics, and available exactly when they should be", "statement": "Given distribution functions with the elementary properties of the chi-squared, Student t, F and normal distributions: the likelihood-ratio p-value exists whenever the statistic does, lies between 0 and 1, is 1 when no coefficient is tested or the statistic is not positive, and decreases as the statistic grows; Wald p-values lie between 0 and 1, are 1 for a coefficient of exactly zero and are ordered inversely to the absolute z statistics; for families with free dispersion they exist iff the z statistics do and the residual degrees of freedom are positive, and the call panics rather than returning an error otherwise; drop-one p-values lie between 0 and 1, are 1 when the reduced deviance is not larger, are ordered inversely to the reduced deviances, and are returned iff all the reduced fits succeed and the residual degrees of freedom are positive. The assumptions hold for the distributions built from the Gaussian and Gamma measures.", "quantifier": "every fit of every family and data set, every distribution library with those elementary properties, every linear algebra outcome", "why_tests_cant": "The claims range over all statistics and all degrees of freedom; the panic needs a saturated model.", "anchors": ["src/fit.rs: pvalue_lr_test, pvalue_wald, pvalue_exact"]}
{"id": "C65", "title": "For the Linear family drop-one p-values equal Wald p-values", "statement": "For an unregularized Linear fit of a full-rank design (any weights, offset, standardization, with or without intercept) in exact arithmetic, with positive dispersion and more observations than coefficients, pvalue_exact and pvalue_wald both return Ok and the same p-value for every coefficient, intercept included: the F test on the rise in deviance of the refitted reduced model is the two-sided t test on the coefficient. Removing column k raises the deviance by exactly beta_k^2 / ((X'WX)^-1)_kk.", "quantifier": "every full-rank data set with non-negative weights, every option set without penalty, every column", "why_tests_cant": "the agreement links two different code paths (refitting versus inverting the information) for every design matrix", "anchors": ["src/fit.rs: pvalue_exact, pvalue_wald, dev_without_covariate, wald_z, covariance"]}
{"id": "C66", "title": "Response distributions have the right moments and quantile residuals are standard normal", "statement": "Away from underflow, get_distribution(mu, phi) returns a distribution with mean mu and variance phi*V(mu) (V(mu) for families without free dispersion). It panics exactly when mu is outside the closed range of the family's means or not a number (Poisson and Exponential never panic). For the Linear, Exponential and Gamma families, an observation following the distribution with the fitted mean and the dispersion divided by its variance weight has a standard normal resid_quantile; for Linear resid_quantile equals (y_i - mu_i)/sqrt(phi/w_i); resid_quantile does not panic when the fitted means are non-zero numbers.", "quantifier": "every family, mean, dispersion, data set, weights, fit and observation", "why_tests_cant": "a statement about a whole probability distribution, for every mean and dispersion", "anchors": ["src/response/linear.rs: Response::get_distribution", "src/response/logistic.rs: Response::get_distribution", "src/response/binomial.rs: Response::get_distribution", "src/response/poisson.rs: Response::get_distribution", "src/response/exponential.rs: Response::get_distribution", "src/response/gamma.rs: Response::get_distribution", "src/response/inverse_gaussian.rs: Response::get_distribution", "src/fit.rs: resid_quantile"]}
{"id": "C67", "title": "Standardized fits do not depend on the units of the features", "statement": "For data built with standardization, reporting every feature in other units (x -> a x + c with a > 0; without an intercept only x -> a x) changes nothing but the coefficients: both builds succeed, the two fits succeed, fail, panic or run forever alike whatever the penalties, and successful fits have the same iterations, fitted values, predictions for features in the matching units, deviance, dispersion, AIC, BIC, likelihood ratio, R^2, leverage, Cook's distances, residuals and Wald statistics of the slopes, with coefficients (and their history) converted by the units. The internal fit is identical.", "quantifier": "every family, data set with non-constant features, weights, offset, penalties, tolerance, budget, start and every positive change of units", "why_tests_cant": "an equality of entire executions for all data, all penalties and all unit conversions", "anchors": ["src/data.rs: Standardizer", "src/model.rs: ModelBuilder standardize", "src/fit.rs"]}
{"id": "C68", "title": "Families that share a likelihood give the same fit", "statement": "Exponential and Gamma with the same link take the same iterations to the same coefficients on the same data, in any arithmetic, whatever the penalties; log-likelihood, deviance, AIC, BIC, score, information, leverage, raw residuals and the likelihood-ratio, Wald and score tests agree, and only what depends on the dispersion (1 for Exponential) differs. In exact arithmetic with zero machine epsilon, fitting counts out of N with Binomial<N> is fitting the proportions y/N with Logistic and N times the variance weights: same builds, iterations, coefficients, covariance, z statistics, leverages, Pearson residuals and Cook's distances, fitted proportions = fitted counts / N, and for counts between 0 and N same deviance and deviance residuals.", "quantifier": "every data set, weights, offset, penalties, tolerance, budget, start, every N >= 1", "why_tests_cant": "an equality of whole executions of different implementations for all inputs", "anchors": ["src/response/exponential.rs", "src/response/gamma.rs", "src/response/binomial.rs", "src/response/logistic.rs", "src/irls.rs"]}
{"id": "C69", "title": "The order of the observations does not matter", "statement": "Over the reals, giving the rows of the data (with their responses, offsets and weights) in another order changes nothing: the build succeeds or panics alike, the fit succeeds, fails, panics or runs forever alike with the same history, and coefficients, likelihoods, tests, dispersion, covariance, AIC, BIC and predictions are equal, while fitted values, residuals of every kind, leverage, hat matrix, Cook's distances and influence move with their observation.", "quantifier": "every family, data set, permutation of the rows, weights, offset, penalties, options and linear algebra outcome", "why_tests_cant": "ranges over all permutations and all data", "anchors": ["src/fit.rs", "src/irls.rs", "src/glm.rs: init_guess", "src/data.rs: Standardizer"]}
{"id": "C70", "title": "Newton steps point uphill, and stopping means stationary", "statement": "Without L1, in exact arithmetic: at admissible coefficients with non-zero penalized score the Newton step has positive product with the score, and every small enough multiple of it strictly increases the penalized log-likelihood, for every family and link. So a fit with tolerance zero that returns admissible coefficients has penalized score exactly zero; for concave families its result is the unique maximizer. Two unregularized fits with vanishing score return the same coefficients whatever their starts, budgets, tolerances and standardization. For concave families with unrestricted predictors the line search never accepts its backwards step.", "quantifier": "every family and link, data set, weights, offset, L2 strength, start, budget and number of line search steps", "why_tests_cant": "ranges over all data and all iterates; the step length below which improvement is guaranteed depends on them", "anchors": ["src/irls.rs: step_scale, next", "src/fit.rs: score", "src/link.rs"]}
{"id": "C71", "title": "With ridge the reported score bounds the distance to the optimum", "statement": "For concave families with L2 strength l2 > 0, however the fit ended: no admissible coefficients have a penalized log-likelihood exceeding that of the result by more than the sum of squares of score_j / sigma_j divided by 2 l2, where score is what the fit reports at its result and sigma_j the feature scales; and every coefficient vector at least as good as the result is within 2 |score / sigma| / l2 of it. Without intercept and with unrestricted predictors a unique maximizer exists for all data, separated or collinear included.", "quantifier": "every concave family, data set, weights, offset, L1 and L2 strength, standardization, and competing coefficients", "why_tests_cant": "compares the result with all coefficient vectors; the optimum is unknown in a test", "anchors": ["src/regularization.rs", "src/fit.rs: score", "src/irls.rs"]}
{"id": "C72", "title": "What a fit starts from when no initial guess is given", "statement": "In exact arithmetic with regular weighted Gram matrix, a fit with no initial guess is the same fit (outcome, history, iteration count, coefficients) as one started at the weighted least-squares solution for the responses averaged with their mean and mapped through the link, given the offset. That start does not depend on standardization. If the solver refuses the Gram matrix, it is the same fit as one started at zero.", "quantifier": "every family, data set, weights, offset, options and linear algebra outcome", "why_tests_cant": "an equality of whole executions, for all data", "anchors": ["src/glm.rs: init_guess, regression", "src/fit/options.rs: init_guess"]}
{"id": "C73", "title": "Links supplied by the user", "statement": "For every response type that takes a link parameter and every user link whose func_inv gives admissible means, whose nat_param is the canonical link of that mean and whose d_nat_param is its derivative (keeping the provided methods): the score of a fit is the gradient of the penalized log-likelihood, fisher is the expected information, the iteration takes multiples of the Newton step of that link, and the deviance is non-negative. Every link shipped with the crate is of this kind. A linear regression with an affine link is the least-squares regression of the transformed responses.", "quantifier": "every link function satisfying the contract, family, data set, weights, offset, penalty and coefficient vector", "why_tests_cant": "quantifies over user code; the tests try two links on one data set", "anchors": ["src/link.rs: Link, Transform", "src/response/linear.rs: impl Glm", "src/response/logistic.rs: impl Glm", "src/response/binomial.rs: impl Glm", "src/response/poisson.rs: impl Glm", "src/response/exponential.rs: impl Glm", "src/response/gamma.rs: impl Glm", "src/response/inverse_gaussian.rs: impl Glm", "tests/custom_link.rs"]}
{"id": "C74", "title": "The order of the features does not matter", "statement": "Over the reals and for linear algebra that does not depend on how the unknowns are numbered: giving the features in another order (with a caller's start in that order) gives a model that builds when the original does and a fit that succeeds or fails alike after the same steps, for every family, penalty, weights and offset, with and without standardization and intercept. Coefficients, history, score, Fisher information, covariance, Wald statistics and p-values, influence and exact leave-one-out coefficients and partial residuals move with their features; the intercept stays first; fitted values, likelihood, deviance, dispersion, AIC, BIC, predictions, the omnibus tests, leverage, Cook's distances and residuals are the same. The exact p-values move along too for models with an intercept or without penalty.", "quantifier": "every permutation of the features, data set, weights, offset, family, penalty, tolerance, budget, start, and numbering-independent linear algebra", "why_tests_cant": "quantifies over all permutations and all runs of the solver", "anchors": ["src/irls.rs: Irls", "src/data.rs: finalize_design_matrix, Standardizer", "src/regularization.rs", "src/fit.rs: Fit"]}
{"id": "C75", "title": "An intercept is a column of ones", "statement": "Without standardization and penalty, fitting with an intercept is fitting without an intercept the features preceded by a column of ones: for every family, linear algebra, weights, offset, tolerance, budget and start the two fits succeed or fail alike after the same steps, with the same coefficients, statistics and predictions.", "quantifier": "every data set, weights, offset, family, linear algebra, tolerance, budget and start", "why_tests_cant": "compares two code paths (one_pad, zero_first_maybe, the *_no_int transforms) for every run", "anchors": ["src/data.rs: one_pad, finalize_design_matrix", "src/irls.rs: zero_first_maybe, get_reg", "src/model.rs: no_constant", "src/fit.rs: Fit::predict"]}
{"id": "C76", "title": "What the statistics mean when the model is true", "statement": "If the responses are uncorrelated random variables with the model's means at coefficients beta and variances phi V(mu_i)/w_i: the score at beta has expectation zero and covariance phi times fisher(beta), for every family and link. For exact unregularized Linear fits the coefficients are unbiased with covariance phi times the inverse of fisher(); Pearson residuals have mean zero and variance phi (1 - leverage), so standardized Pearson residuals have unit variance; the expected deviance is phi (n - K); without variance weights dispersion() is an unbiased estimate of phi and covariance() of the covariance of the coefficients. With ridge the covariance of the coefficients is the documented sandwich.", "quantifier": "all designs, weights, offsets, families, links, probability spaces and uncorrelated square-integrable responses with the stated moments", "why_tests_cant": "statements about expectations over all responses, for every design", "anchors": ["src/fit.rs: Fit::score, Fit::fisher, Fit::covariance, Fit::dispersion, Fit::resid_pear, Fit::resid_pear_std, Fit::deviance", "src/response/linear.rs"]}
{"id": "C77", "title": "Fits with frequency weights are fits of repeated rows", "statement": "Let two data sets differ only in how the observations are counted (a row with frequency f against f copies of it, or any other split of the frequencies). Started from the same coefficients, the fit of the data with more rows takes the same steps as the other and may stop earlier, never later, and succeeds if the other does; with the same number of rows or with tolerance zero the two fits are the same, including history, number of iterations and errors. Without L1 penalty, fits that report the same coefficients agree in likelihood, degrees of freedom, deviance, dispersion, AIC, BIC, residual sum of squares, score, Fisher information, covariance, Wald statistics, LR, Wald and score tests, R^2, predictions, fitted values and all unstandardized residuals; the leverage of a row is shared by its copies in proportion to their frequencies.", "quantifier": "all data sets, all splits of the frequencies, all families, penalties, starts, tolerances and budgets, any linear algebra", "why_tests_cant": "compares two whole runs for every multiplicity, history and stopping point", "anchors": ["src/data.rs: apply_freq_weights, apply_total_weights, freq_sum, x_conj", "src/irls.rs: Iterator::next", "src/glm.rs: regression", "src/fit.rs: rss, leverage, null_model_fit"]}
{"id": "C78", "title": "Linear fits with an L2 penalty converge to the ridge solution", "statement": "For the Linear family with L2 penalty (or none), without L1 penalty, in exact arithmetic and with non-negative weights: if the data or the penalty identify the coefficients (more features than observations are allowed with l2 > 0), the minimizer of the penalized sum of squares exists and is unique; from any start, every step of the fit multiplies the excess loss by at most (eps/(1+eps))^2, where eps is the machine epsilon added to the weights; the fit never fails in linear algebra; with a positive tolerance and a large enough budget it succeeds; with eps = 0 it returns the ridge solution after at most one step.", "quantifier": "all data sets with non-negative weights, offsets, standardization or not, intercept or not, l2 >= 0, every start, budget and machine epsilon >= 0", "why_tests_cant": "ranges over all data, starts and steps; convergence is a statement about unboundedly many iterations", "anchors": ["src/irls.rs: Irls::next", "src/regularization.rs: Ridge", "src/glm.rs: regression", "src/response/linear.rs"]}
{"id": "C79", "title": "Fits do not depend on how the coefficients are coded", "statement": "Describe the same observations by other coefficients, related to the first by an invertible affine map under which linear predictors and penalties agree: standardized or not, other units or origins of the features, invertible combinations of the features, an offset changed by a combination of the columns, an intercept with indicators of all groups but one or no intercept with indicators of all groups. Then fits without L1 penalty and with zero tolerance that start at corresponding points visit corresponding points, record the same likelihoods, take the same number of steps and end the same way (corresponding results or the same error); given starts correspond if the coefficients do and default starts always do when the features are independent. For any tolerance, two successful fits with corresponding results report the same likelihood, fitted means, deviance, dispersion, AIC, BIC, residuals of all kinds, hat matrix, leverage, Cook's distances and test statistics, and score, Fisher information and covariance are converted by the map.", "quantifier": "all data sets, families and links, L2 strengths, invertible affine recodings (also between different numbers of features with and without intercept), starts and budgets", "why_tests_cant": "a relation between every step of two executions on different data, for all data and all recodings", "anchors": ["src/irls.rs: Irls::next", "src/glm.rs: regression, init_guess", "src/data.rs: Standardizer, linear_predictor_std", "src/fit.rs: score, fisher, covariance, hat, leverage, cooks, resid_*, *_test_against"]}
{"id": "C80", "title": "Fitted means balance the responses", "statement": "With an intercept and a canonical link, the intercept entry of score(beta) is the weighted sum of the responses minus that of the means at beta, whatever the penalties; so at a result where it is at most t in size, the weighted sums of y_hat and of y differ by at most t. With a log link for Exponential or Gamma responses, the ratios y/y_hat average to one. Without penalties, y and y_hat have equal weighted products with every feature. If the features are indicators of groups (no intercept, no offset), y_hat is the weighted mean of the group, for every family and link. For least squares with an intercept, the total sum of squares is the explained one plus rss, and r_sq() is explained over total.", "quantifier": "all data sets, weights, frequencies, offsets where allowed, penalties where allowed, families, links and environments; all results (with the size of the score entry as bound) or those at which the score vanishes", "why_tests_cant": "Calibration is asserted for every data set and every weight; a test sees a few data sets and a tolerance", "anchors": ["src/fit.rs: Fit::score, Fit::y_hat, Fit::r_sq, Fit::rss", "src/response/linear.rs: links", "src/response/logistic.rs: links", "src/response/binomial.rs: links", "src/response/poisson.rs: links", "src/response/exponential.rs: links", "src/response/gamma.rs: links", "src/response/inverse_gaussian.rs: links", "src/irls.rs"]}
{"id": "C81", "title": "The deviance is the textbook deviance of the family", "statement": "deviance() is the sum, weighted with frequencies and variance weights, of the textbook unit deviances of y and y_hat: (y-m)^2 for Linear, the binary and binomial entropy forms, 2(y log(y/m) - (y-m)) for Poisson, 2(-log(y/m) + (y-m)/m) for Exponential and Gamma, (y-m)^2/(m^2 y) for inverse Gaussian, including responses on the boundary; resid_dev() is the signed root of the weighted unit deviance. With an intercept at a vanishing score the Poisson deviance is 2 sum w y log(y/y_hat) and the log-link Exponential and Gamma deviances are 2 sum w log(y_hat/y); likewise with the reciprocal link without offset and penalty.", "quantifier": "all families and links of the crate, all data sets with responses in the domain of the family, all weights, frequencies and offsets, all fits with admissible means", "why_tests_cant": "It is an identity of real functions on the whole domain of responses and means, boundary included", "anchors": ["src/fit.rs: Fit::deviance, Fit::resid_dev", "src/response/linear.rs: log_like_sat, log_like_natural, log_partition", "src/response/logistic.rs: log_like_sat, log_like_natural, log_partition", "src/response/binomial.rs: log_like_sat, log_like_natural, log_partition", "src/response/poisson.rs: log_like_sat, log_like_natural, log_partition", "src/response/exponential.rs: log_like_sat, log_like_natural, log_partition", "src/response/gamma.rs: log_like_sat, log_like_natural, log_partition", "src/response/inverse_gaussian.rs: log_like_sat, log_like_natural, log_partition"]}
{"id": "C82", "title": "Fits follow a change of the units, the origin or the labels of the responses", "statement": "Replacing the responses y by a*y+s for Linear, by c*y (c>0) for Gamma, Exponential, inverse Gaussian with log link and for Poisson, or exchanging successes and failures for Logistic (logit) and Binomial, with offsets and L2 strength converted, changes only the description of the fit. The iterations correspond step by step (with tolerance zero, or any tolerance for exchanged labels), so the fit ends with the corresponding result, iteration count, history or error. Given corresponding results: predictions follow the change, leverages stay, deviance, likelihood-ratio, Wald and score tests are multiplied by one factor m, R^2 stays, residuals are scaled, and aic() moves by (m-1) times the deviance. When the dispersion is estimated or m=1, standard errors follow the coefficients, and standardized and studentized residuals, Cook's distances and z-scores of the slopes stay up to sign. For Linear fits without penalties the results correspond for all starts and tolerances.", "quantifier": "all data sets, weights, frequencies, offsets, changes of the listed forms, starting points, iteration limits, L2 strengths, with or without standardization and intercept (an intercept is needed when the change moves the origin of the predictor)", "why_tests_cant": "a test tries a few units on a few data sets; the claim is an equality of whole runs and of all reported statistics for every change of units", "anchors": ["src/response/linear.rs", "src/response/gamma.rs", "src/response/poisson.rs", "src/response/logistic.rs", "src/response/binomial.rs", "src/irls.rs: Irls::step", "src/glm.rs: Glm::regression, init_guess", "src/fit.rs: Fit"]}
{"id": "C83", "title": "What rounding cannot break: means, variances, information and logistic likelihoods in floating point", "statement": "In floating-point arithmetic with rounding, overflow, underflow, signed zeros, infinities and NaN: for every predictor that is not NaN (infinite ones included) the inverse link of every family except Linear and the reciprocal links gives a number in the closed range of the mean ([0,1] for Logistic, [0,N] for Binomial, [0,inf] for the others), reciprocal links do so for negative predictors, predict() is NaN exactly when the linear predictor is, and the mean is a monotone function of the predictor. Variances of means in range are numbers that are not negative; diagonal entries of the Fisher information, the residual sum of squares, the number of observations and the sum of the weights are NaN or not negative. The log-likelihood of a logit model with finite predictors is a number and not positive. What rounding does break: a linear f64 fit two steps from the response has a negative deviance and a NaN deviance residual; the complementary log-log log-likelihood is NaN in f64 whenever an observation with response 1 has a predictor of 7 or more; the reciprocal links give the mean -inf at predictor +0.", "quantifier": "all floating-point formats with monotone symmetric rounding and library functions with the right signs and limits (f64 and f32 with rounding to nearest, ties to even, are instances), all values of the format, all data, weights, offsets and fits, whatever the linear-algebra library returns; every order of summation, with or without fused multiply-add", "why_tests_cant": "a test evaluates some of the 2^64 arguments; the claim holds for each of them and for every combination in sums of any length", "anchors": ["src/link.rs: Link::func_inv", "src/response/linear.rs: func_inv, variance, log_like_natural", "src/response/logistic.rs: func_inv, variance, log_like_natural", "src/response/binomial.rs: func_inv, variance, log_like_natural", "src/response/poisson.rs: func_inv, variance, log_like_natural", "src/response/exponential.rs: func_inv, variance, log_like_natural", "src/response/gamma.rs: func_inv, variance, log_like_natural", "src/response/inverse_gaussian.rs: func_inv, variance, log_like_natural", "src/glm.rs: Glm::log_like", "src/fit.rs: Fit::predict, Fit::fisher, Fit::deviance, Fit::resid_dev"]}
{"id": "C84", "title": "Fits in floating point always return, unless the tolerance is zero", "statement": "In IEEE binary floating-point arithmetic (f32, f64 and any binary format with at least four bits and subnormals), fit() returns a result or an error, it never loops for ever, for every data set (NaN and infinite entries included), family, penalty, start, iteration limit and whatever the linear-algebra library returns, provided the tolerance is not zero; a subnormal, negative, infinite or NaN tolerance is enough. No line search takes more than 6445 rounds in f64 and 895 in f32. With tolerance zero the line search does not end when no step improves the objective, because the step stops shrinking at the least subnormal number: a concrete complementary log-log fit in f64 with tolerance zero never returns.", "quantifier": "all binary formats, data sets, families, options with nonzero tolerance, starting points and solver results, NaN and infinities included; for the negative part all line searches without improving step; every order of summation, with or without fused multiply-add", "why_tests_cant": "Termination for every input needs a bound on the number of rounds for all data and solver outputs; a test that runs for ever cannot be told from one that is slow", "anchors": ["src/irls.rs: Irls::step_with, Irls::next", "src/irls.rs: step_scale", "src/model.rs: Model::fit, FitConfig::fit"]}
{"id": "C85", "title": "Fits in floating point never get worse", "statement": "In floating-point arithmetic with rounding, overflow, infinities and NaN, for every data set and whatever values the linear-algebra library returns, a fit without L1 penalty records penalized log-likelihoods that are numbers and increase strictly, starting above the one at the starting point; the reported optimum is the last recorded step, or the start if there is none; so if the log-likelihood at the start is a number the reported one is a number and not smaller. The history in a MaxIter error has the same property. If the log-likelihood at the start is NaN the fit does not move: when it succeeds it returns the start with an empty history and a NaN likelihood, and it never fails with MaxIter. With any penalty, a recorded NaN likelihood of positive sign is reported as the optimum; if there is none, the largest recorded number is.", "quantifier": "all floating-point formats, data sets (NaN and infinite entries included), families and links, L2 strengths, tolerances, iteration limits, starting points and solver results; the last part all penalties; every order of summation, with or without fused multiply-add", "why_tests_cant": "Rounding errors depend on every bit of the data; only an argument about every step of every run excludes that a fit returns something worse than its start", "anchors": ["src/irls.rs: Irls::next, step_scale, Irls::step_with", "src/glm.rs: Glm::regression (max_by with total_cmp)", "src/fit.rs: Fit::result, Fit::history"]}
{"id": "C86", "title": "Predictions computed in floating point are close to the exact ones", "statement": "Take finite features, offsets and reported coefficients in floating point whose products stay below the overflow threshold. Then the linear predictor that predict() computes, with the terms added in any order and with or without fused multiply-add, is finite and differs from the exact one by at most ((1+u)^d - 1) times the sum of the absolute values of its terms (each term goes through at most d roundings, unit roundoff u), apart from underflow; d is at most one more than the number of terms when they are added from left to right. The prediction is finite and differs from the exact mean at the reported coefficients by at most a quarter of that error plus 3u for logistic regression (N times as much for N trials), half plus 2u for the complementary log-log link, a relative error of the size of the predictor error for log links, and an explicit bound for reciprocal and inverse-square links away from their poles. In f64 a predicted probability is wrong by at most d 2^-54 S + 2^-51.", "quantifier": "all floating-point formats whose operations and exponentials have a relative error of at most u and an absolute error of at most tiny below the overflow threshold, all families and links, fits, numbers of features, features, offsets and coefficients that are finite and do not overflow; f32 and f64 are such formats", "why_tests_cant": "The worst rounding errors occur for particular bit patterns; a bound for all inputs and all summation orders needs an error analysis", "anchors": ["src/fit.rs: Fit::predict", "src/glm.rs: Glm::mean", "src/response/logistic.rs: Logit, Cloglog", "src/response/binomial.rs: Logit", "src/response/poisson.rs: Log", "src/response/exponential.rs: NegRec, Log", "src/response/gamma.rs: NegRec, Log", "src/response/inverse_gaussian.rs: NegRecSq, Log"]}
{"id": "C87", "title": "When a maximum likelihood estimate exists", "statement": "Some coefficients make score() of a fit vanish (so that an estimate, L2-penalized if the fit is, exists) exactly when the data are not separated: no direction of the coefficients raises linear predictors only of observations whose response is the largest possible (1 for logistic, N for binomial), lowers them only where it is zero (logistic, binomial, Poisson), changes one of them, and leaves the L2 penalty alone. If not separated, such coefficients minimize lr_test_against over all coefficients; if separated, for every bound on the coefficients there are others that beat everything within the bound, and the returned coefficients never have a vanishing score. Linear, exponential-log and gamma-log fits always have an estimate, as do fits with a positive L2 strength and no intercept; with L2 and an intercept it exists exactly when the responses are neither all at the top nor all at the bottom. For the canonical links of the exponential, gamma and inverse Gaussian families an estimate exists as soon as some coefficients give all observations an admissible mean. With an L1 penalty some coefficients minimize lr_test_against exactly when it is not the case that there is an intercept and all observations with weight are at the top, or all at the bottom.", "quantifier": "all datasets with responses in the domain of the family and non-negative weights (zero weights and collinear features included; positive weights for the canonical reciprocal links), offsets, standardization and intercept on or off, all L2 strengths, with and without an L1 penalty, and all fits that return", "why_tests_cant": "Existence of an optimum and divergence beyond every bound are statements about all coefficient vectors and all datasets", "anchors": ["src/fit.rs: Fit::score, Fit::lr_test_against", "src/glm.rs: Glm::regression, Glm::log_like", "src/regularization.rs: Ridge", "src/response/linear.rs: Linear", "src/response/logistic.rs: Logistic", "src/response/poisson.rs: Poisson", "src/response/gamma.rs: Gamma", "src/response/exponential.rs: Exponential"]}
{"id": "C88", "title": "Larger models and weaker penalties fit at least as well", "statement": "Call a fit optimal if lr_test_against is negative for no admissible coefficients; a fit whose score() vanishes (without L1) or that meets the L1 optimality conditions is optimal, for every pair except inverse Gaussian with log link. If one model contains another (same observations, every linear predictor of the smaller is one of the larger), an optimal unpenalized fit of the larger has at least the log-likelihood and at most the deviance() of any fit of the smaller, and with an intercept at least its r_sq() and lr_test(); if its score vanishes and the deviance is not reduced, both give the same y_hat for every observation with weight. For two optimal fits of the same data, the one with the larger l2_reg (l1_reg) has the smaller sum of squares (absolute values) of standardized slopes, a smaller reported likelihood and, when there is no other penalty, a larger deviance. The penalty paid by an optimal fit is at most what it gains in deviance over the null model.", "quantifier": "all data sets, families and links, pairs of nested designs of any size, options, environments and successful fits", "why_tests_cant": "an inequality between every pair of nested models and every pair of penalty strengths, over all data; tests compare a few fits", "anchors": ["src/fit.rs: deviance, lr_test_against, lr_test, r_sq, null_model_fit, score", "src/fit/options.rs: l1_reg, l2_reg", "src/regularization.rs: Ridge, Lasso, ElasticNet", "src/irls.rs: Irls"]}
{"id": "C89", "title": "Which coefficients a penalty keeps", "statement": "A fit is optimal (lr_test_against is negative for no admissible coefficients) only if, and for every pair except inverse Gaussian with log link exactly if, its coefficients meet the optimality conditions of its L1 and L2 penalties. In an optimal fit, a feature has coefficient zero only if its standardized score (sum of weight times residual times feature) is at most l1_reg in size; otherwise the score has the sign of the coefficient and size l1 + l2 |slope|. Two standardized slopes differ by at most 1/l2 times the difference of the scores, so with L2 identical features get identical coefficients. With any penalty a feature that is constant (with intercept) or zero (without) gets coefficient zero. With an intercept and no offset: if all slopes are zero the fit is the null model and no standardized score of the null model exceeds l1; if none exceeds l1 then lr_test() is zero, and features whose score is smaller get coefficient zero.", "quantifier": "all data sets, families and links, penalties, environments and successful optimal fits", "why_tests_cant": "which coefficients are exactly zero or equal is a statement about all data and all strengths of the penalty; tests look at a few fits up to a tolerance", "anchors": ["src/regularization.rs: Ridge, Lasso, ElasticNet", "src/fit/options.rs: l1_reg, l2_reg", "src/fit.rs: lr_test_against, lr_test, null_model_fit", "src/data.rs: Standardizer"]}
{"id": "C90", "title": "Fits started near the optimum converge to it", "statement": "Suppose a fit without L1 penalty is identified and a coefficient vector solves the (L2-penalized) score equations. For the families with canonical link, in exact arithmetic, there is a neighbourhood of that solution such that every fit started in it with init_guess takes only full Newton steps, multiplies the deficiency of the objective by at most a fixed factor below one at each of its n_iter steps (any factor above (eps/(w+eps))^2, where w bounds the observations' expected information from below), returns coefficients within a constant times tol of the solution, and succeeds once max_iter is at least a number depending only on tol. The same holds for gamma and exponential regression with log link if every response is below about twice its fitted mean, for inverse Gaussian with log link if every response is between one half and three halves of it, and for complementary log-log if no failure has fitted probability above about 0.71. Linear, logistic, Poisson and binomial regression on data that are not separated have exactly one such solution.", "quantifier": "all data sets, standardized or not, with or without intercept, L2 strengths, tolerances, iteration limits and starting points in the neighbourhood", "why_tests_cant": "convergence from every point of a neighbourhood, at every tolerance, with a bound on the number of steps; tests run a few fits to one tolerance", "anchors": ["src/irls.rs: Irls, Irls::next, small_delta, small_delta_vec, step_scale", "src/fit/options.rs: fit, max_iter, tol, init_guess", "src/glm.rs: regression", "src/fit/options.rs: max_iter, tol, init_guess"]}
{"id": "C91", "title": "L1 fits of the Linear family are ADMM runs", "statement": "In exact arithmetic, an L1-penalized fit (lasso or elastic net) of the Linear family performs the textbook alternating direction method of multipliers with residual balancing on the standardized penalized log-likelihood, from its starting point; that run exists and is unique. The fit succeeds exactly if the stopping rule (both residuals, the change of the augmented Lagrangian and the change of the coefficients small relative to tol) holds within max_iter steps; then n_iter and the history are those of the run up to there. Otherwise the error is MaxIter and carries the run up to the budget. No other outcome is possible; the line search never runs. If the penalty parameter of the run is eventually only raised, or it is eventually only lowered and the coefficients are identified, the fit succeeds at every tolerance once max_iter is large enough. That is so for models with only an intercept from every start, and for models without intercept started at zero whose l1_reg is at least twice the norm of the standardized score at zero. A model without any column never succeeds with an L1 penalty.", "quantifier": "all data sets with non-negative weights, standardized or not, with or without intercept, L1 and L2 strengths, tolerances, iteration limits and starting points", "why_tests_cant": "an unbounded iteration with an adaptive penalty parameter; tests run a few fits and cannot show that the outcome is determined by the stopping rule for every data set and budget, or that large budgets always suffice", "anchors": ["src/regularization.rs: Lasso, ElasticNet, prepare, update_rho, terminate_ok, irls_vec, irls_mat, irls_like, soft_thresh", "src/irls.rs: Irls::next, small_delta, small_delta_vec", "src/glm.rs: regression", "src/fit/options.rs: l1_reg, max_iter, tol"]}
{"id": "C92", "title": "What a successful L1 fit certifies", "statement": "In exact arithmetic, if a fit with an L1 penalty (lasso or elastic net) of any family succeeds, then its last linear system was set up at a recorded point (or the start) where the residual of the split variable is below sqrt(number of coefficients) times tol, with multipliers that are a subgradient of the L1 penalty at the split variable and balance the gradient of the log-likelihood and the L2 penalty, up to terms proportional to the last step and the residual. The penalty parameter is a power of two whose exponent is at most the number of iterations. Either the solution is the point itself, or the step is small relative to tol (in the augmented Lagrangian per observation and in the coefficients), or it does not increase the augmented Lagrangian and no point of the line search increases the penalized log-likelihood. For the concave families, the penalized log-likelihood exceeds the one at the reported coefficients nowhere by more than an explicit amount that vanishes with the residual and the step.", "quantifier": "all families and links, data sets, standardized or not, with or without intercept, L1 and L2 strengths, tolerances, iteration limits and starting points", "why_tests_cant": "tests compare a few fits with reference values; the guarantee is about every data set on which the fit reports success, and the distance to an unknown optimum", "anchors": ["src/regularization.rs: Lasso, ElasticNet, prepare, update_rho, terminate_ok, irls_vec, irls_mat, irls_like", "src/irls.rs: Irls::next, step_scale, small_delta, small_delta_vec", "src/glm.rs: regression"]}
{"id": "C93", "title": "Coefficients are effects on the scale of the link", "statement": "In exact arithmetic, the prediction for a row depends only on that row and its offset. Two predictions differ, on the scale of the link, by the differences of the features times the reported coefficients plus the difference of the offsets (the effect), and its sign decides which is larger. So effects are differences of means (linear), log ratios of means (log links), log odds ratios (logistic and binomial), log hazard ratios (complementary log-log), differences of rates (negative reciprocal) and halved differences of inverse squares (inverse Gaussian). Changing one feature by delta has the effect delta times its coefficient. With a log link, passing the logarithm of an exposure as offset multiplies the prediction by the exposure. All of this holds whether or not the data were standardized.", "quantifier": "all successful fits of every family and link, standardized or not, with or without intercept, with any penalties; all new feature rows and offsets with an admissible linear predictor", "why_tests_cant": "tests predict a few rows; the reading of coefficients as effects is a statement about every pair of rows", "anchors": ["src/fit.rs: Fit::predict, Fit::result", "src/glm.rs: Glm::mean", "src/link.rs: Link::func_inv", "src/response/linear.rs: Linear", "src/response/logistic.rs: Logistic", "src/response/poisson.rs: Poisson", "src/response/gamma.rs: Gamma", "src/response/exponential.rs: Exponential"]}
{"id": "C94", "title": "Fits follow the responses and the weights", "statement": "For optimal fits in exact arithmetic. (1) Two fits of the same observations with different responses and the same penalties: the fitted values, on the scale of the natural parameter, move in the direction of the responses (weighted sum of products is not negative), so raising one response with positive weight never lowers its own fitted value. (2) With a canonical link, the change of the responses times the change of the linear predictors pays for the change of the fitted values and of the L2 penalty; so the fitted values of a linear model with any penalties move no more than the responses, and with an L2 penalty the slopes of every canonical fit move at most 1/l2 times the weighted sums of response changes times features. (3) Giving an observation more weight never makes the fit worse at it; the fit without an observation predicts it no better than the fit that saw it; the deviance is at most the leave-one-out cross-validated deviance (features not standardized, or no penalties).", "quantifier": "all families and links (canonical ones in (2)), data sets, pairs of response vectors, penalties, weights, observations", "why_tests_cant": "a statement about pairs of data sets: tests can compare a few pairs, not all of them", "anchors": ["src/model.rs: FitConfig::fit, ModelBuilder", "src/fit.rs: Fit::predict, Fit::resid_resp, Fit::deviance, Fit::loo_exact, Fit::lr_test_against", "src/data.rs: Dataset", "src/data.rs: Standardizer"]}
{"id": "C95", "title": "Accuracy of the log-likelihood in floating-point arithmetic", "statement": "In floating-point arithmetic with relative error u per operation and per library function, and any order of summation, the log-likelihood of finite data at finite coefficients, with weights, frequencies, offsets and penalties, is finite if nothing overflows, and differs from the exact (penalized) log-likelihood of the same numbers by at most an explicit bound; so does the log-likelihood that a fit reports, at the coefficients it reports. The exact objective at the reported coefficients is not smaller than at any recorded step, nor, without L1 penalty, than at the start, by more than the two bounds. For logistic regression in f64 without weights the bound is n (S + 1) (d + 2 k + 10) 2^-52 + 2^-1000, with S the size of the linear predictors and d, k the numbers of roundings. (All families and links but the complementary log-log link; features not standardized.)", "quantifier": "all families and links but complementary log-log, all finite data and coefficients without overflow, all penalties, all orders of summation, every format with the stated accuracy (f64 and f32 with a correctly rounding library in particular)", "why_tests_cant": "rounding errors depend on every bit of the data and on the order of summation; tests see a few of them and have no exact value to compare with", "anchors": ["src/glm.rs: Glm::log_like, Glm::log_like_terms", "src/response/linear.rs: log_like_natural", "src/response/logistic.rs: log_like_natural", "src/response/binomial.rs: log_like_natural", "src/response/poisson.rs: log_like_natural", "src/response/exponential.rs: log_like_natural", "src/response/gamma.rs: log_like_natural", "src/response/inverse_gaussian.rs: log_like_natural", "src/link.rs: nat_param", "src/regularization.rs: likelihood", "src/irls.rs: Irls", "src/fit.rs: Fit::model_like"]}
{"id": "C96", "title": "Certificate of optimality of a floating-point fit", "statement": "In floating-point arithmetic with relative error u per operation and any order of summation, each component of the score that a fit computes at any finite coefficients is finite if nothing overflows, and differs from the exact gradient of the (penalized) log-likelihood of the same numbers by at most an explicit bound. So with an L2 penalty lambda the score at the reported coefficients certifies them, whatever the linear solver did: with t_j the size of the computed score plus its error bound, the exact optimum without intercept exists, is unique, is at most 2 |t| / lambda away from the reported coefficients, and its objective is at most |t|^2 / (2 lambda) above theirs; with an intercept the same holds of the slopes up to the error of the intercept component times the distance in the intercept. (All families and links but the complementary log-log link; features not standardized. The certificate is for concave log-likelihoods.)", "quantifier": "all families and links but complementary log-log, all finite data, weights, offsets, penalties and coefficients without overflow, all linear solvers, all options, all orders of summation", "why_tests_cant": "the bound holds for every rounding, order of summation and solver; tests would need the exact optimum of the exact problem, which is not known", "anchors": ["src/fit.rs: Fit::score", "src/regularization.rs: gradient", "src/link.rs: adjust_errors", "src/data.rs: apply_total_weights, x_conj"]}
{"id": "C97", "title": "Standardized fits in floating point: what the reported numbers stand for", "statement": "A fit with standardized features (the default) stores rounded standardized features and reports coefficients that are transformed back with rounding. Scaled and shifted back, every stored feature is the user's feature up to about two roundings of its distance from the mean; the reported coefficients are the internal ones on the user's scale up to explicit rounding errors; and the linear predictors of the user's data at the reported coefficients are those of the fit up to an explicit bound. The reported likelihood and the score are finite and within explicit bounds of the exact penalized log-likelihood and its gradient for the features that are read back, with the penalty on the standardized scale. With an L2 penalty and a concave family the score therefore bounds by how much any coefficients can beat the reported ones and how far they are from the optimum of the exact problem, whatever the linear solver returned.", "quantifier": "every floating-point format with the stated accuracy (f32 and f64 among them), every summation order, every number of observations and features, with or without intercept, offset, weights and frequencies, every family and link other than complementary log-log, every linear solver and every finite data set for which the stated sums stay below the largest number", "why_tests_cant": "A test compares the result with another floating-point computation on particular data; the bounds hold for all data, formats and summation orders, and the optimum they refer to is the one of the exact problem.", "anchors": ["src/data.rs: Standardizer::transform_inplace, inverse_transform_coefficients, transform_coefficients, inverse_transform_score", "src/data.rs: Dataset::finalize_design_matrix", "src/fit.rs: Fit::new, Fit::score", "src/model.rs: ModelBuilder (standardize is true by default)"]}
{"id": "C98", "title": "Shifts and scales of standardization in floating point", "statement": "Whatever the data, weights and frequencies are, the scale by which a feature is divided is a positive number, never zero and never not-a-number. Unless something overflows, the computed mean and standard deviation of a feature are within explicit bounds of the exact weighted mean and the exact bias-corrected standard deviation. Without weights and for features of size at most M that are neither huge nor tiny this means: standardization succeeds, the mean is off by at most 20 D u M and a standard deviation sigma by at most 470 D u M^2 / sigma, where u is the unit roundoff and D the number of additions of a sum, provided that sigma^2 is larger than 460 D u M^2. A constant feature whose computed mean is that constant is left unscaled and stored as exact zeros. The proviso is needed: in f64 there is a column of equal numbers whose computed mean is a neighbouring number; it is not recognized as constant, is divided by a scale below 2^-52 that is pure rounding error, and is stored as a column of nonzero entries.", "quantifier": "scales: every floating-point format, summation order, number of observations and features, and all data including infinities and not-a-numbers; accuracy: every format with the stated accuracy (f32 and f64 among them), every summation order, with or without intercept, weights and frequencies, all finite data for which the stated sums do not overflow; constant features: every format and every column of equal finite numbers; the failure: one column in f64", "why_tests_cant": "A test tries constant columns such as all ones, whose mean is exact; whether a scale can be zero for some data, and whether every constant column is recognized, are questions about all numbers.", "anchors": ["src/data.rs: Standardizer::from_dataset", "src/data.rs: Standardizer::transform_inplace", "src/data.rs: Dataset::apply_total_weights, n_eff"]}
{"id": "C99", "title": "Deviance, information criteria, dispersion and deviance residuals in floating point", "statement": "Whatever the linear solver returned, the reported deviance, Akaike and Bayesian criteria and (for the families that estimate it) dispersion are finite if nothing overflows and within explicit bounds of the exact values at the reported coefficients; so a reported deviance below zero is at most that bound below zero. If the exact contribution of an observation to the deviance is larger than its error, its deviance residual is not not-a-number, has the sign of the response residual and its size is within an explicit bound of the root of the contribution. For standardized fits the same holds of the features that are read back (C97). For linear regression in f64 without weights, on data and predictor terms of size at most M that are neither huge nor tiny: the deviance is off by at most 72 n D M^2 / 2^53, the Akaike criterion by at most 94 n D (M^2 + 1) / 2^53, the dispersion by at most 135 n D M^2 / ((n - k) 2^53), and the deviance residual of an observation with exact residual r by at most 72 D M^2 / (|r| 2^53) unless r^2 is at most 60 D M^2 / 2^53, where D is the number of roundings of a sum and k the number of coefficients.", "quantifier": "every floating-point format with the stated accuracy (f32 and f64 among them), every summation order, every number of observations and features, with or without intercept, offset, weights and frequencies, every family and link other than complementary log-log, every linear solver and every finite data set for which the stated sums do not overflow", "why_tests_cant": "A test compares with another rounded computation on chosen data; the bounds hold for every rounding, order of summation, solver and data set", "anchors": ["src/fit.rs: Fit::deviance", "src/fit.rs: Fit::aic", "src/fit.rs: Fit::bic", "src/fit.rs: Fit::dispersion", "src/fit.rs: Fit::resid_dev", "src/response/linear.rs: log_like_sat", "src/response/logistic.rs: log_like_sat", "src/response/binomial.rs: log_like_sat", "src/response/poisson.rs: log_like_sat", "src/response/exponential.rs: log_like_sat", "src/response/gamma.rs: log_like_sat", "src/response/inverse_gaussian.rs: log_like_sat", "src/data.rs: sum_weights", "src/data.rs: n_eff"]}
{"id": "C100", "title": "Linear fits are as accurate as the linear solver they use", "statement": "If the symmetric solver answers every positive definite system with relative error at most kappa (in the norm of the matrix of the system), then a Linear fit without an L1 penalty (with or without L2 and standardization) never returns a linear-algebra error, and whenever it returns Ok, its ridge loss exceeds the minimum by at most kappa^2 times the size of the best model (weighted sum of squares of its predictions plus its penalty), up to the error of a single step caused by the epsilon added to the variances; without penalty and with epsilon zero the fitted predictors are within relative distance kappa of the least-squares ones. Wrong answers do not accumulate over iterations, but they are not corrected either: the bound is attained by a solver that is too large by a constant factor.", "quantifier": "every data set with identified coefficients and non-negative weights, every solver with that accuracy (each answer may be wrong differently), start, tolerance, budget, L2 strength and machine epsilon", "why_tests_cant": "the errors of a solver depend on the system and the library; tests see one library on a few systems", "anchors": ["src/irls.rs: Irls::next, irls_mat_vec", "src/regularization.rs: IrlsReg::next_guess", "src/glm.rs: Glm::regression"]}
{"id": "C101", "title": "Fits with zero tolerance are stationary up to the error of the solver", "statement": "If the symmetric solver answers positive definite systems with relative error at most kappa < 1, then a fit of any family and link without an L1 penalty and with zero tolerance that returns Ok at admissible coefficients has a small score there: in every direction it is at most kappa/(1-kappa) times the size of the coefficients times the size of the direction, sizes being measured by the matrix of the Newton system; equivalently the exact Newton step from the result is at most kappa times the point it leads to. An exact solver (kappa = 0) gives score zero.", "quantifier": "every family and link, data set with non-negative weights and identified coefficients, every solver with that accuracy, start, budget, L2 strength and machine epsilon", "why_tests_cant": "the errors of a solver depend on the system and the library; tests see one library on a few systems", "anchors": ["src/irls.rs: Irls::next, step_scale", "src/regularization.rs: IrlsReg::next_guess", "src/fit.rs: Fit::score"]}
{"id": "C102", "title": "The direction in which a feature is counted does not matter", "statement": "Over the reals and for linear algebra that does not depend on the signs of the unknowns: replacing features by their negatives (with a caller's start reversed likewise) gives a model that builds when the original does and a fit that succeeds or fails alike after the same steps, for every family, penalty (also L1), weights and offset, with and without standardization and intercept. The coefficients of the reversed features, their history, score, Wald statistics, influence and leave-one-out coefficients change sign; the rows and columns of Fisher information and covariance likewise; fitted values, predictions, likelihood, deviance, dispersion, AIC, BIC, omnibus tests, all p-values (Wald and exact), leverage, Cook's distances and all residuals (also partial) are the same. For standardized fits every change a x + c with a not zero is harmless, e.g. exchanging the levels of an indicator.", "quantifier": "every choice of reversed features, data set, weights, offset, family, penalty, tolerance, budget, start, and sign-independent linear algebra; for standardized data every change of units with nonzero factors", "why_tests_cant": "The claim relates two whole runs of the iteration (including the ADMM state of L1 penalties, line search and stopping) for all data and penalties; a test compares one pair of fits up to a tolerance.", "anchors": ["src/irls.rs: Irls::next", "src/regularization.rs: soft_thresh, Lasso, ElasticNet", "src/data.rs: Standardizer::from_dataset", "src/fit.rs: Fit"]}
{"id": "C103", "title": "An L1 fit may go round in circles for ever", "statement": "There is no max_iter with which every L1-penalized fit succeeds, and for some data none at all: for the features 6, 7, 8 with an intercept and no_standardize, responses whose third value exceeds the first by one (with the distance of their mean from 7/4 between 1/32 and 2), l1_reg = 3/2 and the default start, the Linear fit returns MaxIter for every max_iter and every tol up to 1/2000 in exact arithmetic. In the history carried by the error the slope keeps swinging: it is at most -1/5 once in every 35 steps and at least 1/4 once in every 35 steps. Yet the penalized log-likelihood has exactly one maximizer, with slope zero.", "quantifier": "all responses of that kind, iteration limits, tolerances up to 1/2000, machine epsilons up to 1e-15 and exact linear algebra", "why_tests_cant": "non-termination for every budget of iterations; a test can only observe that one budget did not suffice", "anchors": ["src/regularization.rs: Lasso, prepare, update_rho, terminate_ok", "src/irls.rs: Irls::next", "src/glm.rs: regression, init_guess"]}
{"id": "C104", "title": "L1 fits of uncorrelated features succeed", "statement": "For the Linear family in exact arithmetic, an L1-penalized fit (lasso or elastic net) succeeds from every start and at every positive tolerance once max_iter is large enough, whenever the features are pairwise uncorrelated and vary (or there is an L2 penalty as well): with the default settings (intercept, standardization) it is the weighted covariances of the features that have to vanish, so a single feature that varies always does; with no_standardize the columns of the design matrix, with the column of ones if there is an intercept, have to be orthogonal. In the latter case the coefficients to be found have a closed form: each is the covariance of its column with the responses, moved towards zero by l1_reg, divided by the sum of squares of the column plus l2_reg (the intercept without both).", "quantifier": "all data sets with such features, weights and frequencies, offsets, responses, L1 and L2 strengths, tolerances, starting points and machine epsilons up to 1/4", "why_tests_cant": "success at every tolerance from every start on every data set of the kind, although the penalty parameter may be raised and lowered for ever; C103 shows that the same data may cycle without standardization", "anchors": ["src/regularization.rs: Lasso, ElasticNet, prepare, update_rho, soft_thresh, terminate_ok", "src/irls.rs: Irls::next", "src/data.rs: Standardizer", "src/glm.rs: regression"]}
{"id": "C105", "title": "Information matrix, Wald statistic and response, Pearson and working residuals in floating point", "statement": "Whatever the linear solver returned, each entry of the information matrix that a fit without L1 penalty and standardization reports at given coefficients is finite if nothing overflows, and within an explicit bound of the exact information at these coefficients (curvature of the exact log-likelihood, plus the ridge strength); the Wald statistic against an alternative is within an explicit bound of the exact quadratic form in the difference to the reported coefficients; and the response, Pearson and working residuals are within explicit bounds of their exact values at the reported coefficients, the last two if the exact variance is larger than its error. For logistic regression in f64 without weights and penalties, for design entries of size at most X and predictor terms that add up to at most M, with k coefficients: entries of the information are off by at most 25 D (M+1) n X^2 / 2^53, the Wald statistic for coefficients that differ by at most d by at most 29 D (M+1) k^2 n X^2 d^2 / 2^53, response residuals by at most 10 D (M+1) / 2^53, and, where the variance V of the observation is at least 50 D (M+1) / 2^53, Pearson residuals by at most 52 D (M+1) / (V^(3/2) 2^53) and working residuals by at most 45 D (M+1) / (V^2 2^53); D is the number of roundings of a sum.", "quantifier": "every floating-point format with the stated accuracy (f32 and f64 among them), every summation order, every number of observations and features, with or without intercept, offset, weights, frequencies and ridge penalty, every family and link other than complementary log-log, every linear solver, every alternative and every finite data set for which the stated sums do not overflow", "why_tests_cant": "A test compares with another rounded computation on chosen data; the bounds hold for every rounding, order of summation, solver and data set", "anchors": ["src/fit.rs: Fit::fisher", "src/fit.rs: Fit::wald_test_against", "src/fit.rs: Fit::resid_resp", "src/fit.rs: Fit::resid_pear", "src/fit.rs: Fit::resid_work", "src/response/linear.rs: variance", "src/response/logistic.rs: variance", "src/response/binomial.rs: variance", "src/response/poisson.rs: variance", "src/response/exponential.rs: variance", "src/response/gamma.rs: variance", "src/response/inverse_gaussian.rs: variance", "src/link.rs: adjust_variance", "src/regularization.rs: irls_mat"]}
{"id": "C106", "title": "Standard errors, leverages, influences and score tests are as accurate as the matrix inversion", "statement": "If matrix inversion answers for every positive definite matrix with relative error at most kappa (as a bilinear form), then for every fit with non-negative weights and variances and positive definite information at the reported coefficients: all of covariance, leverage, Cook's distance, influence and standardized Pearson residuals are available; each leverage has relative error at most kappa, and without penalty their sum is the number of coefficients up to a relative error kappa; the reported variance of every linear combination of the coefficients is off by at most (2 kappa + kappa^2) times the dispersion times its size in the inverse information, which without penalty is a relative error 2 kappa + kappa^2 of each squared standard error; z statistics keep the sign of the coefficient, and their squares are right up to the factors (1 + kappa)^2 and 1 - 2 kappa - kappa^2; the influence on the coefficients of an observation with leverage h is off by at most a relative error kappa / (1 - (1 + kappa) h) in the norm of the information; Cook's distances and standardized residuals lie between their values for leverages (1 - kappa) h and (1 + kappa) h; and a score test against any alternative has relative error at most kappa.", "quantifier": "every inversion routine with the stated accuracy, every solver and fit that succeeds, every family and link, every data set with or without standardization, intercept, offset, weights and frequencies, every penalty (score test: no L1), every linear combination of coefficients and every alternative; exact arithmetic outside the inversion", "why_tests_cant": "A test sees one inversion routine on a few matrices; the bounds hold for every routine with the stated accuracy and every data set", "anchors": ["src/fit.rs: Fit::covariance", "src/fit.rs: Fit::fisher_inv", "src/fit.rs: Fit::fisher_std_inv", "src/fit.rs: Fit::hat", "src/fit.rs: Fit::leverage", "src/fit.rs: Fit::cooks", "src/fit.rs: Fit::infl_coef", "src/fit.rs: Fit::resid_pear_std", "src/fit.rs: Fit::score_test_against", "src/fit.rs: Fit::wald_z"]}
{"id": "C107", "title": "Symmetries of the data are symmetries of the fit", "statement": "Over the reals, for linear algebra that treats the unknowns alike and does not depend on their signs, and for every successful fit of every family, link, penalty, weights, offset, tolerance and iteration limit, optimal or not: two features with identical values have the same coefficient, also at every step of the history, the same variance and the same z statistic (with a start that treats them alike); more generally a reordering of the features that leaves the data as they are leaves every reported quantity as it is. With standardization, if one feature is another in other units (x_k = a x_j + c), their coefficients are those of one effect in the two units (beta_j = a beta_k), for a of either sign. If exchanging observations amounts to a recoding of features (x_j to a_j x_j + c_j with a_j not 1, for example two arms with the same responses; sign changes only without standardization), the recoded features have coefficient zero. A feature that is zero everywhere, or constant when there are an intercept and standardization, has coefficient zero at every step.", "quantifier": "all data sets with such a symmetry, families, links, penalties, weights, offsets, options and successful fits", "why_tests_cant": "ranges over all symmetric data sets and all paths of the iteration, whether it ends at an optimum or not", "anchors": ["src/data.rs: finalize_design_matrix, Standardizer", "src/glm.rs: regression, init_guess", "src/irls.rs: Irls", "src/regularization.rs: Ridge, Lasso, ElasticNet", "src/fit.rs: result, history, covariance, wald_z"]}
{"id": "C108", "title": "A yes/no feature gives the textbook comparisons of two groups", "statement": "Over the reals, for a fit with an intercept, one feature with the values 0 and 1, no offset and no penalty, whose score vanishes at the reported coefficients: for every family and link fitted values and predictions are the weighted means of the responses of the two groups, the intercept is the link of the mean of group 0 and the coefficient the difference of the links of the means; the covariance is that of independent groups. For the Linear family the z statistic is Student's two-sample t statistic with pooled variance (without variance weights) and the likelihood-ratio statistic the sum of squares between the groups. For logistic regression the coefficient is the log odds ratio, its variance 1/a+1/b+1/c+1/e with the four cell counts (none of which is zero), the likelihood-ratio statistic the G statistic of the two by two table, and the score test, at any reported coefficients, is Pearson's chi-squared statistic. For Poisson regression the coefficient is the log rate ratio with variance 1/S0+1/S1 for the total counts, and the likelihood-ratio statistic is twice the sum of O log(O/E). For the Exponential and Gamma families with log link it is the log ratio of means, with variance dispersion times (1/W0+1/W1). For every family and link the score test is the squared difference of the means over V(mean) (1/W0+1/W1).", "quantifier": "all data sets with one such feature, frequency and variance weights, families, links, options, and all fits of them with vanishing score (the score test: all fits)", "why_tests_cant": "identities between statistics of the fit and closed formulas for all data of this shape; tests compare a few tables up to a tolerance", "anchors": ["src/fit.rs: covariance, wald_z, lr_test, score_test, score_test_against, predict, null_model_fit", "src/glm.rs: regression", "src/response/linear.rs: Linear", "src/response/logistic.rs: Logistic", "src/response/poisson.rs: Poisson", "src/response/gamma.rs: Gamma", "src/response/exponential.rs: Exponential"]}
{"id": "C109", "title": "One feature gives the textbook formulas of simple linear regression", "statement": "Fit the Linear family with intercept to a single feature that is not constant. At a point of vanishing score the fitted line passes through the point of the (weighted) means and its slope is sxy/sxx; with an L2 penalty it is sxy/(sxx + l2 s^2), which for standardized features shrinks the least-squares slope by a factor that depends on the weights only (with unit weights 1/(1 + l2/(n-1))). Without penalty the deviance is syy - sxy^2/sxx, r_sq() is the squared correlation coefficient, the likelihood-ratio statistic is the explained sum of squares sxy^2/sxx, the variances of intercept and slope are phi(1/W + xbar^2/sxx) and phi/sxx with covariance -phi xbar/sxx, the leverage of an observation is its weight times 1/W + (x - xbar)^2/sxx, and without variance weights the z statistic of the slope is the textbook t statistic, that is r sqrt(n-2)/sqrt(1-r^2).", "quantifier": "every data set with one non-constant feature, any number of observations, any responses, any weights and frequencies with positive total, standardized or not, every successful fit with vanishing score", "why_tests_cant": "the formulas must hold for every data set, weighting and penalty; tests compare a few data sets with numbers from another program", "anchors": ["src/fit.rs: covariance, wald_z, leverage, hat, r_sq, lr_test, deviance, dispersion, predict", "src/glm.rs: regression", "src/data.rs: Standardizer", "src/response/linear.rs: Linear"]}
{"id": "C110", "title": "Counts with exposures give rates and rate ratios, and may be aggregated", "statement": "Give Poisson regression the logarithm of an exposure (time at risk, area, population) as offset. Observations with equal features and weights may be put together into cells, adding up counts and exposures: score and information at every coefficient vector stay the same and the log-likelihood changes by a constant, so unpenalized fits of the observations and of the cells at which the score vanishes have the same coefficients, covariance, z statistics and test statistics against every alternative. With a single yes/no feature the intercept is the logarithm of events per unit of exposure in the first group and the coefficient the logarithm of the rate ratio, with variances 1/D0 and 1/D0 + 1/D1 (D the numbers of events); predict() gives the rate without offset and the rate times the exposure with the logarithm of an exposure as offset. Without features the intercept is the logarithm of all events over all exposure, with variance one over the number of events.", "quantifier": "every data set of counts with positive exposures, any number of observations, cells, features and any way to put observations together, any weights equal within cells, with and without standardization and intercept", "why_tests_cant": "the equality must hold for every data set and every way of aggregating it; tests fit a few data sets", "anchors": ["src/fit.rs: covariance, wald_z, lr_test_against, wald_test_against, score_test_against, predict, score, fisher", "src/data.rs: Dataset::linear_predictor_std, linear_offset", "src/response/poisson.rs: Poisson", "src/model.rs: linear_offset"]}
{"id": "C111", "title": "Observations with equal features may be averaged", "statement": "Replacing observations that have equal features and offsets by one observation with their weighted mean response and their total weight changes neither the log-likelihood nor the score nor the information at any coefficients, for every family and link. Hence fits of the observations and of the averages, penalized alike and with a vanishing score, have the same coefficients when the features are linearly independent, and the same likelihood-ratio, Wald and score tests against any alternative; their covariances are in the ratio of their dispersions, so equal when the dispersion is fixed; their deviances differ by a number that depends on the responses only. In particular single successes and failures may be replaced by proportions.", "quantifier": "every data set, weights, offset, assignment of observations to cells, family and link (for the fits: with concave log-likelihood), penalties (none, or equal L2 penalties without standardization), coefficients", "why_tests_cant": "The equality must hold for every partition of every data set and every family; a test compares two fits of one data set up to rounding.", "anchors": ["src/response/logistic.rs", "src/response/binomial.rs", "src/glm.rs: log_like", "src/fit.rs: score, fisher, deviance, covariance"]}
{"id": "C112", "title": "Models with one coefficient for each cell reproduce the means of the cells (analysis of variance)", "statement": "If the observations fall into as many cells (groups, treatments, combinations of factor levels) as there are coefficients, coded by features in any invertible way, then an unpenalized fit with vanishing score has the weighted means of the cells as fitted values and predictions, for every family and link; its deviance is the total of the unit deviances from the cell means; the linear predictors of different cells are uncorrelated with variance dispersion over information of the cell; each leverage is the observation's share in the weight of its cell. With an intercept, the likelihood-ratio statistic is the total of the unit deviances of the cell means from the overall mean, and the score statistic the total of their squared differences over the null variance: for the Linear family the sums of squares within and between of the analysis of variance with R squared and mean square, for counts and for successes and failures Pearson's chi-squared.", "quantifier": "every number of cells, coding, data set without offset, weights with positive total in each cell, family and link, with or without standardization", "why_tests_cant": "The identities hold for every design with one coefficient per cell, every coding and every family; tests compare finitely many designs up to rounding.", "anchors": ["src/fit.rs: score, deviance, covariance, leverage, lr_test, score_test, r_sq, predict"]}
{"id": "C113", "title": "What one coefficient means in the presence of the other features", "statement": "Regress a feature on the other features with the Linear family. In an unpenalized Linear fit its coefficient times the weighted sum of squares of the residuals of that regression is the weighted sum of the products of those residuals with the responses net of offset. In a fit of any family, with the information weights as the weights of that regression, the variance of the coefficient is the dispersion over the deviance of that regression, and its Wald statistic is the coefficient over the square root of this. Leaving the feature out of a Linear fit changes the other coefficients by its coefficient times the coefficients of that regression, hence not at all if the feature is uncorrelated with the others. With an intercept, that deviance is 1 minus the R squared of the regression times the weighted sum of squares of the feature about its mean, so that the variance grows by the variance inflation factor 1/(1 - R squared).", "quantifier": "every data set, feature, offset, weights, with or without intercept and standardization; the variance for every family and link", "why_tests_cant": "The identities relate separate fits of arbitrary data; tests compare finitely many data sets up to rounding.", "anchors": ["src/fit.rs: score, fisher, covariance, wald_z, deviance, r_sq, resid_resp", "src/glm.rs: regression"]}
{"id": "C114", "title": "An indicator of one observation takes it out of the fit", "statement": "Add a feature that is 1 for one observation and 0 for all others. In an unpenalized fit of any family and link with vanishing score that observation is fitted exactly, the other coefficients solve the score equation of the data without the feature and the observation, and the other fitted values are theirs; where that optimum is unique, refitting without the observation gives these coefficients and the same deviance. For the Linear family the coefficient of the indicator is the residual of the observation from the fit that leaves it out, the ordinary residual over 1 minus the leverage, with variance the dispersion over the weight times 1 minus the leverage; its Wald statistic, which is the textbook test for an outlier, is the externally studentized residual of the fit without the indicator times the square root of 1 minus the leverage.", "quantifier": "every data set, observation, offset, weights, with or without intercept and standardization; every family and link; the last statement for data without weights", "why_tests_cant": "The identities relate separate fits of arbitrary data; tests compare finitely many data sets up to rounding.", "anchors": ["src/fit.rs: score, deviance, leverage, covariance, wald_z, resid_student, dispersion_loo", "src/glm.rs: regression"]}
{"id": "C115", "title": "The comparisons with the null model are not divided by the dispersion", "statement": "For an unpenalized Linear fit with vanishing score to independent (or uncorrelated) responses with mean on the model and variance the dispersion over the weight, twice the gain in log-likelihood over the true coefficients has the expectation dispersion times the number of coefficients. If no feature matters, lr_test, wald_test and score_test agree and have the expectation dispersion times test_ndf, not test_ndf. Accordingly pvalue_lr_test depends on the unit of the responses: if the statistic is positive, for each q between 0 and 1 there is a unit in which the p-value is q, although the same model is fitted, with the converted coefficients and the same coefficient of determination and Wald statistics of the features.", "quantifier": "every design of full rank, positive variance weights, every distribution of the responses with these first two moments; every q in (0, 1)", "why_tests_cant": "The statement is about expectations over all responses and about all units; a test sees single data sets.", "anchors": ["src/fit.rs: lr_test, lr_test_against, wald_test, score_test, test_ndf, pvalue_lr_test, wald_z, r_sq"]}
{"id": "C116", "title": "Linear fits are the best linear unbiased estimates, and what an L2 penalty does to them", "statement": "Responses with means on the model and variances the dispersion over the variance weights, uncorrelated. Let a combination of the coefficients be given: one of them, a contrast, a prediction. Its estimate by an unpenalized Linear fit with vanishing score has the right expectation, and any other affine function of the responses that has the right expectation whatever the true coefficients are has a larger variance, or is the same function (Gauss and Markov). With l2_reg the expected coefficients are the ridge solution for the exact means, and the variance of each combination is at most that without penalty; if l2_reg times the sum of the squared true slopes, in the units of the penalty, is at most twice the dispersion, the mean squared error of each combination is at most that without penalty.", "quantifier": "every design of full rank, offset, positive variance weights, with or without intercept and standardization; every distribution of the responses with these first two moments; all combinations of coefficients and all competing affine estimates", "why_tests_cant": "The claim compares expectations over all responses with all competing estimates.", "anchors": ["src/glm.rs: regression", "src/fit.rs: predict", "src/irls.rs: Irls::next", "src/regularization.rs: Ridge"]}
{"id": "C117", "title": "Linear fits of normal responses have normal coefficients, independent of the residuals", "statement": "Suppose the responses are independent normal variables whose means are linear in the features and whose variances are phi divided by the variance weights. Then every linear combination of the coefficients returned by an unpenalized Linear fit is exactly normal, with the true value as its mean and the variance phi c' F^-1 c, where F is the Fisher information reported by the fit. The interval of z such standard errors around it covers the true value with exactly the probability that a standard normal variable lies within z. The coefficient vector is independent of the residual vector, of the deviance and of the estimated dispersion.", "quantifier": "for all features, offsets, positive variance weights, true coefficients, dispersions, probability spaces carrying such responses, combinations of coefficients and widths z", "why_tests_cant": "The claim is about the law of the results over a continuum of random responses; simulations only estimate it.", "anchors": ["src/fit.rs: covariance, fisher, deviance, dispersion, resid_resp", "src/irls.rs: step"]}
{"id": "C118", "title": "The Wald test of a Linear fit has exactly its stated level", "statement": "Suppose the responses are independent normal variables whose means are linear in the features and whose variances are phi divided by the variance weights, there are more observations than coefficients, and the fit is unpenalized. Then the deviance divided by phi is chi-squared with n - K degrees of freedom. Without variance weights, wald_z of a coefficient whose true value is zero follows Student's law with n - K degrees of freedom, pvalue_wald of it is uniform (a test of level alpha rejects with probability exactly alpha), and so is pvalue_exact. With variance weights wald_z follows that law only up to the factor sqrt((1 - K/n_eff) sum w / (n - K)).", "quantifier": "for all features of full rank, offsets, positive variance weights, true coefficients, dispersions, probability spaces carrying such responses, coefficients and levels", "why_tests_cant": "The claim is about the law of the results over a continuum of random responses; simulations only estimate it.", "anchors": ["src/fit.rs: deviance, dispersion, wald_z, pvalue_wald, pvalue_exact, ndf"]}
{"id": "C119", "title": "The exact laws of the omnibus tests of a Linear fit", "statement": "Suppose the responses are independent normal variables whose means are linear in the features and whose variances are phi divided by the variance weights, and the fit is unpenalized. Then lr_test_against, wald_test_against and score_test_against, evaluated at the true coefficients, are equal and phi times a chi-squared variable with K degrees of freedom; divided by the deviance, each with its degrees of freedom, they follow Fisher's law. If no feature matters and the model has an intercept and no offset, the same holds of lr_test, wald_test and score_test with test_ndf degrees of freedom. pvalue_lr_test, compared with the level that belongs to the critical value c, rejects with the probability that belongs to c/phi, which is the stated level if and only if phi is 1.", "quantifier": "for all features of full rank, positive variance weights, true coefficients, dispersions, probability spaces carrying such responses and critical values", "why_tests_cant": "The claim is about the law of the results over a continuum of random responses; simulations only estimate it.", "anchors": ["src/fit.rs: lr_test, lr_test_against, wald_test, wald_test_against, score_test, score_test_against, pvalue_lr_test, test_ndf"]}
{"id": "C120", "title": "Confidence intervals for combinations of the coefficients of a Linear fit", "statement": "Suppose the responses are independent normal variables whose means are linear in the features and whose variances are phi divided by the variance weights, and the fit is unpenalized with more observations than coefficients. For every nonzero vector c, the error of c . result divided by the standard error sqrt(c . covariance c) follows Student's law with n - K degrees of freedom, up to the factor of C118 when there are variance weights. Without variance weights, the interval of q standard errors around c . result covers the true c . beta with exactly the Student probability of [-q, q]; this includes single coefficients and predictions at new features.", "quantifier": "for all features of full rank, true coefficients, dispersions, directions c, widths q and probability spaces carrying such responses", "why_tests_cant": "The claim is about the coverage probability over a continuum of random responses, for every direction and width; simulations only estimate it.", "anchors": ["src/fit.rs: covariance, result, dispersion, ndf"]}
