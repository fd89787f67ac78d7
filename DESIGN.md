# Formal model of felix-clark/ndarray-glm

## 1. What is modelled

The crate has one computational core: a builder turns user arrays into a `Dataset`,
`Glm::regression` runs an IRLS iterator over it, and `Fit` derives statistics from the
optimum.  All of it is modelled, function by function, in `lean/Verif/Model`.

* **Arithmetic.**  Every model function is written once, over an arbitrary scalar type `F`
  with a law-free class `Scalar F` (the operations of `num::Float` the crate uses: `+ - * /`,
  `exp`, `ln`, `exp_m1`, `ln_1p`, `sqrt`, `abs`, `signum`, comparisons as `Bool`,
  `total_cmp`).  Theorems about control flow (iteration budget, history bookkeeping, error
  propagation, builder, caches) are proved for *every* `Scalar F`, hence for IEEE
  arithmetic with NaN.  Theorems about numbers are proved for the instance `Scalar ℝ`, i.e. in
  exact arithmetic.  C83-C86 are proved in floating-point arithmetic (`Fl fmt`, below).
* **Floating point.**  `FloatFormat` (Spec/Ieee) lists what the theorems need from a format: rounding
  is monotone, symmetric, idempotent, fixes one and sends what is too large to infinity; library
  functions have the right signs and limits.  `Fl fmt` has signed zeros, infinities and NaN with the
  special cases of IEEE 754, and is a `Scalar`, so the same model functions run in it.  `binary p emin
  emax` is the binary format with round-to-nearest-even; `binary64` and `binary32` are instances
  (Lemmas/Binary), with correctly rounded library functions.  Decimal constants are rounded once
  (the crate converts them from `f64`, which may differ in the last bit for `f32`).  The order of
  summation and the use of fused multiply-add belong to the format (`FloatFormat.order`): a binary tree
  of additions and fused operations for each kind of sum, shape and position, in which every term takes
  part once.  C83-C86 hold for every such order.  Assumed: the library computes a sum of the same shape
  in the same way each time (the order does not depend on memory alignment), and does not skip products
  with a zero factor.
* **Arrays.**  `Array1<F>` of length n is `Fin n → F`, `Array2<F>` is `Fin n → Fin m → F`;
  the order in which a sum is computed is an operation of the arithmetic (`Scalar.order`), because
  ndarray unrolls sums and leaves products to the BLAS library (Cargo.toml:27), which blocks them and
  may fuse multiplications with additions.  In exact arithmetic it makes no difference.  Ownership, views and memory order are not modelled.  The builder layer works
  on lists, with explicit shape checks, and is connected to the typed layer by a refinement.
* **Linear algebra.**  LAPACK calls (`solveh_into`, `invh_into`, `inv_into`) are parameters
  (`Env`), returning `ok` or an error.  Control-flow theorems hold for every `Env`; numerical
  theorems assume `Env.Exact`: a returned solution solves the system, and a solution is
  returned whenever the matrix is symmetric and invertible.  An instance of `Env.Exact` is
  constructed, so this is not vacuous.  C100 and C101 assume only a relative error instead.
* **Panics / divergence** are explicit values (`Outcome.panic`, `Outcome.diverge`).  The one
  potentially infinite loop in the crate (`step_scale`) takes a fuel argument and running out
  of fuel is `diverge`.
* **Floating-point machine epsilon** is an arbitrary parameter `Env.eps`.

* **Statistics crate.**  `statrs` is a parameter (`Dists`): constructors that may fail, and
  distribution functions.  Theorems that need laws assume `Dists.Lawful` / `Dists.SquareLaw`
  (Spec/Dists); `realDists` (Spec/RealDists) builds an instance from Mathlib's Gaussian, Gamma,
  exponential and Poisson measures and both laws are proved for it.
* **Undefined operations.**  The instance `Scalar ℝ` is total (`x/0 = 0`, `ln` of a negative number is
  a number), which would hide sign errors below a logarithm.  `NReal` (Spec/Strict) is the reals plus
  one not-a-number, produced by division by zero, logarithm of a non-positive number and root of a
  negative number; C60-C63 and part of C66 are proved there.  Infinities are not distinguished from
  NaN, so where IEEE arithmetic recovers from an infinity (`1/(1+exp(-x))` for huge `x`, the clamp
  after `alpha/0` in the gamma distribution) `NReal` is stricter than the code; such arguments are
  excluded in the statements.

Model files and the code they cover:

| file | code |
|------|------|
| Model/Scalar, Array | num.rs, math.rs, the ndarray operations used |
| Model/Link, Response | link.rs, response.rs, response/*.rs (all 11 family/link pairs) |
| Model/Dist | `Response::get_distribution` of every family |
| Model/Data | data.rs: `Dataset`, `Standardizer`, weights, predictors, Fisher transforms |
| Model/Env | linear algebra backend, `Outcome` |
| Model/Regularization | regularization.rs: the four regularizers, ADMM state |
| Model/Glm | glm.rs: likelihood, `regression` helpers, initial guess |
| Model/Irls | irls.rs: the iterator, step scaling, convergence, `fit loop` |
| Model/Fit | fit.rs: every statistic of a fit that needs no refit |
| Model/Refit | fit.rs: null model, drop-one models, leave-one-out, p-values, quantile residuals |
| Model/Build | model.rs, fit/options.rs: builders over raw shapes, `to_float` conversions, options |
| Model/Cache | fit.rs: the `OnceCell`/`RefCell` caches as explicit state |

Not modelled: forward error bounds other than those of sums and predictions (C86), likelihoods and scores
(C95-C97), standardization (C98), deviance, criteria, dispersion and deviance residuals (C99), information,
Wald statistics and the other plain residuals (C105); in particular none of leverages, covariances, standardized
residuals and score tests, which depend on the linear-algebra library: for them C106 bounds the effect of an
inexact matrix inversion in otherwise exact arithmetic.
The other exact theorems are about exact arithmetic, the other floating-point ones about signs, ranges,
NaN and termination.  Also not modelled: `eprintln!` warnings; ndarray memory layout, views and
ownership; `Display`/`Error` implementations and the string payload of errors; trait plumbing (the
`Yval` of integer types is the image of its conversion to `F`; that `resid_quantile` is unavailable
for discrete families is a trait bound, represented by `Family.continuousResponse`); the tests,
examples and benches; `Fit`'s `Debug`.

### Assumptions about dependencies

* `Env.Exact` (Spec/Exact): `solveh`, `invh`, `inv` return a solution / inverse when they return, and
  succeed on symmetric (for `inv`: all) invertible matrices.  `exactEnv` is a witness.
  C100-C101 and C106 replace exactness by a relative error (`SolvesWithin`, `InvertsWithin`).
* ndarray: broadcasting of length-1 arrays in `Zip`-free arithmetic, panics on other length mismatches,
  `mean()` of an empty array is `None`, `sum` of an empty array is 0.
* once_cell: `get_or_init` runs its closure at most once per cell and keeps the value; `get_or_try_init`
  does not keep errors.
* statrs: `new` of each distribution accepts exactly the parameters listed in `Distribution.accepted`
  and in `realDists`.
* `f64::max`, `clamp`, `total_cmp`, `signum` as documented by the standard library.

## 2. Trusted base

Lean 4.33.0's kernel; Mathlib's definitions (`Real.exp`, `Matrix`, derivatives, measures, ...); the
axioms `propext`, `Classical.choice`, `Quot.sound`, and no others (`AXIOMS.txt` lists the axioms of
every theorem named in MANIFEST.json, as printed by `#print axioms`); the faithfulness of the definitions
in `Verif/Model` to the Rust text they cite; the vocabulary in `Verif/Spec`; for numerical theorems the
hypotheses named in their statements (`Env.Exact`, `Dists.Lawful`, ...).

## 3. Layout

* `Verif/Model/*`  - the model; each definition cites file and lines.
* `Verif/Spec/*`   - independent vocabulary used to state properties.
* `Verif/Lemmas/*` - helper lemmas.
* `Verif/Props/*`  - one theorem (or a few) per property with non-vacuity examples.

## 4. Plan per property

| id | modelled | proof idea |
|----|----------|------------|
| C01-C03 | builder as fold over a list of calls, lists with lengths | case analysis; counting occurrences by induction over the call list; permutation induction |
| C04 | `into_float` per family, first offender | induction over the response list |
| C05-C08 | `Standardizer`, `Dataset` over ℝ | algebra on finite sums |
| C09 | `predict`, `Fit` fields | C08 + definition of fitted values |
| C10 | score, fisher, tests on both datasets | change of variables X_std = X J |
| C11-C14 | weights helpers, likelihood, IRLS equation | fibre sums; Cauchy-Schwarz |
| C15-C21, C55 | all families and links over ℝ | real analysis, calculus |
| C22, C29, C30, C49, C50 | IRLS matrix and vector | linear algebra, concavity, derivatives |
| C23, C57 | same, Linear family | contraction of the iteration; explicit limit |
| C24-C28, C56 | the iterator as a state machine, any arithmetic | invariants by induction on steps |
| C31-C35, C58 | regularizers as data, ADMM state machine | invariants by induction, convex analysis |
| C36-C43, C45, C51, C54, C59 | every statistic of `Fit` | linear algebra over ℝ, Sherman-Morrison |
| C44 | fit caches as a state machine | refinement to pure accessor, induction over call lists |
| C46, C53 | regression, loo_exact | unfolding, refinement |
| C47, C52 | dimension bookkeeping, options setters | induction over call lists |
| C48 | drop-one models of `pvalue_exact` | equality of datasets and options with those of a fresh fit |
| C60-C62 | family functions, build, fit, statistics in `NReal` | simulation: the run over `NReal` tracks the run over ℝ |
| C63 | fits of partially defined links | invariant of the iteration: the history stays in the domain |
| C64 | p-values with lawful distributions | case analysis; survival functions are antitone |
| C65 | `pvalue_exact`, `pvalue_wald` on Linear fits | block elimination; F(1,d) is the square of t(d) |
| C66 | `get_distribution`, `resid_quantile` | moments of the measures; probability integral transform |
| C67 | `finalize`, `Standardizer`, `regression`, statistics | the standardized data sets of the two unit systems are equal up to the standardizer, so the whole run is (`regressionCore_congr`) |
| C68 | `Exponential`/`Gamma`, `Binomial`/`Logistic`, `regression`, statistics | equality of the iteration equations, then `regressionCore_congr` |
| C69 | `finalize`, `regression`, all statistics | reordering is a recount (C11) that keeps the number of rows, then `regressionCore_congr` |
| C70 | `step_scale`, `next`, `score` | positive definite Newton matrix gives an ascent direction; a zero-tolerance stop is certified (C56), so the step was zero |
| C71 | `Ridge`, `score`, `regression` | strong concavity of the penalized likelihood; coercivity for existence |
| C72 | `init_guess`, `regression` | the internal normal equations are those of the transformed responses; uniqueness of least squares |
| C73 | generic `impl Glm for Family<L>`, provided methods of `Transform` (`Model/Custom`) | chain rule through the canonical link; reuse of the theorems generic in the link |
| C74 | whole build, iteration and statistics | renumbering the parameters is a simulation of the iterator (`Lemmas/Relabel`), then statistic by statistic |
| C75 | whole build, iteration and statistics | same simulation with the identity between `ncols true p` and `ncols false (p+1)` |
| C76 | score, information, coefficients, residuals, dispersion, covariance as functions of random responses | score, coefficients and residuals are affine in the responses; expectation and covariance of affine functions of uncorrelated variables (Mathlib's integrals); trace of the projection for the deviance |
| C77 | whole runs on data with frequencies and with repeated rows | one iterator call gives the same candidate on both, only the flag "converged" may be set earlier with more rows (its tolerance counts rows); induction over the loop; statistics by the recount relation |
| C78 | `regression` for Linear with an L2 penalty | every step is the full step; its error contracts in the norm of the curvature (an identity between quadratic forms, no eigenvalues) |
| C79 | two runs of `regression` on data in different codings, and the statistics of their fits | simulation: Newton equations, objectives and line searches of the two runs correspond under the affine map; at zero tolerance every branch of `Irls::next` is decided the same way; statistics from their expressions in the user's data |
| C80 | Intercept entry of the score as a sum over the user's data (`C10_external`, `Fit.score_ext`), with the penalties sparing the intercept; canonical links have natural parameter equal to the predictor. | Direct computation on sums; group case by evaluating the linear predictor on indicators; sum of squares by orthogonality of residuals and fitted values. |
| C81 | Unit deviances of the textbooks in `Spec/Deviance`, written with `y` and `μ` only. | Saturated and natural log-likelihood in closed form for each family, natural parameter as canonical link of the mean; simplifications from C80. |
| C82 | Changes of the responses as an inductive list (`ResponseChange`), converted data, coefficients, options; the laws of all statistics as records in `Spec/ResponseUnits`. | Row laws for each family; both runs simulate each other (`Lemmas/Twin`, also used for C79): objective, score and Newton matrix correspond up to an affine map and a factor; statistics by algebra. |
| C83 | The model functions in `Fl fmt`, ranges of means in `Spec/Rounding`. | Monotone rounding keeps signs and bounds; special cases by cases on NaN, zero and infinity; `binary64` is built and calculated with for the negative results. |
| C84 | `step_scale` and the whole fit in `Fl (binary ..)`, all binary formats with 4 bits or more. | The rounded golden factor lies in [9/16, 5/8], so the step shrinks by 7/8 or more until it is below two least subnormals; then it is compared with the tolerance. At the least subnormal it sticks, which gives the negative part. |
| C85 | Whole fits in `Fl fmt`, any format; `Stored` (rounding leaves the value alone) in `Spec/Rounding`. | Log-likelihoods do not see the sign of zeros, so the point at step zero has the likelihood of the current point; a comparison with NaN is false, so accepted points improve; induction over the iterations; `total_cmp` is a total order. |
| C86 | `predict` in `Fl fmt`; `Spec/Accuracy` says what an accurate format is, counts the roundings of an order of summation, and gives the error bounds. | Induction over the additions; the inverse links by Lipschitz constants (mean value theorem) and the error of each operation; the binary formats from `|round v - v| <= ulp/2`. |
| C87 | `score` and `lr_test_against` of a fit; `Spec/Existence` defines separated data in the user's terms. | A separating direction has a positive product with the score everywhere. Without one the objective decays along every direction of the attainable linear predictors (compactness of the unit sphere), so it has a maximum, where the gradient (C50) vanishes; with an L1 penalty the optimality conditions hold there; for reciprocal links the maximum over a closed part is shown not to lie on its edge. |
| C88 | Pairs of fits: nested designs (`Spec/Compare`) and two penalty strengths on one dataset. | The coefficients of one fit are candidates for the other, so two optimality inequalities add up; equality in the deviance forces every gap of the log-likelihood, and so every difference of predictors, to vanish. |
| C89 | Optimal fits (`Spec/Compare`) with L1 and L2 penalties. | One-sided derivatives along each coordinate give the optimality conditions; the rest follows from monotonicity of the subgradient and from the tangent inequality of the log-likelihood at the null model. |
| C90 | Fits without L1 penalty from a given starting point, in exact arithmetic, near a solution of the score equations (`Spec/Local`: observed and expected information, and what converging from a neighbourhood means). | The penalized log-likelihood is expanded to second order at the solution and the Newton map to first order. A bound on the observed information by twice the expected one (plus machine epsilon) makes the deficiency of the objective shrink by a fixed factor at each full step. So the line search accepts the full step, the neighbourhood is kept, and the convergence test is met after finitely many steps. The curvature condition is then checked family by family. |
| C91 | L1 fits of the Linear family in exact arithmetic; `Spec/Admm` states ADMM with residual balancing and the stopping rule without reference to the model. | The step equation of the iterator is the optimality condition of the coefficient step and the soft threshold that of the split step; strong concavity makes both unique. An invariant of the iterator carries the whole run. Each step strictly increases the augmented Lagrangian, so the line search is never used. Convergence rests on two Lyapunov functions of Douglas-Rachford type, one for a penalty parameter that only grows and one for one that only shrinks, at an optimum that exists by C87. |
| C92 | Successful L1 fits of every family in exact arithmetic; the certificate (`L1Stop`, `SmallStep`, `NoProgress`, `excess`) is in `Spec/Admm`. | An invariant of the iterator keeps the last system and its penalty parameter. The solution of the system gives the gradient at the point; the soft threshold gives the subgradient. Concavity bounds the log-likelihood by its tangent plane, and the subgradient inequality the L1 penalty; the reported point is the best recorded one. |
| C93 | Predictions of a fit for pairs of new rows; the linear predictor and the effect are in `Spec/Effects`. | `predict` in external units is the mean at the dot product with the padded row; each inverse link is then inverted in closed form. |
| C94 | Pairs of optimal fits (`Optimal`: no admissible coefficients have a larger objective) of data sets that differ in the responses or in one weight; `Spec/Stability`. | Adding the two optimality inequalities leaves the terms that differ; with a canonical link, the difference of the two subgradient equations, monotonicity of subgradients and Cauchy–Schwarz. |
| C95 | `AccurateLogs` (rounding and library functions with relative error `u` or absolute error `tiny`, no overflow below `big`); the log-likelihood, penalty and fit of the model over `Fl`; the exact objective of the same numbers over the reals; `Spec/LikeAccuracy` has the bounds. | Forward error analysis: error of the linear predictor (C86), of the natural parameter, sensitivity of each log-likelihood to its natural parameter, up to five roundings per observation, two per weight, the tree of the sum; then the penalty, and C27/C85 for fits. The complementary log-log link (whose log-likelihood is not-a-number for moderate predictors, C83) is not covered; standardized features are C97. |
| C96 | `Accurate` arithmetic as in C86; `Fit.score`, `Reg.gradient`, `Link.adjust_errors` and the weighted design matrix of the model over `Fl`, with an arbitrary `Env`; the exact gradient of the same numbers; `Spec/ScoreAccuracy` has the bounds. | Forward error analysis of residual, slope of the natural parameter, weighted design entry, tree of the sum and the two penalty gradients. Strong concavity of the ridge objective (C71) turns the score into a bound on the gap and the distance to the exact optimum. Nothing is assumed of the solver: `C96_example` has one that returns a wrong answer. The complementary log-log link is not covered; standardized features are C97. |
| C97 | As C95 and C96, for `finalize true`: `Standardizer.transform`, `transformCoefficients`, `inverseTransformCoefficients`, `inverseTransformScore` over `Fl`. `readBack` is the user's data with features that are scaled and shifted back from the stored ones without rounding, `exactBack` the coefficients that belong to internal ones; `Spec/StandardAccuracy` has both and the bounds. | The stored data set is one without standardization (`stored_finalize`), so C95 and C96 apply to it; its exact objective and gradient are those of `readBack` with the penalty on the standardized scale (`readBack_penLogLik`, `readBack_penScore`). Rounding of the transformations is bounded separately, and `penLogLik_strong` gives the certificate. The accuracy of the mean and standard deviation themselves is C98. |
| C98 | `Standardizer.fromDataset` and `transform` over `Fl`, with any data; `binary64` for the column that is missed. | `v > 0` is false for not-a-number and zero, so the root is taken of a positive number of the format, and rounding cannot bring it to zero; deviations that are exactly zero stay zero (or become not-a-number) under weights, sums and quotients. Accuracy: forward error analysis through weights, sums, quotients, squares, bias correction and root (`Spec/ScaleAccuracy` has the bounds), then in multiples of `D u M` for unweighted data. The missed column is evaluated with the rounding lemmas of `Lemmas/BinaryEval`. |
| C99 | `Fit.deviance`, `devianceTerms`, `aic`, `bic`, `dispersion`, `residDev` over `Fl`; `Family.logLikeSat`, `prodLog`, `sumWeights`, `nEff`. | Forward error analysis as in C95 through `Approx`; `Spec/DevianceAccuracy` has the bounds, term by term. The exact values are those of `Spec/Stats` at the exact numbers behind the data and the reported coefficients; for standardized fits, `readBack` of C97. The linear case in multiples of `D u M²` (`ModerateFit`), with `f64` constants. Examples: the mean of 0, 2, 4 (`C99_example`) and one observation (`C99_example_bic`). |
| C100 | `regression` of the Linear family with an arbitrary solver of relative error κ (`SolvesWithin`, Spec/Inexact). | The result is at least as good as the first answer of the solver, whether that was accepted, equal to the start or rejected (case analysis of `Irls.next`, monotone objective). The first answer is near the exact step of C78 in the norm of the system, which is the same on both scales. Sharp: `scaledEnv`. |
| C101 | as C100, for every family, zero tolerance. | With zero tolerance a fit stops only if the solver's answer is the current point or no point towards it improves. If the exact Newton step were larger than the solver's error, the answer would be uphill (Cauchy-Schwarz in the norm of the Newton matrix and C50) and a small multiple would improve. |
| C102 | whole build, iteration, statistics and drop-one refits | reversing parameters is a simulation of the iterator (`Lemmas/Flip`): soft thresholding and the L1 gradient are odd, everything else is linear or even; then statistic by statistic, and composed with C67 for standardized data |
| C103 | an L1 fit of the Linear family that never ends, from the default start, for a family of data sets | The run of C91 is followed step by step with intervals: ten steps lead into a box of split variables, and thirty-five further steps, done for all points of the box at once (`Lemmas/AdmmCycle`, `AdmmWalk`, `AdmmTurn`, `AdmmForever`), lead back into it; at each of them a residual is above the limit. Induction over the turns. |
| C104 | L1 fits of the Linear family whose fitted columns are orthogonal, in exact arithmetic | The run of C91 splits into one recursion per coefficient that share only the penalty parameter (`Lemmas/AdmmCoord`). Whatever that parameter does, each coefficient ends with a constant multiplier or with its split variable at zero; either way its residual is bounded by a quantity that contracts with a rate depending on the parameter. If the parameter grows beyond all bounds, the steps at which it is doubled have small residuals; if it tends to zero, those at which it is halved do; otherwise it returns to a bounded range for ever and everything contracts (`Lemmas/AdmmOrth`). The closed form is a sum of one-dimensional strictly concave problems. |
| C105 | `Fit.fisher`, `waldTestAgainst`, `residResp`, `residPear`, `residWork` over `Fl`; `Family.variance`, `adjustVariance`, `fisherDataStd`, `Reg.irlsMat`. | Forward error analysis through `Approx` as in C99: mean, variance, slope, information of one observation, weighted columns, matrix product, ridge term, quadratic form (`Spec/InfoAccuracy`, `Props/InfoAccuracy`). Logistic regression in multiples of `D u (M + 1)` (`Props/InfoModerate`), with `f64` constants. Example: an intercept for 0, 1, 0, 1 (`C105_example`). |
| C106 | `covariance`, `waldZ`, `leverage`, `cooks`, `inflCoef`, `residPearStd`, `scoreTestAgainst` over the reals, with an `Env` whose `inv` is only approximately right (`InvertsWithin`, `Spec/InexactInverse`). | With `E` the error of the inverse of `m`, the size of `E w` in the metric of `m` is at most `κ` times that of `w` in the metric of the inverse; Cauchy-Schwarz for the sandwich; the bound is invariant under the change of coordinates of the standardizer, so leverages, which use the standardized inverse, satisfy it too. Example: an inversion too large by the factor `1 + κ` (`C106_example`). |
| C107 | `finalize`, `regression` and `Fit` over the reals; no new definitions. | A symmetry maps the data to themselves, so the fit of the transformed data given by C69, C74 and C102 is the fit itself, and its coefficients are a fixed point of the transformation. A useless column of the design matrix is fixed by reversing it (`Flips`), so every iterate is. Proportional features: recode one into the other (C102), then exchange them. Examples `C107_example_*`. |
| C108 | `yHat`, `predict`, `covariance`, `waldZ`, `lrTest`, `scoreTest` over the reals for one 0/1 feature (`ArmFit`, `armWt`, `armSum`, `armMean`, `armSq`, `armInfo` in `Spec/TwoArms`). | Sums over the observations split into the two groups, where the linear predictor is constant; score and information become 2-vectors and 2x2 matrices with an explicit inverse; then the formulas of each family. Null model by C37, tests by C38 and C10. Examples `C108_example_*` start where the score vanishes (C22). |
| C109 | Spec/OneFeature: weighted sums sxx, sxy, syy, the correlation coefficient and a fit of a line with vanishing score. | Score and information of a line in centred form, the inverse of the 2×2 information, then the formulas for slope (with ridge), deviance, covariance, leverages, `r_sq`, `lr_test` and `wald_z`. |
| C110 | Spec/Exposure: offset equal to the logarithm of an exposure, aggregation of observations into cells, rates of two groups. | The mean is exposure times the exponential of the predictor without offset, so score, information and likelihood are sums over cells; uniqueness of the optimum (C29) transfers the fit. Two groups by the 2×2 information of C108. |
| C111 | Spec/Averages: one observation with the mean response and the total weight in the place of several with equal features and offset. | The likelihood is linear in the response, so likelihood, score and information are sums over cells for every family; uniqueness of the optimum (C29) transfers the fit. |
| C112 | Spec/Cells: observations in as many cells as there are coefficients, any invertible coding, cell weights, means, sums of squares within and between. | Score and information are `Xᵀ u` and `Xᵀ D X` with the square invertible matrix `X` of the cells, so the score vanishes cell by cell and the inverse is diagonal seen from the cells; the unit deviances of C81 sum over cells. |
| C113 | Spec/Partial: the data set with feature j as response and the others as features, the coefficients without j, the information weights. | The vector that is 1 at j and minus the regression's coefficients elsewhere is mapped by the information matrix to a multiple of the unit vector of j, the multiple being the residual sum of squares; the normal equations give the rest; R squared by C39. |
| C114 | Spec/Indicator: a feature that is 1 for one observation and 0 for the others. | The entry of the score for the indicator is the residual of the observation times positive factors; the other entries are those of the data without it; uniqueness by C29, deviance by C81. For Linear the column of the inverse information is solved for, and the studentized residual is taken from C43. |
| C115 | `lrTest`, `waldTest`, `scoreTest`, `pvalueLrTest` of the Linear family for random responses (`RandomResponses`) and with the responses in another unit. | The likelihood ratio is a difference of sums of squares; the expectation of the deviance is that of C76 and that of the mean response is computed. In units: C82 multiplies the statistic by the square of the factor; the chi-squared distribution function is continuous, so the intermediate value theorem finds the factor for any p-value. |
| C116 | Linear fits, with and without L2 penalty, of random responses (`RandomResponses`). | A combination `c` of the coefficients is `∑ w_i (X u)_i (Y_i - offset_i)` with `(G + Λ) u = c`; means and variances follow. The difference to a competitor is uncorrelated with the fit. For the penalty: `G (u - v) = Λ v` compares the variances, and the squared bias is bounded by Cauchy and Schwarz. |
| C117 | Unpenalized Linear fits of independent normal responses (`Spec/Normal.lean`). | The coefficients and residuals are affine in the responses, so their joint law is normal; they are uncorrelated (`A W⁻¹ Mᵀ = 0`), hence independent. Coverage follows by standardizing. |
| C118 | As C117, with the chi-squared and Student laws of `Spec/RealDists.lean`. | Moment generating functions: sums of squared standard normal variables are chi-squared. The residual projection is diagonalized by an orthogonal matrix and has trace `n - K`. Independence (C117) gives Student's law, the probability integral transform the uniform p-value, and C65 carries it over to `pvalue_exact`. |
| C119 | As C118, with Fisher's law and the null model of C37. | The statistics are squared lengths of projections of the standardized errors: of the hat matrix `H` of trace `K`, and of `H - H₀` of trace `p`, where `H₀` projects onto the constant. Both are functions of the coefficients and so independent of the deviance (C117). |
| C120 | As C118, with the `covariance` along an arbitrary direction. | The combination is normal (C117) and independent of the deviance, which is chi-squared (C118) and almost surely positive; the standard error is the square root of the dispersion times the reciprocal curvature (C41). |

## 5. Behaviour found while proving

Places where the code does something a user may not expect.  Where a theorem states it, it is named.

1. `step_scale` never returns for tolerance 0 when no improvement exists (`C28_zero_tolerance_diverges`).
2. A NaN response is accepted by the exponential, gamma and inverse Gaussian families and rejected by the
   logistic family (`C04_test`).
3. `Binomial<N>` accepts responses larger than `N`.
4. `build` does not check the lengths of the weights; frequency weights of length 1 broadcast.
5. The initial guess uses the unweighted mean of the responses; the tolerance is scaled by the number of
   rows, not by the number of observations.
6. `total_cmp` orders a positive NaN above every number, so a NaN likelihood would win `max_by`.
7. The history in a `MaxIter` error is on the standardized scale.
8. Under L1, `fisher()` contains the ADMM penalty parameter on the whole diagonal, intercept included.
9. `r_sq` is not `1 - D/D0` under regularization (`C39_regularized`).
10. The documented sum of the partial residuals holds for the linear family only (C45).
11. `dev_without_covariate` of a model without intercept exempts the first remaining coefficient from the
    penalty (`C48_penalized_no_intercept`), and panics for one column with a penalty
    (`C48_only_column_panics`); dropping the intercept penalizes on a different scale (`C48_intercept`).
12. `loo_exact` panics on standardized fits of two observations; `build` panics for standardization with
    frequency weights of total 1.
13. `null_model_fit` panics when there are no parameters and no offset, and when the null model with
    offset exceeds its iteration budget.
14. `covariance()` is divided by `c` when all variance weights are multiplied by `c` (C13).
15. Cook's distance with frequency weights is that of deleting one copy (`C59_cooks`).
16. `Fit.result`, `options`, `model_like` are public: assigning them leaves stale caches
    (`C44_mutation`).
17. The initial guess is undefined when all responses sit at the same boundary (`C61_boundary_start`); the
    dispersion is undefined when the effective sample size does not exceed the number of coefficients.
18. A fit with a reciprocal link whose start has a positive predictor returns `Ok` with the start, no
    iterations and a NaN likelihood (`C63_stuck`).
19. `pvalue_wald` and `pvalue_exact` panic for families with free dispersion without residual degrees of
    freedom (`C64_wald_free`, `C64_exact_iff`).
20. `get_distribution` panics for a NaN mean (linear, gamma) and for means outside the closed range
    (logistic, binomial) (`C66_accepts`).
21. `aic` adds the deviance without dividing by the dispersion, so for families with free dispersion
    differences of AIC between models depend on the units of the responses: the deviance part is
    multiplied by `a²` for Linear (`C82_statistics`, field `aic`).
22. In `f64` the log-likelihood of a complementary log-log model is NaN as soon as `exp(exp(w)) - 1`
    overflows (`w > 6.57`) at an observation with response 1: `nat_param` is `+inf` and
    `(1 - y) * (-inf)` is `0 * inf`.  The true contribution is 0 (`C83_cloglog_nan_binary64`).
23. `resid_dev` takes the root of a difference that rounding can make negative, so a response that is
    fitted almost exactly can have the deviance residual NaN (`C83_residual_nan`).
24. The reciprocal links give the mean `-inf` at the predictor `+0` (`C83_reciprocal_at_zero`).
25. With tolerance zero `step_scale` does not end in floating point when no step improves: the step
    stays at the least subnormal, which is above the tolerance (`C84_example_hangs`).
26. A fit whose log-likelihood is NaN at the start (for example finding 22 with a start of 8) returns `Ok`
    with the start as result and a NaN likelihood (`C85_nan_start`, `C85_example_nan_start`).
27. `regression` compares likelihoods with `total_cmp`, in which a NaN of positive sign is larger than
    every number: with L1 penalty one NaN step of positive sign becomes the reported optimum
    (`C85_reported`).
28. A model without features and without intercept cannot be fitted with an L1 penalty: `terminate_ok`
    asks for residuals strictly below `sqrt(0) * tol`, so every such fit ends in `MaxIter`
    (`C91_no_columns`).
29. With an L1 penalty the full step is accepted by the augmented Lagrangian, but the line search after a
    rejected step compares the L1-penalized log-likelihood, which the step need not increase at any
    scale. For families other than Linear a fit can therefore report success although neither the step
    nor the coefficients have settled: the third alternative of `C92_stop` (`NoProgress`) cannot be
    dropped by the proof.
30. In floating point a constant column need not be recognized as constant: its computed mean can be a
    neighbouring number. Three times 6004799503160662/2^53 in f64 has computed mean
    6004799503160661/2^53; the column is divided by a scale below 2^-52 and stored as entries near one,
    and its reported slope is the internal one multiplied by more than 2^52 (`C98_constant_missed`).
31. An L1-penalized fit may never converge. The penalty parameter of ADMM is doubled or halved for as long
    as the residuals are out of balance, without any bound on the number of changes, and this can go on
    for ever: with features 6, 7, 8, an intercept, `no_standardize`, responses 1, 3, 2 and l1_reg = 3/2 the
    default options end with `MaxIter` for every `max_iter`, while the slope swings between -0.22 and 0.26
    and the optimum is slope 0 (`C103_never`, `C103_optimum`). The cycle attracts nearby runs, so rounding does not end
    it. A numerical search found such data sets to be common without standardization and rare with it.
    Correlated columns are needed for it (`C104_orthogonal`); with the default settings the same data can be fitted
    at every tolerance (`C104_one_feature`).
32. `resid_student` is documented as t-distributed with N - K - 1 degrees of freedom under normality. It is not:
    its numerator is the deviance of the observation at the coefficients that leave it out, `(r/(1-h))²`,
    while the quantity with that distribution has `r²/(1-h)`. By `C114_studentized` the t-distributed statistic,
    which is the Wald statistic of an indicator of the observation, is `resid_student` times `√(1-h)`, with `h`
    the leverage: the values of the code are too large, the more so the larger the leverage.
33. `lr_test`, `wald_test` and `score_test` are documented as asymptotically chi-squared with `test_ndf` degrees
    of freedom, and `pvalue_lr_test` refers the first to that distribution, for all families. For families with a
    free dispersion they are not divided by it. For the Linear family with no effect of any feature their
    expectation is the dispersion times `test_ndf` (`C115_null`), and the p-value can be made any number between
    0 and 1 by the choice of the unit of the responses (`C115_units`). `pvalue_wald` and `pvalue_exact` do divide. For
    normal responses the test has its stated level if and only if the dispersion is 1 (`C119_pvalue`).
34. With variance weights the Wald test of a Linear fit does not have its stated level: `wald_z` is
    `√((1 - K/n_eff) Σw / (n - K))` times a Student variable (`C118_wald_weighted`; compare finding 14).

## 6. Wrong programs

`seeded/LOG.jsonl` records edits of the model in a scratch copy, the claims they break, the theorems that
no longer check, and the theorems that were tightened when none failed.
