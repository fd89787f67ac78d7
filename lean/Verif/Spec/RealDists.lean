/-
  The textbook distributions `statrs` is trusted to compute, built from Mathlib's Gaussian and Gamma
  measures.  They are not part of the model; they show that the assumptions of `Spec/Dists` are those
  of the actual distributions.
-/
import Verif.Spec.Dists
import Mathlib.Probability.Distributions.Gamma
import Mathlib.Probability.Distributions.Gaussian.Real
import Mathlib.Probability.Distributions.Exponential
import Mathlib.Probability.Distributions.Poisson.Basic

open MeasureTheory ProbabilityTheory Set

namespace GLM

/-- Chi-squared with `ν` degrees of freedom: Gamma of shape `ν/2` and rate `1/2`. -/
noncomputable def chi2Law (ν : ℝ) : Measure ℝ := gammaMeasure (ν / 2) (1 / 2)

/-- Student's t: `Z / √(V/ν)` for independent standard normal `Z` and chi-squared `V`. -/
noncomputable def studentLaw (ν : ℝ) : Measure ℝ :=
  ((gaussianReal 0 1).prod (chi2Law ν)).map fun q => q.1 / √(q.2 / ν)

/-- Fisher's F: `(U/d₁) / (V/d₂)` for independent chi-squared `U`, `V`. -/
noncomputable def fisherLaw (d1 d2 : ℝ) : Measure ℝ :=
  ((chi2Law d1).prod (chi2Law d2)).map fun q => (q.1 / d1) / (q.2 / d2)

/-- The law with the given arguments: `normal` by mean and standard deviation, `exponential` by rate,
`gamma` by shape and rate, `poisson` by rate, `bernoulli` and `binomial` by success probability. -/
noncomputable def Distribution.law : Distribution ℝ → Measure ℝ
  | .normal m s => gaussianReal m (s ^ 2).toNNReal
  | .exponential r => expMeasure r
  | .gamma a r => gammaMeasure a r
  | .poisson r => (poissonMeasure r.toNNReal).map (Nat.cast : ℕ → ℝ)
  | .bernoulli p => ENNReal.ofReal (1 - p) • Measure.dirac 0 + ENNReal.ofReal p • Measure.dirac 1
  | .binomial p n => ∑ k ∈ Finset.range (n + 1),
      ENNReal.ofReal (n.choose k * p ^ k * (1 - p) ^ (n - k)) • Measure.dirac (k : ℝ)

/-- `m` and `v` are the mean and the variance of the law. -/
structure HasMoments (μ : Measure ℝ) (m v : ℝ) : Prop where
  prob : IsProbabilityMeasure μ
  sq : Integrable (fun x => x ^ 2) μ
  mean : ∫ x, x ∂μ = m
  var : ∫ x, (x - m) ^ 2 ∂μ = v

open Classical in
/-- Constructors accept positive parameters; survival functions are `P(X > x)`. -/
noncomputable def realDists : Dists ℝ where
  chi2 ν := if 0 < ν then
    some (fun x => (chi2Law ν).real (Iic x), fun x => (chi2Law ν).real (Ioi x)) else none
  studentT ν := if 0 < ν then some fun x => (studentLaw ν).real (Ioi x) else none
  fisherSnedecor d1 d2 := if 0 < d1 ∧ 0 < d2 then
    some fun x => (fisherLaw d1 d2).real (Ioi x) else none
  normalSf x := (gaussianReal 0 1).real (Ioi x)
  normalInvCdf u := sInf {x | u ≤ (gaussianReal 0 1).real (Iic x)}
  cdf D x := D.law.real (Iic x)

end GLM
