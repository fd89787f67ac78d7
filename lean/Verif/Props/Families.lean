/-
  Properties C15-C21, C55: the response families and their links, in exact arithmetic.

  `fam.glm` is the model of the code; everything else in the statements (`meanDom`, `predDom`,
  `natDom`, `yDom`, `canonicalLink`, `cumulant`, `varianceFn`, `linkFn`) is the textbook
  description in `Verif.Spec.Family`.
-/
import Verif.Lemmas.Saturation

namespace GLM
open Set Spec

/-! ### C15 -/

/-- C15: for every provided family and link, the link and its inverse are mutually inverse
bijections between the mean domain and the predictor domain, and the link is the documented
function. -/
theorem C15_link_inverse (fam : Family) (hv : ValidFamily fam) :
    (∀ μ ∈ meanDom fam, (fam.glm (F := ℝ)).link.func μ = linkFn fam μ) ∧
    (∀ μ ∈ meanDom fam, (fam.glm (F := ℝ)).link.func μ ∈ predDom fam ∧
      (fam.glm (F := ℝ)).link.funcInv ((fam.glm (F := ℝ)).link.func μ) = μ) ∧
    (∀ ω ∈ predDom fam, (fam.glm (F := ℝ)).link.funcInv ω ∈ meanDom fam ∧
      (fam.glm (F := ℝ)).link.func ((fam.glm (F := ℝ)).link.funcInv ω) = ω) :=
  ⟨fun μ _ => func_eq_linkFn fam μ,
   fun _ h => ⟨func_mem fam h, funcInv_func fam h⟩,
   fun _ h => ⟨funcInv_mem fam hv h, func_funcInv fam hv h⟩⟩

/-- The hypotheses are met by a binomial family, and the conclusion is about a non-trivial mean. -/
example : ValidFamily (.binomial 5) ∧ (2 : ℝ) ∈ meanDom (.binomial 5) := by
  refine ⟨(by norm_num : 0 < 5), ?_⟩
  simp only [meanDom, mem_Ioo]; norm_num

/-! ### C16 -/

/-- C16: the natural parameter computed from a linear predictor is the canonical link applied to
the mean computed from that predictor, and lies in the natural parameter space. -/
theorem C16_nat_param (fam : Family) (hv : ValidFamily fam) {ω : ℝ} (h : ω ∈ predDom fam) :
    (fam.glm (F := ℝ)).link.natParam ω
        = canonicalLink fam ((fam.glm (F := ℝ)).link.funcInv ω) ∧
      (fam.glm (F := ℝ)).link.natParam ω ∈ natDom fam :=
  ⟨natParam_eq fam hv h, natParam_mem fam h⟩

example : (1.5 : ℝ) ∈ predDom .logisticCloglog := mem_univ _

/-! ### C17 -/

/-- C17: `d_nat_param` is the derivative of `nat_param`; the link is differentiable on the mean
domain with a non-zero derivative; and `d_nat_param = 1 / (g'(μ) V(μ))`. -/
theorem C17_d_nat_param (fam : Family) (hv : ValidFamily fam) {ω : ℝ} (h : ω ∈ predDom fam) :
    HasDerivAt (fam.glm (F := ℝ)).link.natParam ((fam.glm (F := ℝ)).link.dNatParam ω) ω ∧
    (∀ μ, μ = (fam.glm (F := ℝ)).link.funcInv ω →
      DifferentiableAt ℝ (linkFn fam) μ ∧ deriv (linkFn fam) μ ≠ 0 ∧
      (fam.glm (F := ℝ)).link.dNatParam ω = 1 / (deriv (linkFn fam) μ * varianceFn fam μ)) := by
  refine ⟨natParam_hasDerivAt fam ω, ?_⟩
  rintro μ rfl
  have hm := funcInv_mem fam hv h
  have hd := func_hasDerivAt fam hv hm
  rw [func_funcInv fam hv h] at hd
  have hfun : (fam.glm (F := ℝ)).link.func = linkFn fam := funext (func_eq_linkFn fam)
  rw [hfun, variance_real] at hd
  have hV := (varianceFn_pos fam hv hm).ne'
  have hp := (dNatParam_pos fam ω).ne'
  refine ⟨hd.differentiableAt, ?_, ?_⟩
  · rw [hd.deriv]; exact inv_ne_zero (mul_ne_zero hV hp)
  · rw [hd.deriv]; field_simp

example : (-2 : ℝ) ∈ predDom .gammaNegRec := by simp only [predDom, mem_Iio]; norm_num

/-! ### C18 -/

/-- C18: on the natural parameter space the log-partition function has derivative the mean and
second derivative the variance function of the mean; the mean attained at the natural parameter of
a linear predictor is the inverse link of that predictor. -/
theorem C18_exponential_family (fam : Family) (hv : ValidFamily fam) {ω : ℝ} (h : ω ∈ predDom fam) :
    HasDerivAt (fam.glm (F := ℝ)).logPartition ((fam.glm (F := ℝ)).link.funcInv ω)
      ((fam.glm (F := ℝ)).link.natParam ω) ∧
    HasDerivAt (deriv (fam.glm (F := ℝ)).logPartition)
      ((fam.glm (F := ℝ)).variance ((fam.glm (F := ℝ)).link.funcInv ω))
      ((fam.glm (F := ℝ)).link.natParam ω) := by
  have hA : (fam.glm (F := ℝ)).logPartition = cumulant fam := funext (logPartition_real fam)
  rw [hA, variance_real, ← meanOfNat_natParam fam hv h]
  have hn := natParam_mem fam h
  refine ⟨cumulant_hasDerivAt fam hn, ?_⟩
  refine (meanOfNat_hasDerivAt fam hv hn).congr_of_eventuallyEq ?_
  filter_upwards [(natDom_isOpen fam).mem_nhds hn] with η hη
  exact (cumulant_hasDerivAt fam hη).deriv

/-- C18: the code's log-partition and variance functions are the textbook ones, and every point of
the natural parameter space is the natural parameter of some linear predictor, so the identities
above cover the whole natural parameter space. -/
theorem C18_covers (fam : Family) (hv : ValidFamily fam) :
    (∀ η ∈ natDom fam, (fam.glm (F := ℝ)).logPartition η = cumulant fam η) ∧
    (∀ μ ∈ meanDom fam, (fam.glm (F := ℝ)).variance μ = varianceFn fam μ) ∧
    (fam.glm (F := ℝ)).link.natParam '' predDom fam = natDom fam := by
  refine ⟨fun η _ => logPartition_real fam η, fun μ _ => variance_real fam μ, ?_⟩
  apply Subset.antisymm
  · rintro _ ⟨ω, h, rfl⟩; exact natParam_mem fam h
  · intro η hη
    have hm := meanOfNat_mem fam hv hη
    refine ⟨(fam.glm (F := ℝ)).link.func (meanOfNat fam η), func_mem fam hm, ?_⟩
    have h1 := meanOfNat_natParam fam hv (func_mem fam hm)
    rw [funcInv_func fam hm] at h1
    exact (meanOfNat_strictMonoOn fam hv).injOn (natParam_mem fam (func_mem fam hm)) hη h1

/-! ### C19 -/

/-- C19: the per-observation log-likelihood is `y η - A(η)` for every family, including the
overridden logistic implementation, for every `y` and `η`. -/
theorem C19_log_like_natural (fam : Family) (y η : ℝ) :
    (fam.glm (F := ℝ)).logLikeNatural y η = y * η - (fam.glm (F := ℝ)).logPartition η ∧
    (fam.glm (F := ℝ)).logLikeNatural y η = y * η - cumulant fam η := by
  rw [logPartition_real]
  exact ⟨logLikeNatural_real fam y η, logLikeNatural_real fam y η⟩

/-! ### C20 -/

/-- C20: the saturated log-likelihood is the least upper bound of the log-likelihood over the
natural parameter space, for every admissible response including boundary values. -/
theorem C20_saturated_is_sup (fam : Family) (hv : ValidFamily fam) {y : ℝ} (h : y ∈ yDom fam) :
    IsLUB ((fam.glm (F := ℝ)).logLikeNatural y '' natDom fam)
      ((fam.glm (F := ℝ)).logLikeSat y) :=
  logLikeSat_isLUB fam hv h

/-- C20: at an interior response the saturated value is attained exactly at the canonical link of
the response. -/
theorem C20_saturated_attained (fam : Family) (hv : ValidFamily fam) {y η : ℝ}
    (h : y ∈ meanDom fam) (hη : η ∈ natDom fam) :
    (fam.glm (F := ℝ)).logLikeNatural y η = (fam.glm (F := ℝ)).logLikeSat y
      ↔ η = canonicalLink fam y := by
  constructor
  · intro he
    by_contra hne
    have := cumulant_tangent_lt fam hv hη (canonicalLink_mem fam h) hne
    rw [meanOfNat_canonicalLink fam h] at this
    rw [logLikeSat_eq fam h, logLikeNatural_real, logLikeNatural_real] at he
    linarith
  · rintro rfl; exact (logLikeSat_eq fam h).symm

example : (0 : ℝ) ∈ yDom (.binomial 3) ∧ (3 : ℝ) ∈ yDom (.binomial 3) ∧
    (3 : ℝ) ∉ meanDom (.binomial 3) := by
  simp only [yDom, meanDom, mem_Icc, mem_Ioo]; norm_num

/-! ### C21 -/

/-- C21: the predicted mean is in the response range for every linear predictor (every real for
the logit, cloglog, log and binomial-logit links; negative predictors for the reciprocal
links). -/
theorem C21_mean_range (fam : Family) (hv : ValidFamily fam) {ω : ℝ} (h : ω ∈ predDom fam) :
    (fam.glm (F := ℝ)).link.funcInv ω ∈ meanDom fam := funcInv_mem fam hv h

/-- C21, spelled out per link. -/
theorem C21_mean_range_explicit (ω : ℝ) :
    (Family.glm (F := ℝ) .logisticLogit).link.funcInv ω ∈ Ioo (0 : ℝ) 1 ∧
    (Family.glm (F := ℝ) .logisticCloglog).link.funcInv ω ∈ Ioo (0 : ℝ) 1 ∧
    (∀ N : ℕ, 0 < N → (Family.glm (F := ℝ) (.binomial N)).link.funcInv ω ∈ Ioo (0 : ℝ) N) ∧
    0 < (Family.glm (F := ℝ) .poisson).link.funcInv ω ∧
    0 < (Family.glm (F := ℝ) .exponentialLog).link.funcInv ω ∧
    0 < (Family.glm (F := ℝ) .gammaLog).link.funcInv ω ∧
    0 < (Family.glm (F := ℝ) .invGaussLog).link.funcInv ω :=
  ⟨funcInv_mem .logisticLogit trivial (mem_univ _), funcInv_mem .logisticCloglog trivial (mem_univ _),
   fun N hN => funcInv_mem (.binomial N) hN (mem_univ _),
   funcInv_mem .poisson trivial (mem_univ _), funcInv_mem .exponentialLog trivial (mem_univ _),
   funcInv_mem .gammaLog trivial (mem_univ _), funcInv_mem .invGaussLog trivial (mem_univ _)⟩

/-- C21, limit of the claim: the reciprocal links give a negative mean for a positive linear
predictor, so the range guarantee really needs the predictor restriction. -/
theorem C21_reciprocal_needs_negative {ω : ℝ} (h : 0 < ω) :
    (Family.glm (F := ℝ) .gammaNegRec).link.funcInv ω < 0 := by
  rw [funcInv_real]
  simpa using h

/-! ### C55 -/

/-- C55: for every family the error and variance adjustments used by the iteration are
multiplication by `η'(ω)` and `η'(ω)²`, and the combined adjustment agrees with the separate
ones. -/
theorem C55_adjustments (fam : Family) (e v ω : ℝ) :
    (fam.glm (F := ℝ)).link.adjustErrors e ω = (fam.glm (F := ℝ)).link.dNatParam ω * e ∧
    (fam.glm (F := ℝ)).link.adjustVariance v ω = (fam.glm (F := ℝ)).link.dNatParam ω ^ 2 * v ∧
    (fam.glm (F := ℝ)).link.adjustErrorsVariance e v ω
      = ((fam.glm (F := ℝ)).link.adjustErrors e ω, (fam.glm (F := ℝ)).link.adjustVariance v ω) := by
  cases fam <;>
    simp [Family.glm, linearGlm, logisticGlm, poissonGlm, binomialGlm, exponentialGlm, gammaGlm,
      invGaussGlm, linkId, linkLogit, linkCloglog, linkLogCanonical, linkBinLogit, linkNegRec,
      linkExpLog, linkNegRecSq, linkInvGaussLog, Transform.ofNatParam, Transform.canonical] <;>
    ring

/-- C55: a family carries a free dispersion parameter exactly when it is the linear, gamma or
inverse Gaussian one. -/
theorem C55_dispersion_type (fam : Family) :
    (fam.glm (F := ℝ)).dispersed = .free ↔ freeDispersion fam = true := by
  cases fam <;> simp [Family.glm, linearGlm, logisticGlm, poissonGlm, binomialGlm, exponentialGlm,
    gammaGlm, invGaussGlm, freeDispersion]

end GLM
