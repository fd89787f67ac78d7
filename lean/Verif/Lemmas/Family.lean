/-
  Helper lemmas on the families: the model's functions at `ℝ` in closed form.
-/
import Verif.Lemmas.Real
import Verif.Spec.Family

namespace GLM
open Set Spec

/-- The model's mean function of each pair, in closed form. -/
theorem funcInv_real (fam : Family) (w : ℝ) : (fam.glm (F := ℝ)).link.funcInv w =
    match fam with
    | .linear => w
    | .logisticLogit => 1 / (1 + Real.exp (-w))
    | .logisticCloglog => 1 - Real.exp (-Real.exp w)
    | .poisson => Real.exp w
    | .binomial N => N / (1 + Real.exp (-w))
    | .exponentialNegRec | .gammaNegRec => -(1 / w)
    | .exponentialLog | .gammaLog | .invGaussLog => Real.exp w
    | .invGaussNegRecSq => 1 / Real.sqrt (-2 * w) := by
  cases fam <;>
    simp [Family.glm, linearGlm, logisticGlm, poissonGlm, binomialGlm, exponentialGlm, gammaGlm,
      invGaussGlm, linkId, linkLogit, linkCloglog, linkLogCanonical, linkBinLogit, linkNegRec,
      linkExpLog, linkNegRecSq, linkInvGaussLog]

theorem func_real (fam : Family) (y : ℝ) : (fam.glm (F := ℝ)).link.func y =
    match fam with
    | .linear => y
    | .logisticLogit => Real.log (y / (1 - y))
    | .logisticCloglog => Real.log (-Real.log (1 - y))
    | .poisson => Real.log y
    | .binomial N => Real.log (y / (N - y))
    | .exponentialNegRec | .gammaNegRec => -(1 / y)
    | .exponentialLog | .gammaLog | .invGaussLog => Real.log y
    | .invGaussNegRecSq => -(1 / (2 * y * y)) := by
  cases fam <;>
    simp [Family.glm, linearGlm, logisticGlm, poissonGlm, binomialGlm, exponentialGlm, gammaGlm,
      invGaussGlm, linkId, linkLogit, linkCloglog, linkLogCanonical, linkBinLogit, linkNegRec,
      linkExpLog, linkNegRecSq, linkInvGaussLog, sub_eq_add_neg]

theorem natParam_real (fam : Family) (w : ℝ) : (fam.glm (F := ℝ)).link.natParam w =
    match fam with
    | .logisticCloglog => Real.log (Real.exp (Real.exp w) - 1)
    | .exponentialLog | .gammaLog => -Real.exp (-w)
    | .invGaussLog => -(1 / 2) * Real.exp (-2 * w)
    | _ => w := by
  cases fam <;>
    simp [Family.glm, linearGlm, logisticGlm, poissonGlm, binomialGlm, exponentialGlm, gammaGlm,
      invGaussGlm, linkId, linkLogit, linkCloglog, linkLogCanonical, linkBinLogit, linkNegRec,
      linkExpLog, linkNegRecSq, linkInvGaussLog, Transform.ofNatParam, Transform.canonical]

theorem dNatParam_real (fam : Family) (w : ℝ) : (fam.glm (F := ℝ)).link.dNatParam w =
    match fam with
    | .logisticCloglog => -Real.exp w / (Real.exp (-Real.exp w) - 1)
    | .exponentialLog | .gammaLog => Real.exp (-w)
    | .invGaussLog => Real.exp (-2 * w)
    | _ => 1 := by
  cases fam <;>
    simp [Family.glm, linearGlm, logisticGlm, poissonGlm, binomialGlm, exponentialGlm, gammaGlm,
      invGaussGlm, linkId, linkLogit, linkCloglog, linkLogCanonical, linkBinLogit, linkNegRec,
      linkExpLog, linkNegRecSq, linkInvGaussLog, Transform.ofNatParam, Transform.canonical]

theorem logPartition_real (fam : Family) (η : ℝ) :
    (fam.glm (F := ℝ)).logPartition η = cumulant fam η := by
  cases fam <;>
    simp [Family.glm, linearGlm, logisticGlm, poissonGlm, binomialGlm, exponentialGlm, gammaGlm,
      invGaussGlm, cumulant, linearLogPartition, logisticLogPartition, binomialLogPartition,
      gammaLogPartition, invGaussLogPartition]
  ring

theorem variance_real (fam : Family) (μ : ℝ) :
    (fam.glm (F := ℝ)).variance μ = varianceFn fam μ := by
  cases fam <;>
    simp [Family.glm, linearGlm, logisticGlm, poissonGlm, binomialGlm, exponentialGlm, gammaGlm,
      invGaussGlm, varianceFn, pow_succ]

theorem logLikeNatural_real (fam : Family) (y η : ℝ) :
    (fam.glm (F := ℝ)).logLikeNatural y η = y * η - cumulant fam η := by
  rw [← logPartition_real]
  have hlog : ∀ y η : ℝ, logisticLogLikeNatural y η = y * η - Real.log (1 + Real.exp η) := by
    intro y η
    unfold logisticLogLikeNatural
    by_cases h : η < 0
    · simp [h]
    · simp only [lt_real, h, if_false, ln1p_real, exp_real]
      have h1 : 1 + Real.exp (-η) = (1 + Real.exp η) * Real.exp (-η) := by
        rw [add_mul, ← Real.exp_add]; simp [add_comm]
      have h2 : (0 : ℝ) < 1 + Real.exp η := by positivity
      rw [h1, Real.log_mul h2.ne' (Real.exp_pos _).ne', Real.log_exp]
      ring
  cases fam <;>
    simp [Family.glm, linearGlm, logisticGlm, poissonGlm, binomialGlm, exponentialGlm, gammaGlm,
      invGaussGlm, defaultLogLikeNatural, hlog, logisticLogPartition]

/-- The saturated log-likelihood in closed form. -/
theorem logLikeSat_real (fam : Family) (y : ℝ) : (fam.glm (F := ℝ)).logLikeSat y =
    match fam with
    | .linear => y ^ 2 / 2
    | .logisticLogit | .logisticCloglog => y * Real.log y + (1 - y) * Real.log (1 - y)
    | .poisson => y * Real.log y - y
    | .binomial N => y * Real.log y + (N - y) * Real.log (N - y) - N * Real.log N
    | .exponentialNegRec | .exponentialLog | .gammaNegRec | .gammaLog => -(1 + Real.log y)
    | .invGaussNegRecSq | .invGaussLog => 1 / 2 * (1 / y) := by
  cases fam <;>
    simp [Family.glm, linearGlm, logisticGlm, poissonGlm, binomialGlm, exponentialGlm, gammaGlm,
      invGaussGlm, prodLog_real, linearLogPartition]
  ring

end GLM
