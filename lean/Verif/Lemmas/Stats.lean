/-
  Statistics of a fit in terms of the user's data; a second worked example.
-/
import Verif.Spec.Stats
import Verif.Lemmas.Fitted
import Verif.Props.LeastSquares

namespace GLM
open Spec Matrix
variable {n p : ℕ} {b : Bool} {env : Env ℝ} {raw : Dataset ℝ n p false} {std : Bool}
  {f : Fit ℝ n p b}

namespace Fit.OfRaw
variable (hf : f.OfRaw raw std)
include hf

theorem linStd (i : Fin n) : f.data.linearPredictorStd f.resultStd i = linPred raw b f.result i := by
  rw [hf.resultStd, Dataset.finalize_linPred hf.built]

theorem y : f.data.y = raw.y := Dataset.finalize_y hf.built

theorem residResp (i : Fin n) : f.residResp i = raw.y i - meanAt f.g raw b f.result i := by
  simp only [Fit.residResp, vsub, hf.y, hf.mean]

theorem devianceTerms (i : Fin n) : f.devianceTerms i
    = varWt raw i * (2 * (f.g.logLikeSat (raw.y i) - logLikAt f.g raw b f.result i)) := by
  simp only [Fit.devianceTerms, Dataset.applyVarWeights_real, Dataset.finalize_varWt hf.built,
    Glm.logLikeTerms, hf.linStd, hf.y, logLikAt, two_real]
  ring

theorem deviance : f.deviance = devianceOf f.g raw b f.result := by
  simp only [Fit.deviance, Dataset.freqSum_real, hf.devianceTerms, Dataset.finalize_freq hf.built,
    devianceOf, satLik, logLik, ← Finset.sum_sub_distrib, Finset.mul_sum, totalWt]
  exact Finset.sum_congr rfl fun i _ => by ring

theorem rss : f.rss = ∑ i, totalWt raw i * (raw.y i - meanAt f.g raw b f.result i) ^ 2 := by
  simp only [Fit.rss, vsum_real, Dataset.applyTotalWeights_real, Dataset.finalize_totalWt hf.built,
    hf.residResp, sq]

theorem sumWeights : f.data.sumWeights = weightSum raw := by
  rw [Dataset.sumWeights_real, Dataset.finalize_totalWt hf.built]; rfl

theorem nObs : f.data.nObs = obsCount raw := by
  rw [Dataset.nObs_real, Dataset.finalize_freq hf.built]; rfl

end Fit.OfRaw

/-- The straight line `-1/2 + 2 x` is the weighted least-squares fit of the responses 0, 1, 4 with
frequencies 1, 2, 1; it is not a perfect fit. -/
theorem exLinSetting' (std : Bool) (eps : ℝ) (heps : 0 ≤ eps) (fuel m : ℕ)
    (init : Option (Vec ℝ (ncols true 1))) :
    ∃ d, LinSetting (exactEnv eps fuel) (exRaw ![0, 1, 4]) std d (exOpts 0 0 init m)
      ![-1 / 2, 2] := by
  obtain ⟨d, hd⟩ := exRaw_finalize ![0, 1, 4] std true
  refine ⟨d, exactEnv_exact heps fuel, hd, le_rfl, le_rfl, fun i => (exRaw_totalWt_pos _ i).le,
    exRaw_gram_det _, ?_⟩
  rw [isLeastSquares_iff fun i => (exRaw_totalWt_pos _ i).le]
  funext j
  rw [lin_score]
  simp only [exRaw_linPred, exRaw_totalWt, Fin.sum_univ_three]
  refine Fin.cases ?_ (fun j => ?_) (j : Fin 2)
  · simp [design, exRaw]; norm_num
  · fin_cases j
    simp [design, exRaw]; norm_num

/-- A fit of that data. -/
theorem exLinFit (std : Bool) : ∃ d f, (exRaw ![0, 1, 4]).finalize std true = some d ∧
    regression (exactEnv 0 0) Family.linear.glm d (exOpts 0 0 none 1) = .ok f ∧
    f.result = ![-1 / 2, 2] := by
  obtain ⟨d, hd⟩ := exLinSetting' std 0 le_rfl 0 1 none
  obtain ⟨f, hf, hr, -⟩ := C57_exact_least_squares hd rfl le_rfl
  exact ⟨d, f, hd.built, hf, hr⟩

end GLM
