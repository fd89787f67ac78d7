/-
  When two data sets are the same statistical model: every quantity computed from them agrees.
-/
import Verif.Spec.Weights
import Verif.Model.Fit

namespace GLM
namespace Spec
variable {n m p : ℕ} {b : Bool}

/-- Two fits, of possibly different data sets, of the same model at the same point. -/
structure SamePoint (f : Fit ℝ n p b) (f' : Fit ℝ m p b) : Prop where
  g : f'.g = f.g
  resultStd : f'.resultStd = f.resultStd
  result : f'.result = f.result
  modelLike : f'.modelLike = f.modelLike
  reg : f'.reg = f.reg

/-- `d` and `d'` are interchangeable: same counts, same standardization, same log-likelihood and
same iteration equation at every coefficient vector and for every family, same proposal from every
iterator state (only the flag "converged" may differ: its tolerance counts rows), and the same
statistics of every fit. -/
structure SameModel (d : Dataset ℝ n p b) (d' : Dataset ℝ m p b) : Prop where
  nObs : d'.nObs = d.nObs
  nEff : d'.nEff = d.nEff
  sumWeights : d'.sumWeights = d.sumWeights
  standardizer : d'.standardizer = d.standardizer
  logLike : ∀ (g : Glm ℝ) γ, g.logLike d' γ = g.logLike d γ
  irls : ∀ eps (g : Glm ℝ) γ, Irls.irlsMatVec eps g d' γ = Irls.irlsMatVec eps g d γ
  step : ∀ (env : Env ℝ) (g : Glm ℝ) options (s : Irls ℝ (ncols b p)),
    (s.next env g d' options).1 = (s.next env g d options).1 ∧
    { (s.next env g d' options).2 with done := false }
      = { (s.next env g d options).2 with done := false }
  deviance : ∀ f f', SamePoint f f' → f.data = d → f'.data = d' → f'.deviance = f.deviance
  dispersion : ∀ f f', SamePoint f f' → f.data = d → f'.data = d' → f'.dispersion = f.dispersion
  aic : ∀ f f', SamePoint f f' → f.data = d → f'.data = d' → f'.aic = f.aic
  bic : ∀ f f', SamePoint f f' → f.data = d → f'.data = d' → f'.bic = f.bic
  score : ∀ f f', SamePoint f f' → f.data = d → f'.data = d' → f'.score = f.score
  fisher : ∀ f f', SamePoint f f' → f.data = d → f'.data = d' → f'.fisher = f.fisher
  covariance : ∀ env f f', SamePoint f f' → f.data = d → f'.data = d' →
    f'.covariance env = f.covariance env

end Spec
end GLM
