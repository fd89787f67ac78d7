/-
  The same likelihood under two families: vocabulary for C68.
-/
import Verif.Spec.Units

namespace GLM
namespace Spec
variable {n p : ℕ} {b : Bool}

/-- Counts out of `N` written as proportions, each observation with `N` times the variance weight. -/
noncomputable def proportions (N : ℕ) (d : Dataset ℝ n p b) : Dataset ℝ n p b :=
  { d with
    y := fun i => d.y i / N
    weights := some fun i => N * varWt d i }

/-- `f` is a fit of counts out of `N`, `f'` the same fit of the proportions. -/
structure SameAsCounts (N : ℕ) (f f' : Fit ℝ n p b) : Prop where
  result : f'.result = f.result
  history : f'.history = f.history
  nIter : f'.nIter = f.nIter
  modelLike : f'.modelLike = f.modelLike
  yHat : ∀ i, f'.yHat i = f.yHat i / N
  predict : ∀ {m : ℕ} (x : Mat ℝ m p) off i, f'.predict x off i = f.predict x off i / N
  dispersion : f.dispersion = 1 ∧ f'.dispersion = 1
  score : f'.score = f.score
  fisher : f'.fisher = f.fisher
  covariance : ∀ env, f'.covariance env = f.covariance env
  waldZ : ∀ env, f'.waldZ env = f.waldZ env
  leverage : ∀ env, f'.leverage env = f.leverage env
  residPear : f'.residPear = f.residPear
  cooks : ∀ env, f'.cooks env = f.cooks env
  deviance : (∀ i, 0 ≤ f.data.y i ∧ f.data.y i ≤ N) → f'.deviance = f.deviance
  residDev : (∀ i, 0 ≤ f.data.y i ∧ f.data.y i ≤ N) → f'.residDev = f.residDev

/-- `f` and `f'` describe the same curve and differ only in the dispersion. -/
structure SameUpToDispersion {F : Type} [Scalar F] (f f' : Fit F n p b) : Prop where
  result : f'.result = f.result
  history : f'.history = f.history
  nIter : f'.nIter = f.nIter
  modelLike : f'.modelLike = f.modelLike
  yHat : f'.yHat = f.yHat
  predict : ∀ {m : ℕ} (x : Mat F m p) off, f'.predict x off = f.predict x off
  deviance : f'.deviance = f.deviance
  aic : f'.aic = f.aic
  bic : f'.bic = f.bic
  score : f'.score = f.score
  fisher : f'.fisher = f.fisher
  leverage : ∀ env, f'.leverage env = f.leverage env
  residPear : f'.residPear = f.residPear
  residDev : f'.residDev = f.residDev
  lrTest : ∀ env, f'.lrTest env = f.lrTest env
  rSq : ∀ env, f'.rSq env = f.rSq env
  waldTest : ∀ env, f'.waldTest env = f.waldTest env
  scoreTest : ∀ env, f'.scoreTest env = f.scoreTest env

end Spec
end GLM
