/-
  The order of the observations: vocabulary for C69.
-/
import Verif.Spec.Units

namespace GLM
namespace Spec
variable {n p : ℕ} {b : Bool}

/-- The data set with its rows in another order: row `k` is the old row `σ k`. -/
def permuteRows (σ : Equiv.Perm (Fin n)) (d : Dataset ℝ n p b) : Dataset ℝ n p b :=
  { y := fun k => d.y (σ k)
    x := fun k => d.x (σ k)
    linearOffset := d.linearOffset.map fun o k => o (σ k)
    weights := d.weights.map fun w k => w (σ k)
    freqs := d.freqs.map fun f k => f (σ k)
    standardizer := d.standardizer }

/-- `f'` is the fit `f` with the observations in another order: what belongs to the model is the same,
what belongs to an observation moves with it. -/
structure SameUpToOrder (σ : Equiv.Perm (Fin n)) (f f' : Fit ℝ n p b) : Prop where
  result : f'.result = f.result
  history : f'.history = f.history
  nIter : f'.nIter = f.nIter
  modelLike : f'.modelLike = f.modelLike
  predict : ∀ {m : ℕ} (x : Mat ℝ m p) off, f'.predict x off = f.predict x off
  deviance : f'.deviance = f.deviance
  dispersion : f'.dispersion = f.dispersion
  aic : f'.aic = f.aic
  bic : f'.bic = f.bic
  rss : f'.rss = f.rss
  score : f'.score = f.score
  fisher : f'.fisher = f.fisher
  covariance : ∀ env, f'.covariance env = f.covariance env
  waldZ : ∀ env, f'.waldZ env = f.waldZ env
  lrTest : ∀ env, f'.lrTest env = f.lrTest env
  waldTest : ∀ env, f'.waldTest env = f.waldTest env
  scoreTest : ∀ env, f'.scoreTest env = f.scoreTest env
  rSq : ∀ env, f'.rSq env = f.rSq env
  yHat : ∀ k, f'.yHat k = f.yHat (σ k)
  residResp : ∀ k, f'.residResp k = f.residResp (σ k)
  residPear : ∀ k, f'.residPear k = f.residPear (σ k)
  residDev : ∀ k, f'.residDev k = f.residDev (σ k)
  residWork : ∀ k, f'.residWork k = f.residWork (σ k)
  residPart : ∀ k, f'.residPart k = f.residPart (σ k)
  hat : ∀ env, f'.hat env = (f.hat env).map fun h k l => h (σ k) (σ l)
  leverage : ∀ env, f'.leverage env = (f.leverage env).map fun v k => v (σ k)
  cooks : ∀ env, f'.cooks env = (f.cooks env).map fun v k => v (σ k)
  residDevStd : ∀ env, f'.residDevStd env = (f.residDevStd env).map fun v k => v (σ k)
  residPearStd : ∀ env, f'.residPearStd env = (f.residPearStd env).map fun v k => v (σ k)
  residStudent : ∀ env, f'.residStudent env = (f.residStudent env).map fun v k => v (σ k)
  inflCoef : ∀ env, f'.inflCoef env = (f.inflCoef env).map fun v k => v (σ k)

end Spec
end GLM
