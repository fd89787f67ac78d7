/-
  Fits of data whose observations are counted differently: vocabulary for C77.
-/
import Verif.Spec.SameModel
import Verif.Spec.Units

namespace GLM
namespace Spec
variable {n m p : ℕ} {b : Bool}

/-- `f'` is the fit `f` with the observations counted differently, row `k` of `f'` being a copy of row
`r k` of `f`.  What belongs to the model is the same, what belongs to an observation is the same for
all its copies, and the leverage of a row is shared by its copies in proportion to their
frequencies. -/
structure SameUpToCount (r : Fin m → Fin n) (f : Fit ℝ n p b) (f' : Fit ℝ m p b) : Prop where
  result : f'.result = f.result
  modelLike : f'.modelLike = f.modelLike
  predict : ∀ {l : ℕ} (x : Mat ℝ l p) off, f'.predict x off = f.predict x off
  ndf : f'.ndf = f.ndf
  deviance : f'.deviance = f.deviance
  dispersion : f'.dispersion = f.dispersion
  aic : f'.aic = f.aic
  bic : f'.bic = f.bic
  rss : f'.rss = f.rss
  score : f'.score = f.score
  fisher : f'.fisher = f.fisher
  covariance : ∀ env, f'.covariance env = f.covariance env
  waldZ : ∀ env, f'.waldZ env = f.waldZ env
  lrAgainst : ∀ β, f'.lrTestAgainst β = f.lrTestAgainst β
  waldAgainst : ∀ β, f'.waldTestAgainst β = f.waldTestAgainst β
  scoreAgainst : ∀ env β, f'.scoreTestAgainst env β = f.scoreTestAgainst env β
  lrTest : (f.data.linearOffset = none ∨ b = false) → ∀ env, f'.lrTest env = f.lrTest env
  waldTest : (f.data.linearOffset = none ∨ b = false) → ∀ env, f'.waldTest env = f.waldTest env
  scoreTest : (f.data.linearOffset = none ∨ b = false) → ∀ env, f'.scoreTest env = f.scoreTest env
  rSq : (f.data.linearOffset = none ∨ b = false) → ∀ env, f'.rSq env = f.rSq env
  yHat : ∀ k, f'.yHat k = f.yHat (r k)
  residResp : ∀ k, f'.residResp k = f.residResp (r k)
  residPear : ∀ k, f'.residPear k = f.residPear (r k)
  residDev : ∀ k, f'.residDev k = f.residDev (r k)
  residWork : ∀ k, f'.residWork k = f.residWork (r k)
  residPart : ∀ k, f'.residPart k = f.residPart (r k)
  leverage_isOk : ∀ env, (f'.leverage env).isOk = (f.leverage env).isOk
  leverage : ∀ env h h', f.leverage env = .ok h → f'.leverage env = .ok h' →
    ∀ k, freq f.data (r k) * h' k = freq f'.data k * h (r k)

end Spec
end GLM
