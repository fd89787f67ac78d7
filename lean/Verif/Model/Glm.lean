/-
  The provided methods of `trait Glm` that act on a dataset, src/glm.rs.
-/
import Verif.Model.Response
import Verif.Model.Data
import Verif.Model.Env

namespace GLM
variable {F : Type} [Scalar F] {n p : ℕ} {b : Bool}
open Scalar

namespace Glm

/-- `mean`, src/glm.rs:45-47. -/
def mean (g : Glm F) (linPred : Vec F n) : Vec F n := fun i => g.link.funcInv (linPred i)

/-- `adjusted_variance_diag`, src/glm.rs:64-72. -/
def adjustedVarianceDiag (g : Glm F) (linPred : Vec F n) : Vec F n :=
  fun i => g.link.adjustVariance (g.variance (g.mean linPred i)) (linPred i)

/-- `log_like_terms`, src/glm.rs:114-124. -/
def logLikeTerms (g : Glm F) (data : Dataset F n p b) (regressors : Vec F (ncols b p)) : Vec F n :=
  let linPred := data.linearPredictorStd regressors
  let natPar : Vec F n := fun i => g.link.natParam (linPred i)
  fun i => g.logLikeNatural (data.y i) (natPar i)

/-- `log_like`, src/glm.rs:75-83. -/
def logLike (g : Glm F) (data : Dataset F n p b) (regressors : Vec F (ncols b p)) : F :=
  vsum (data.applyTotalWeights (g.logLikeTerms data regressors))

/-- `init_guess`, src/glm.rs:133-156. -/
def initGuess (env : Env F) (g : Glm F) (data : Dataset F n p b) : Vec F (ncols b p) :=
  let yBar := (vmean? data.y).getD 0
  let muY : Vec F n := fun i => half * (data.y i + yBar)
  let linkY : Vec F n := fun i => g.link.func (muY i)
  let linkY : Vec F n := match data.linearOffset with
    | some off => vsub linkY off
    | none => linkY
  let xMat := data.xConj.dotM data.x
  match env.solveh xMat (data.xConj.dotV linkY) with
  | .ok sol => sol
  | .error _ => vzeros

end Glm

end GLM
