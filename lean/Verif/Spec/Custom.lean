/-
  What a link supplied by the user has to satisfy.
-/
import Verif.Spec.Family
import Verif.Spec.Glm
import Verif.Model.Custom

namespace GLM
namespace Spec
open Set

/-- The response type, with its canonical link. -/
def canonicalPair : Resp → Family
  | .linear => .linear
  | .logistic => .logisticLogit
  | .poisson => .poisson
  | .exponential => .exponentialNegRec
  | .gamma => .gammaNegRec
  | .invGauss => .invGaussNegRecSq

/-- A proper link for the response type, with linear predictors in `U`: `func_inv` gives means the
response can have, `nat_param` is the canonical link of that mean, and `d_nat_param` is its
derivative. -/
structure ProperLink (r : Resp) (l : Link ℝ) (U : Set ℝ) : Prop where
  open_dom : IsOpen U
  mean : ∀ w ∈ U, l.funcInv w ∈ meanDom (canonicalPair r)
  nat : ∀ w ∈ U, l.natParam w = canonicalLink (canonicalPair r) (l.funcInv w)
  deriv : ∀ w ∈ U, HasDerivAt l.natParam (l.dNatParam w) w

/-- The same data with other responses. -/
def withResponses {n p : ℕ} (raw : Dataset ℝ n p false) (y : Fin n → ℝ) : Dataset ℝ n p false :=
  { raw with y := y }

end Spec
end GLM
