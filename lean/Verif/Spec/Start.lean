/-
  The default starting point of a fit.
-/
import Verif.Spec.LeastSquares

namespace GLM
namespace Spec
variable {n p : ℕ}

/-- The responses averaged with their mean and mapped to the scale of the linear predictor; features,
offset and weights as they are. -/
noncomputable def startTargets (g : Glm ℝ) (raw : Dataset ℝ n p false) : Dataset ℝ n p false :=
  { raw with y := fun i => g.link.func ((raw.y i + (∑ k, raw.y k) / n) / 2) }

end Spec
end GLM
