/-
  A feature that singles out one observation.
-/
import Verif.Spec.Partial

namespace GLM
namespace Spec
variable {n p : ℕ}

/-- Feature `j` is 1 for observation `i` and 0 for all others. -/
def SinglesOut (raw : Dataset ℝ n (p + 1) false) (j : Fin (p + 1)) (i : Fin n) : Prop :=
  ∀ k, raw.x k j = if k = i then 1 else 0

end Spec
end GLM
