/-
  Vocabulary for comparing fits of two versions of a data set.
-/
import Verif.Spec.Compare
import Verif.Spec.Custom
import Verif.Spec.Deviance

namespace GLM
namespace Spec
variable {n p : ℕ}

/-- `raw'` is `raw` with more weight on observation `k`, in its frequency or its variance weight, and
the same otherwise. -/
structure MoreWeight (raw raw' : Dataset ℝ n p false) (k : Fin n) : Prop where
  y : raw'.y = raw.y
  x : raw'.x = raw.x
  off : raw'.linearOffset = raw.linearOffset
  same : ∀ i, i ≠ k → totalWt raw' i = totalWt raw i
  more : totalWt raw k < totalWt raw' k

end Spec
end GLM
