/-
  Vocabulary for C48, C65: the user's data without one of the features.
-/
import Verif.Model.Data

namespace GLM
namespace Spec
variable {F : Type} {n p : ℕ}

/-- The data without feature `j`. -/
def dropFeature (raw : Dataset F n (p + 1) false) (j : Fin (p + 1)) : Dataset F n p false where
  y := raw.y
  x := fun i k => raw.x i (j.succAbove k)
  linearOffset := raw.linearOffset
  weights := raw.weights
  freqs := raw.freqs
  standardizer := none

end Spec
end GLM
