/-
  One feature and the others: fits with and without it, and the regression of the feature on the others.
-/
import Verif.Spec.Stats
import Verif.Spec.Glm
import Verif.Spec.Family
import Verif.Spec.DropOne
import Verif.Spec.Units
import Verif.Model.Fit

namespace GLM
namespace Spec
variable {n p : ℕ} {b : Bool}

/-- A successful fit without penalties, at which the score vanishes. -/
structure PlainFit (env : Env ℝ) (fam : Family) (raw : Dataset ℝ n p false) (std : Bool)
    (d : Dataset ℝ n p b) (o : FitOptions ℝ (ncols b p)) (f : Fit ℝ n p b) : Prop where
  built : raw.finalize std b = some d
  l1 : o.l1 ≤ 0
  l2 : o.l2 ≤ 0
  fit : regression env fam.glm d o = .ok f
  score : f.score f.result = 0

/-- The coefficients other than that of feature `j`. -/
def without : (b : Bool) → Fin (p + 1) → Vec ℝ (ncols b (p + 1)) → Vec ℝ (ncols b p)
  | true, j, β => fun k : Fin (p + 1) => β (j.succ.succAbove k : Fin (p + 2))
  | false, j, β => fun k => β (j.succAbove k)

/-- `aux` has feature `j` of `raw` as response, the other features as features, and the weights `ω`. -/
structure Auxiliary (raw : Dataset ℝ n (p + 1) false) (j : Fin (p + 1)) (ω : Fin n → ℝ)
    (aux : Dataset ℝ n p false) : Prop where
  features : ∀ i k, aux.x i k = raw.x i (j.succAbove k)
  response : ∀ i, aux.y i = raw.x i j
  offset : aux.linearOffset = none
  weight : ∀ i, totalWt aux i = ω i

/-- The weight of an observation in the information: its weight, times the squared derivative of the natural
parameter, times the variance at its mean.  For the Linear family this is its weight. -/
noncomputable def infoWt (fam : Family) (raw : Dataset ℝ n p false) (b : Bool) (β : Vec ℝ (ncols b p))
    (i : Fin n) : ℝ :=
  totalWt raw i * (fam.glm (F := ℝ)).link.dNatParam (linPred raw b β i) ^ 2
    * varianceFn fam (meanAt fam.glm raw b β i)

end Spec
end GLM
