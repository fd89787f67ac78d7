/-
  Two groups ("arms") of observations, told apart by the only feature, and the textbook comparisons of them.
-/
import Verif.Spec.Stats
import Verif.Spec.Glm
import Verif.Spec.Family
import Verif.Model.Fit

namespace GLM
namespace Spec
variable {n : ℕ}

/-- The only feature has the values 0 and 1. -/
def TwoArms (raw : Dataset ℝ n 1 false) : Prop := ∀ i, raw.x i 0 = 0 ∨ raw.x i 0 = 1

/-- The observations in arm `a`. -/
noncomputable def arm (raw : Dataset ℝ n 1 false) (a : ℝ) : Finset (Fin n) :=
  Finset.univ.filter fun i => raw.x i 0 = a

/-- Their total weight; without variance weights, their number. -/
noncomputable def armWt (raw : Dataset ℝ n 1 false) (a : ℝ) : ℝ := ∑ i ∈ arm raw a, totalWt raw i

/-- The weighted sum of their responses. -/
noncomputable def armSum (raw : Dataset ℝ n 1 false) (a : ℝ) : ℝ := ∑ i ∈ arm raw a, totalWt raw i * raw.y i

/-- The weighted mean of their responses. -/
noncomputable def armMean (raw : Dataset ℝ n 1 false) (a : ℝ) : ℝ := armSum raw a / armWt raw a

/-- The weighted sum of squares of their responses about their mean. -/
noncomputable def armSq (raw : Dataset ℝ n 1 false) (a : ℝ) : ℝ :=
  ∑ i ∈ arm raw a, totalWt raw i * (raw.y i - armMean raw a) ^ 2

/-- A successful fit with intercept and without penalties of two arms, neither of them empty. -/
structure ArmFit (env : Env ℝ) (fam : Family) (raw : Dataset ℝ n 1 false) (std : Bool)
    (d : Dataset ℝ n 1 true) (o : FitOptions ℝ (ncols true 1)) (f : Fit ℝ n 1 true) : Prop where
  arms : TwoArms raw
  weight0 : 0 < armWt raw 0
  weight1 : 0 < armWt raw 1
  offset : raw.linearOffset = none
  built : raw.finalize std true = some d
  l1 : o.l1 ≤ 0
  l2 : o.l2 ≤ 0
  fit : regression env fam.glm d o = .ok f

/-- The intercept. -/
def icpt (β : Vec ℝ (ncols true 1)) : ℝ := β (0 : Fin 2)

/-- The coefficient of the feature. -/
def diff (β : Vec ℝ (ncols true 1)) : ℝ := β (1 : Fin 2)

/-- The information of arm `a` about its linear predictor: total weight, times the squared derivative of
the natural parameter, times the variance at the mean. -/
noncomputable def armInfo (fam : Family) (raw : Dataset ℝ n 1 false) (β : Vec ℝ (ncols true 1)) (a : ℝ) : ℝ :=
  (fam.glm (F := ℝ)).link.dNatParam (icpt β + a * diff β) ^ 2
    * varianceFn fam ((fam.glm (F := ℝ)).link.funcInv (icpt β + a * diff β)) * armWt raw a

end Spec
end GLM
