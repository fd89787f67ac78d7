/-
  A straight line through the observations: the textbook sums of simple linear regression.
-/
import Verif.Spec.TwoArms
import Verif.Spec.Units

namespace GLM
namespace Spec
variable {n : ℕ}

/-- Weighted sum of squares of the feature about its mean. -/
noncomputable def sxx (raw : Dataset ℝ n 1 false) : ℝ :=
  ∑ i, totalWt raw i * (raw.x i 0 - wMean raw 0) ^ 2

/-- Weighted sum of products of feature and response about their means. -/
noncomputable def sxy (raw : Dataset ℝ n 1 false) : ℝ :=
  ∑ i, totalWt raw i * (raw.x i 0 - wMean raw 0) * (raw.y i - meanY raw)

/-- Weighted sum of squares of the response about its mean. -/
noncomputable def syy (raw : Dataset ℝ n 1 false) : ℝ := ∑ i, totalWt raw i * (raw.y i - meanY raw) ^ 2

/-- The correlation coefficient of feature and response. -/
noncomputable def corr (raw : Dataset ℝ n 1 false) : ℝ := sxy raw / √(sxx raw * syy raw)

/-- A successful least-squares fit of a line, without L1 penalty, to a feature that is not constant. -/
structure LineFit (env : Env ℝ) (raw : Dataset ℝ n 1 false) (std : Bool)
    (d : Dataset ℝ n 1 true) (o : FitOptions ℝ (ncols true 1)) (f : Fit ℝ n 1 true) : Prop where
  weight : 0 < weightSum raw
  varies : 0 < sxx raw
  offset : raw.linearOffset = none
  built : raw.finalize std true = some d
  l1 : o.l1 ≤ 0
  fit : regression env Family.linear.glm d o = .ok f
  score : f.score f.result = 0

end Spec
end GLM
