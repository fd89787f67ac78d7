/-
  The unit deviances of the textbooks, in terms of the response `y` and the mean `μ`.  With the
  convention of Lean, `0 * log 0 = 0`, they also hold for responses on the boundary.
-/
import Verif.Spec.Family

namespace GLM
namespace Spec

/-- The unit deviance `d(y, μ)` of each family. -/
noncomputable def unitDeviance : Family → ℝ → ℝ → ℝ
  | .linear => fun y μ => (y - μ) ^ 2
  | .logisticLogit | .logisticCloglog => fun y μ =>
    2 * (y * Real.log (y / μ) + (1 - y) * Real.log ((1 - y) / (1 - μ)))
  | .binomial N => fun y μ =>
    2 * (y * Real.log (y / μ) + (N - y) * Real.log ((N - y) / (N - μ)))
  | .poisson => fun y μ => 2 * (y * Real.log (y / μ) - (y - μ))
  | .exponentialNegRec | .exponentialLog | .gammaNegRec | .gammaLog => fun y μ =>
    2 * (-Real.log (y / μ) + (y - μ) / μ)
  | .invGaussNegRecSq | .invGaussLog => fun y μ => (y - μ) ^ 2 / (μ ^ 2 * y)

end Spec
end GLM
