/-
  Random responses: what "the model is true" means for the responses of a data set.
-/
import Verif.Spec.Custom
import Mathlib.Probability.Moments.Covariance
import Mathlib.Probability.Moments.Variance

open MeasureTheory ProbabilityTheory

namespace GLM
namespace Spec
variable {n p : ℕ} {Ω : Type*} [MeasurableSpace Ω]

/-- `Y` are square-integrable, uncorrelated random responses with means `m` and variances `v`. -/
structure RandomResponses (P : Measure Ω) (Y : Ω → Vec ℝ n) (m v : Fin n → ℝ) : Prop where
  prob : IsProbabilityMeasure P
  sq : ∀ i, MemLp (fun ω => Y ω i) 2 P
  mean : ∀ i, ∫ ω, Y ω i ∂P = m i
  var : ∀ i, Var[fun ω => Y ω i; P] = v i
  uncorrelated : ∀ i j, i ≠ j → cov[fun ω => Y ω i, fun ω => Y ω j; P] = 0

end Spec
end GLM
