/-
  Normal responses: vocabulary for C117.
-/
import Verif.Spec.Sampling
import Mathlib.Probability.Distributions.Gaussian.Real
import Mathlib.Probability.Independence.Basic

open MeasureTheory ProbabilityTheory

namespace GLM
namespace Spec
variable {n : ℕ} {Ω : Type*} [MeasurableSpace Ω]

/-- `Y` are independent normal responses with means `m` and variances `v`. -/
structure NormalResponses (P : Measure Ω) (Y : Ω → Vec ℝ n) (m v : Fin n → ℝ) : Prop where
  nonneg : ∀ i, 0 ≤ v i
  prob : IsProbabilityMeasure P
  measurable : ∀ i, AEMeasurable (fun ω => Y ω i) P
  law : ∀ i, P.map (fun ω => Y ω i) = gaussianReal (m i) (v i).toNNReal
  indep : iIndepFun (fun i ω => Y ω i) P

end Spec
end GLM
