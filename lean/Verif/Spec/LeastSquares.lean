/-
  Weighted least squares.
-/
import Verif.Spec.Glm

namespace GLM
namespace Spec
variable {n p : ℕ}

/-- Weighted sum of squared errors at coefficients `β`. -/
def sse (raw : Dataset ℝ n p false) (b : Bool) (β : Vec ℝ (ncols b p)) : ℝ :=
  ∑ i, totalWt raw i * (raw.y i - linPred raw b β i) ^ 2

/-- `β` is a weighted least-squares solution. -/
def IsLeastSquares (raw : Dataset ℝ n p false) (b : Bool) (β : Vec ℝ (ncols b p)) : Prop :=
  ∀ β', sse raw b β ≤ sse raw b β'

/-- Ridge loss: the weighted sum of squared errors plus `l2` times the sum of the squared slopes in
units `σ`; a strength that is not positive is ignored. -/
noncomputable def ridgeLoss (raw : Dataset ℝ n p false) (b : Bool) (l2 : ℝ) (σ : Fin p → ℝ)
    (β : Vec ℝ (ncols b p)) : ℝ :=
  sse raw b β + max l2 0 * ∑ j, (σ j * slopes b β j) ^ 2

/-- `β` minimizes the ridge loss. -/
def IsRidge (raw : Dataset ℝ n p false) (b : Bool) (l2 : ℝ) (σ : Fin p → ℝ)
    (β : Vec ℝ (ncols b p)) : Prop := ∀ β', ridgeLoss raw b l2 σ β ≤ ridgeLoss raw b l2 σ β'

end Spec
end GLM
