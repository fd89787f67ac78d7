/-
  Vocabulary for C32-C35: gradients, subgradients of the absolute value and the optimality conditions
  of an L1-penalized model.
-/
import Verif.Spec.Glm
import Mathlib.Analysis.Calculus.FDeriv.Pi
import Mathlib.Analysis.Calculus.FDeriv.Add

namespace GLM
namespace Spec
variable {n p k : ℕ}

/-- `grad` is the gradient of `φ` at `β`. -/
def IsGradientAt (φ : (Fin k → ℝ) → ℝ) (grad β : Fin k → ℝ) : Prop :=
  HasFDerivAt φ (∑ j, grad j • ContinuousLinearMap.proj (R := ℝ) (φ := fun _ : Fin k => ℝ) j) β

/-- `u` is a subgradient of `l |·|` at `x`. -/
def IsSubgrad (l x u : ℝ) : Prop := |u| ≤ l ∧ u * x = l * |x|

/-- The optimality (Karush-Kuhn-Tucker) conditions of the elastic net: the score equals the gradient
of the L2 penalty plus a subgradient of the L1 penalty; the intercept is not penalized. -/
def KKT (g : Glm ℝ) (raw : Dataset ℝ n p false) (b : Bool) (l1 l2 : ℝ) (σ : Fin p → ℝ)
    (β : Vec ℝ (ncols b p)) : Prop :=
  ∃ u : Fin p → ℝ, (∀ j, IsSubgrad (max l1 0 * σ j) (slopes b β j) (u j)) ∧
    scoreVec g raw b β = onSlopes b fun j => u j + max l2 0 * (σ j ^ 2 * slopes b β j)

end Spec
end GLM
