/-
  Linear algebra that is only approximately right.
-/
import Verif.Model.Env
import Verif.Spec.LeastSquares
import Mathlib.LinearAlgebra.Matrix.PosDef

namespace GLM
namespace Spec
open Matrix

/-- A solver of positive definite systems with relative error at most `κ`: it always answers, and the
answer `x` differs from the solution `xs` by at most `κ` times the solution, both measured in the norm
of the matrix of the system. -/
structure SolvesWithin (env : Env ℝ) (κ : ℝ) : Prop where
  eps_nonneg : 0 ≤ env.eps
  nonneg : 0 ≤ κ
  answers : ∀ {k : ℕ} {m : Mat ℝ k k} (v : Vec ℝ k), (Matrix.of m).PosDef →
    ∃ x, env.solveh m v = .ok x
  close : ∀ {k : ℕ} {m : Mat ℝ k k} {v x xs : Vec ℝ k}, (Matrix.of m).PosDef →
    Matrix.of m *ᵥ xs = v → env.solveh m v = .ok x →
    (x - xs) ⬝ᵥ (Matrix.of m *ᵥ (x - xs)) ≤ κ ^ 2 * (xs ⬝ᵥ (Matrix.of m *ᵥ xs))

variable {n p : ℕ}

/-- The size of a coefficient vector as seen by a weighted ridge regression: the weighted sum of
squares of what it predicts (without the offset), inflated by `1 + ε`, plus its penalty. -/
noncomputable def modelSize (eps : ℝ) (raw : Dataset ℝ n p false) (b : Bool) (l2 : ℝ)
    (σ : Fin p → ℝ) (β : Vec ℝ (ncols b p)) : ℝ :=
  (1 + eps) * ∑ i, totalWt raw i * (∑ j, design b raw.x i j * β j) ^ 2
    + max l2 0 * ∑ j, (σ j * slopes b β j) ^ 2

end Spec
end GLM
