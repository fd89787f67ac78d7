/-
  Matrix inversion that is only approximately right.
-/
import Verif.Model.Env
import Verif.Spec.Stats
import Mathlib.LinearAlgebra.Matrix.PosDef

namespace GLM
namespace Spec
open Matrix

/-- The squared size of `v` in the metric of the inverse of `m`. -/
noncomputable def invSize {k : ℕ} (m : Matrix (Fin k) (Fin k) ℝ) (v : Fin k → ℝ) : ℝ := v ⬝ᵥ (m⁻¹ *ᵥ v)

/-- The size of `v` in the metric of `m`. -/
noncomputable def sizeIn {k : ℕ} (m : Matrix (Fin k) (Fin k) ℝ) (v : Fin k → ℝ) : ℝ := √(v ⬝ᵥ (m *ᵥ v))

/-- Inversion of positive definite matrices with relative error at most `κ`: it always answers, and the
answer `a` differs from the inverse of `m` by at most `κ` times the inverse, both as bilinear forms. -/
structure InvertsWithin (env : Env ℝ) (κ : ℝ) : Prop where
  nonneg : 0 ≤ κ
  answers : ∀ {k : ℕ} {m : Mat ℝ k k}, (Matrix.of m).PosDef → ∃ a, env.inv m = .ok a
  close : ∀ {k : ℕ} {m a : Mat ℝ k k}, (Matrix.of m).PosDef → env.inv m = .ok a → ∀ v w : Fin k → ℝ,
    (v ⬝ᵥ ((Matrix.of a - (Matrix.of m)⁻¹) *ᵥ w)) ^ 2
      ≤ κ ^ 2 * (invSize (Matrix.of m) v * invSize (Matrix.of m) w)

variable {n p : ℕ}

/-- The exact leverage of observation `i` at the coefficients `β`, with the information matrix `F`. -/
noncomputable def exactLeverage (g : Glm ℝ) (raw : Dataset ℝ n p false) (b : Bool)
    (F : Matrix (Fin (ncols b p)) (Fin (ncols b p)) ℝ) (β : Vec ℝ (ncols b p)) (i : Fin n) : ℝ :=
  totalWt raw i * g.link.dNatParam (linPred raw b β i) ^ 2 * g.variance (meanAt g raw b β i)
    * invSize F (design b raw.x i)

/-- The exact one-step change of the coefficients if observation `i` is left out. -/
noncomputable def exactInfluence (g : Glm ℝ) (raw : Dataset ℝ n p false) (b : Bool)
    (F : Matrix (Fin (ncols b p)) (Fin (ncols b p)) ℝ) (β : Vec ℝ (ncols b p)) (i : Fin n) :
    Fin (ncols b p) → ℝ :=
  (totalWt raw i * g.link.dNatParam (linPred raw b β i) * (raw.y i - meanAt g raw b β i)
    / (1 - exactLeverage g raw b F β i)) • (F⁻¹ *ᵥ design b raw.x i)

end Spec
end GLM
