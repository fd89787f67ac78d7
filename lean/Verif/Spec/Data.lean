/-
  Vocabulary for datasets: weights, offsets, the design matrix and linear predictor the user has in
  mind.  Independent of the model's weighting and standardization helpers.
-/
import Verif.Model.Data
import Mathlib.Data.Matrix.Mul
import Mathlib.Algebra.BigOperators.Fin

namespace GLM
namespace Spec
variable {n p : ℕ} {b : Bool}

/-- Frequency of observation `i`; one if none were given. -/
def freq (d : Dataset ℝ n p b) (i : Fin n) : ℝ := match d.freqs with
  | none => 1
  | some f => f i

/-- Variance weight of observation `i`; one if none were given. -/
def varWt (d : Dataset ℝ n p b) (i : Fin n) : ℝ := match d.weights with
  | none => 1
  | some w => w i

/-- Total weight of observation `i`. -/
def totalWt (d : Dataset ℝ n p b) (i : Fin n) : ℝ := freq d i * varWt d i

/-- Linear-predictor offset of observation `i`; zero if none was given. -/
def offset (d : Dataset ℝ n p b) (i : Fin n) : ℝ := match d.linearOffset with
  | none => 0
  | some o => o i

/-- The design matrix for features `x`: with an intercept, a leading column of ones. -/
def design : (b : Bool) → Mat ℝ n p → Matrix (Fin n) (Fin (ncols b p)) ℝ
  | true, x => fun i => (Fin.cons 1 (x i) : Fin (p + 1) → ℝ)
  | false, x => x

/-- The linear predictor of observation `i` at coefficients `β`, in terms of the user's features:
`(X β)_i + offset_i`. -/
def linPred (raw : Dataset ℝ n p false) (b : Bool) (β : Vec ℝ (ncols b p)) (i : Fin n) : ℝ :=
  ∑ j, design b (n := n) (p := p) raw.x i j * β j + offset raw i

end Spec
end GLM
