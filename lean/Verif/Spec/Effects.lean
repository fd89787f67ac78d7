/-
  The linear predictor of a new observation, and by how much two new observations differ in it.
-/
import Verif.Spec.Glm

namespace GLM
namespace Spec
variable {p m : ℕ} {b : Bool}

/-- The intercept; zero if the model has none. -/
def interceptOf : (b : Bool) → Vec ℝ (ncols b p) → ℝ
  | true, β => β (0 : Fin (p + 1))
  | false, _ => 0

/-- The linear predictor of a new observation with features `x` and offset `o`. -/
def newPred (b : Bool) (β : Vec ℝ (ncols b p)) (x : Fin p → ℝ) (o : ℝ) : ℝ :=
  interceptOf b β + ∑ j, x j * slopes b β j + o

/-- The offset passed for row `i`; zero if none is passed. -/
def newOffset (off : Option (Vec ℝ m)) (i : Fin m) : ℝ :=
  match off with
  | some o => o i
  | none => 0

/-- The effect of replacing features `x` and offset `o` by `x'` and `o'`. -/
def effect (b : Bool) (β : Vec ℝ (ncols b p)) (x x' : Fin p → ℝ) (o o' : ℝ) : ℝ :=
  ∑ j, (x' j - x j) * slopes b β j + (o' - o)

end Spec
end GLM
