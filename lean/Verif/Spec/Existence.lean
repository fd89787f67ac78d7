/-
  Vocabulary for separated data (Albert and Anderson 1984), in terms of the user's data.
-/
import Verif.Spec.Glm
import Verif.Spec.Family

namespace GLM
namespace Spec
variable {n p : ℕ}

/-- The response lies at the upper end of the range of the mean, where no mean attains it. -/
def AtTop : Family → ℝ → Prop
  | .logisticLogit, y | .logisticCloglog, y => y = 1
  | .binomial N, y => y = N
  | _, _ => False

/-- The response lies at the lower end of the range of the mean, where no mean attains it. -/
def AtBottom : Family → ℝ → Prop
  | .logisticLogit, y | .logisticCloglog, y | .binomial _, y | .poisson, y => y = 0
  | _, _ => False

/-- The change `(X δ)_i` of the linear predictor of observation `i` when the coefficients change by
`δ`. -/
def move (raw : Dataset ℝ n p false) (b : Bool) (δ : Vec ℝ (ncols b p)) (i : Fin n) : ℝ :=
  ∑ j, design b raw.x i j * δ j

/-- The data are separated (completely or partly), given an L2 strength `l2`: some direction of the
coefficients moves no mean away from its response.  It raises the linear predictor of observations at
the top only, lowers that of observations at the bottom only, does change some of them, and costs no
penalty.  Observations without weight do not matter. -/
def Separated (fam : Family) (raw : Dataset ℝ n p false) (b : Bool) (l2 : ℝ) : Prop :=
  ∃ δ : Vec ℝ (ncols b p),
    (∀ i, 0 < totalWt raw i → 0 < move raw b δ i → AtTop fam (raw.y i)) ∧
    (∀ i, 0 < totalWt raw i → move raw b δ i < 0 → AtBottom fam (raw.y i)) ∧
    (∃ i, 0 < totalWt raw i ∧ move raw b δ i ≠ 0) ∧
    (0 < l2 → slopes b δ = 0)

end Spec
end GLM
