/-
  Vocabulary for comparing fits: nested models and optimal fits.
-/
import Verif.Spec.Stats
import Verif.Props.Optimum

namespace GLM
namespace Spec
open Matrix
variable {n p p' : ℕ} {b b' : Bool}

/-- The model described by `raw'` contains the one described by `raw`: the observations are the same,
and every linear predictor that the smaller model can produce, with coefficients `β`, the larger one
produces with coefficients `T β`.  For instance `raw'` may have further features or an intercept. -/
structure Nested (T : Matrix (Fin (ncols b' p')) (Fin (ncols b p)) ℝ) (raw : Dataset ℝ n p false)
    (raw' : Dataset ℝ n p' false) : Prop where
  y : raw'.y = raw.y
  weights : raw'.weights = raw.weights
  freqs : raw'.freqs = raw.freqs
  pred : ∀ β i, linPred raw' b' (T *ᵥ β) i = linPred raw b β i

/-- No coefficients that give every observation an admissible mean have a larger objective than the
fit: `lr_test_against` is never negative. -/
def Optimal (fam : Family) (raw : Dataset ℝ n p false) (f : Fit ℝ n p b) : Prop :=
  ∀ β, Admissible fam raw b β → 0 ≤ f.lrTestAgainst β

/-- Sum of the squared standardized slopes: what the L2 penalty measures. -/
def slopeSq {b : Bool} (d : Dataset ℝ n p b) (β : Vec ℝ (ncols b p)) : ℝ :=
  ∑ j, (scale d j * slopes b β j) ^ 2

/-- Sum of the absolute standardized slopes: what the L1 penalty measures. -/
def slopeAbs {b : Bool} (d : Dataset ℝ n p b) (β : Vec ℝ (ncols b p)) : ℝ :=
  ∑ j, |scale d j * slopes b β j|

end Spec
end GLM
