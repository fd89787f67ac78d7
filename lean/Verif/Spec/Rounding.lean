/-
  What the mean and the variance of a family may be in floating-point arithmetic.
-/
import Verif.Spec.Ieee

namespace GLM.Spec

/-- The families whose inverse link is defined for every predictor. -/
def AnyPredictor : Family → Prop
  | .linear | .exponentialNegRec | .gammaNegRec | .invGaussNegRecSq => False
  | _ => True

/-- The families with a reciprocal link, whose predictors have to be negative. -/
def NegativePredictor : Family → Prop
  | .exponentialNegRec | .gammaNegRec | .invGaussNegRecSq => True
  | _ => False

/-- The largest mean: the number of trials as the format represents it, or infinity. -/
noncomputable def meanCap (fmt : FloatFormat) : Family → EReal
  | .logisticLogit | .logisticCloglog => 1
  | .binomial N => fmt.rnd (N : ℝ)
  | _ => ⊤

/-- The number of trials is positive and not too large for the format (the largest `usize` is not
too large for `f32`). -/
def TrialsFit (fmt : FloatFormat) : Family → Prop
  | .binomial N => 1 ≤ N ∧ fmt.rnd (N : ℝ) ≠ ⊤
  | _ => True

end GLM.Spec

namespace GLM.Spec
variable {fmt : FloatFormat}

/-- A value that the format can store: rounding leaves it alone. -/
def Stored (x : Fl fmt) : Prop := x.isNaN ∨ fmt.rnd x.val = x.val

/-- The linear-algebra library returns values of the format. -/
def SolvesInFormat (env : Env (Fl fmt)) : Prop :=
  ∀ {k : ℕ} (A : Mat (Fl fmt) k k) (c v : Vec (Fl fmt) k), env.solveh A c = .ok v → ∀ j, Stored (v j)

/-- The penalized log-likelihood that a fit maximizes. -/
noncomputable def penalized {n p : ℕ} {b : Bool} (fam : Family) (data : Dataset (Fl fmt) n p b)
    (options : FitOptions (Fl fmt) (ncols b p)) (v : Vec (Fl fmt) (ncols b p)) : Fl fmt :=
  fam.glm.logLike data v + (getReg options).likelihood v

/-- Both are numbers and the second is larger. -/
def Increases (x y : Fl fmt) : Prop := ¬ x.isNaN ∧ ¬ y.isNaN ∧ x.val < y.val

end GLM.Spec
