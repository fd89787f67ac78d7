/-
  Vocabulary for C90: curvature of the log-likelihood at a solution, and what it means that fits
  started in a neighbourhood converge to it.
-/
import Verif.Spec.Penalty
import Verif.Model.Fit

namespace GLM
namespace Spec
variable {n p : ℕ}

/-- `o` is the observed information of one observation with response `y` at linear predictor `w`: minus
the second derivative of its log-likelihood, that is, minus the derivative of `η'(w) (y - μ(w))`. -/
def IsObsInfo (g : Glm ℝ) (y w o : ℝ) : Prop :=
  HasDerivAt (fun w => g.link.dNatParam w * (y - g.link.funcInv w)) (-o) w

/-- The expected information of one observation at linear predictor `w`. -/
def expInfo (g : Glm ℝ) (w : ℝ) : ℝ := g.link.dNatParam w ^ 2 * g.variance (g.link.funcInv w)

/-- The penalized log-likelihood of a fit with options `l1`, `l2` on the dataset `d` built from `raw`. -/
noncomputable def objOf {b : Bool} (g : Glm ℝ) (raw : Dataset ℝ n p false) (d : Dataset ℝ n p b)
    (options : FitOptions ℝ (ncols b p)) : Vec ℝ (ncols b p) → ℝ :=
  penLogLik g raw b options.l1 options.l2 (scale d)

/-- Fits with L2 strength `l2` and no L1 penalty that are started in `U` converge to `βs`: the deficiency
of the objective is multiplied by at most `ρ` at every step, and the result is as close as the tolerance
asks, up to the factor `C`. -/
structure ConvergesFrom {b : Bool} (env : Env ℝ) (g : Glm ℝ) (raw : Dataset ℝ n p false)
    (d : Dataset ℝ n p b) (l2 : ℝ) (βs : Vec ℝ (ncols b p)) (U : Set (Vec ℝ (ncols b p)))
    (ρ C : ℝ) : Prop where
  /-- Every step of a successful fit is a full Newton step and gains on the objective. -/
  steps : ∀ (options : FitOptions ℝ (ncols b p)) (β0 : Vec ℝ (ncols b p)) (f : Fit ℝ n p b),
    options.l1 ≤ 0 → options.l2 = l2 → options.initGuess = some β0 → β0 ∈ U →
    regression env g d options = .ok f →
    (β0 :: f.history.map IrlsStep.guess).IsChain fun β β' =>
      IsNewtonStep env.eps g raw b options.l1 l2 (scale d) β (β' - β) ∧
      objOf g raw d options βs - objOf g raw d options β'
        ≤ ρ * (objOf g raw d options βs - objOf g raw d options β)
  /-- The objective at the result, after `n_iter` steps. -/
  rate : ∀ (options : FitOptions ℝ (ncols b p)) (β0 : Vec ℝ (ncols b p)) (f : Fit ℝ n p b),
    options.l1 ≤ 0 → options.l2 = l2 → options.initGuess = some β0 → β0 ∈ U →
    regression env g d options = .ok f →
    objOf g raw d options βs - objOf g raw d options f.result
      ≤ ρ ^ f.nIter * (objOf g raw d options βs - objOf g raw d options β0)
  /-- The coefficients of the result. -/
  result : ∀ (options : FitOptions ℝ (ncols b p)) (β0 : Vec ℝ (ncols b p)) (f : Fit ℝ n p b),
    options.l1 ≤ 0 → options.l2 = l2 → options.initGuess = some β0 → β0 ∈ U →
    regression env g d options = .ok f → ∀ j, |f.result j - βs j| ≤ C * |options.tol|
  /-- Fits succeed: for each tolerance there is a number of iterations that suffices everywhere in `U`. -/
  total : ∀ tol > 0, ∃ K : ℕ, ∀ (options : FitOptions ℝ (ncols b p)) (β0 : Vec ℝ (ncols b p)),
    options.l1 ≤ 0 → options.l2 = l2 → options.initGuess = some β0 → β0 ∈ U →
    options.tol = tol → K ≤ options.maxIter →
    ∃ f, regression env g d options = .ok f ∧ f.nIter ≤ K

end Spec
end GLM
