/-
  Vocabulary for fits, in terms of the user's data and coefficients on the user's scale:
  log-likelihood, score, Fisher information and penalty.  `g` provides the family's functions of one
  observation (mean, natural parameter and its derivative, variance, `y η - A(η)`).
-/
import Verif.Spec.Data
import Verif.Model.Response

namespace GLM
namespace Spec
variable {n p : ℕ}

/-- Mean of observation `i` at coefficients `β`. -/
def meanAt (g : Glm ℝ) (raw : Dataset ℝ n p false) (b : Bool) (β : Vec ℝ (ncols b p)) (i : Fin n) :
    ℝ := g.link.funcInv (linPred raw b β i)

/-- Log-likelihood of observation `i`. -/
def logLikAt (g : Glm ℝ) (raw : Dataset ℝ n p false) (b : Bool) (β : Vec ℝ (ncols b p))
    (i : Fin n) : ℝ := g.logLikeNatural (raw.y i) (g.link.natParam (linPred raw b β i))

/-- Log-likelihood at coefficients `β`: `Σ_i f_i w_i l(y_i, η_i)`. -/
def logLik (g : Glm ℝ) (raw : Dataset ℝ n p false) (b : Bool) (β : Vec ℝ (ncols b p)) : ℝ :=
  ∑ i, totalWt raw i * logLikAt g raw b β i

/-- Score of the data: `Σ_i f_i w_i η'(ω_i) (y_i - μ_i) X_ij`. -/
def scoreVec (g : Glm ℝ) (raw : Dataset ℝ n p false) (b : Bool) (β : Vec ℝ (ncols b p)) :
    Vec ℝ (ncols b p) := fun j =>
  ∑ i, totalWt raw i * g.link.dNatParam (linPred raw b β i) * (raw.y i - meanAt g raw b β i)
    * design b raw.x i j

/-- Expected information of the data: `Σ_i f_i w_i η'(ω_i)² V(μ_i) X_ij X_ik`. -/
def fisherMat (g : Glm ℝ) (raw : Dataset ℝ n p false) (b : Bool) (β : Vec ℝ (ncols b p)) :
    Matrix (Fin (ncols b p)) (Fin (ncols b p)) ℝ := fun j k =>
  ∑ i, totalWt raw i * g.link.dNatParam (linPred raw b β i) ^ 2 * g.variance (meanAt g raw b β i)
    * design b raw.x i j * design b raw.x i k

/-- The coefficients other than the intercept. -/
def slopes : (b : Bool) → Vec ℝ (ncols b p) → Vec ℝ p
  | true, β => fun j => β j.succ
  | false, β => β

/-- The coefficient vector with zero intercept and the given slopes. -/
def onSlopes : (b : Bool) → Vec ℝ p → Vec ℝ (ncols b p)
  | true, v => (Fin.cons 0 v : Fin (p + 1) → ℝ)
  | false, v => v

/-- Elastic-net penalty with strengths `l1`, `l2` on the coefficients other than the intercept, in
units `σ` (a coefficient `β_j` counts as `σ_j β_j`).  Strengths that are not positive are ignored. -/
noncomputable def penalty (l1 l2 : ℝ) (σ : Fin p → ℝ) (b : Bool) (β : Vec ℝ (ncols b p)) : ℝ :=
  max l1 0 * ∑ j, |σ j * slopes b β j| + max l2 0 / 2 * ∑ j, (σ j * slopes b β j) ^ 2

/-- The objective of a fit: log-likelihood minus penalty. -/
noncomputable def penLogLik (g : Glm ℝ) (raw : Dataset ℝ n p false) (b : Bool) (l1 l2 : ℝ)
    (σ : Fin p → ℝ) (β : Vec ℝ (ncols b p)) : ℝ := logLik g raw b β - penalty l1 l2 σ b β

/-- The factor by which the built dataset divided feature `j` (one if it was not standardized). -/
def scale {b : Bool} (d : Dataset ℝ n p b) (j : Fin p) : ℝ := match d.standardizer with
  | none => 1
  | some s => s.scales j

/-- Score of the penalized log-likelihood, `∇ (logLik - penalty)`; at a zero coefficient the L1 part
is taken to be zero. -/
noncomputable def penScore (g : Glm ℝ) (raw : Dataset ℝ n p false) (b : Bool) (l1 l2 : ℝ)
    (σ : Fin p → ℝ) (β : Vec ℝ (ncols b p)) : Vec ℝ (ncols b p) := fun j =>
  scoreVec g raw b β j - onSlopes b (fun j =>
    max l1 0 * (σ j * SignType.sign (slopes b β j)) + max l2 0 * (σ j ^ 2 * slopes b β j)) j

/-- The weighted Gram matrix `Xᵀ W X`. -/
def gram (raw : Dataset ℝ n p false) (b : Bool) :
    Matrix (Fin (ncols b p)) (Fin (ncols b p)) ℝ := fun j k =>
  ∑ i, totalWt raw i * design b raw.x i j * design b raw.x i k

/-- Curvature of the L2 penalty. -/
noncomputable def ridgeMat (l2 : ℝ) (σ : Fin p → ℝ) (b : Bool) :
    Matrix (Fin (ncols b p)) (Fin (ncols b p)) ℝ :=
  Matrix.diagonal (onSlopes b fun j => max l2 0 * σ j ^ 2)

/-- The matrix of the IRLS equation, on the user's scale: information, with the machine epsilon
added to every weight, plus the curvature of the L2 penalty. -/
noncomputable def newtonMat (eps : ℝ) (g : Glm ℝ) (raw : Dataset ℝ n p false) (b : Bool) (l2 : ℝ)
    (σ : Fin p → ℝ) (β : Vec ℝ (ncols b p)) : Matrix (Fin (ncols b p)) (Fin (ncols b p)) ℝ :=
  fisherMat g raw b β + eps • gram raw b + ridgeMat l2 σ b

/-- The step multipliers the iteration may use: the full step, a positive power of the
golden-section constant, or a step backwards. -/
def StepMult (m : ℝ) : Prop :=
  m = 1 ∨ (∃ j : ℕ, m = (0.618033988749894 : ℝ) ^ (j + 1)) ∨ m = -0.618033988749894

/-- The adjustments of the iteration follow `d_nat_param`, as the provided trait methods do (and
every family of the crate, see C55). -/
structure LawfulAdj (g : Glm ℝ) : Prop where
  errors : ∀ e ω, g.link.adjustErrors e ω = g.link.dNatParam ω * e
  variance : ∀ v ω, g.link.adjustVariance v ω = g.link.dNatParam ω ^ 2 * v
  both : ∀ e v ω, g.link.adjustErrorsVariance e v ω =
    (g.link.adjustErrors e ω, g.link.adjustVariance v ω)

/-- `δ` is the Newton step from `β`. -/
def IsNewtonStep (eps : ℝ) (g : Glm ℝ) (raw : Dataset ℝ n p false) (b : Bool) (l1 l2 : ℝ)
    (σ : Fin p → ℝ) (β δ : Vec ℝ (ncols b p)) : Prop :=
  Matrix.mulVec (newtonMat eps g raw b l2 σ β) δ = penScore g raw b l1 l2 σ β

end Spec
end GLM
