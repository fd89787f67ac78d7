/-
  The alternating direction method of multipliers (ADMM) with residual balancing, as in the textbook
  (Boyd et al. 2011, sections 3.1, 3.4.1 and 6.4), with a proximal term in the coefficient step.
  `lagrangian` to `stepsAt` are independent of the model; the rest is the problem solved by an
  L1-penalized fit.
-/
import Mathlib.Analysis.Real.Sqrt
import Mathlib.Algebra.BigOperators.Ring.Finset
import Verif.Spec.Penalty
import Verif.Spec.Family

namespace GLM
namespace Spec
open Matrix
variable {k : ℕ}

/-- The augmented Lagrangian of "maximize `ℓ x - Σ lam |z|` subject to `x = z`", as a function of the
coefficients. -/
noncomputable def lagrangian (ℓ : (Fin k → ℝ) → ℝ) (z y : Fin k → ℝ) (ρ : ℝ) (v : Fin k → ℝ) : ℝ :=
  ℓ v - ∑ j, (y j * (v j - z j) + ρ / 2 * (v j - z j) ^ 2)

/-- A run of ADMM: `x t`, `z t`, `y t` are the coefficients, the split variable and the multipliers
before iteration `t`, and `ρ t` is the penalty parameter used in it.  An iteration first minimizes over
the split variable, then updates the multipliers, then maximizes over the coefficients, where `prox v x`
is the price of moving them from `x` to `v`.  The penalty parameter starts at one; it is doubled when
the primal residual `x - z` is more than 8 times the dual residual, and halved in the opposite case. -/
structure AdmmRun (ℓ : (Fin k → ℝ) → ℝ) (prox : (Fin k → ℝ) → (Fin k → ℝ) → ℝ) (lam : Fin k → ℝ)
    (x z y : ℕ → Fin k → ℝ) (ρ : ℕ → ℝ) : Prop where
  z_zero : z 0 = 0
  y_zero : y 0 = 0
  rho_zero : ρ 0 = 1
  shrink : ∀ t (v : Fin k → ℝ), ∑ j, (lam j * |z (t + 1) j| + y t j * (x t j - z (t + 1) j)
      + ρ t / 2 * (x t j - z (t + 1) j) ^ 2)
    ≤ ∑ j, (lam j * |v j| + y t j * (x t j - v j) + ρ t / 2 * (x t j - v j) ^ 2)
  ascend : ∀ t j, y (t + 1) j = y t j + ρ t * (x t j - z (t + 1) j)
  fit : ∀ t (v : Fin k → ℝ), lagrangian ℓ (z (t + 1)) (y (t + 1)) (ρ t) v - prox v (x t)
    ≤ lagrangian ℓ (z (t + 1)) (y (t + 1)) (ρ t) (x (t + 1)) - prox (x (t + 1)) (x t)
  balance : ∀ t, ρ (t + 1) =
    if 8 ^ 2 * ∑ j, (ρ t * (z (t + 1) j - z t j)) ^ 2 < ∑ j, (x t j - z (t + 1) j) ^ 2 then 2 * ρ t
    else if 8 ^ 2 * ∑ j, (x t j - z (t + 1) j) ^ 2 < ∑ j, (ρ t * (z (t + 1) j - z t j)) ^ 2 then ρ t / 2
    else ρ t

/-- The stopping rule with tolerance `tol` and `n` observations holds at iteration `t`: the residuals,
the change of the augmented Lagrangian and the change of the coefficients are small. -/
def Settled (ℓ : (Fin k → ℝ) → ℝ) (n : ℕ) (tol : ℝ) (x z y : ℕ → Fin k → ℝ) (ρ : ℕ → ℝ) (t : ℕ) :
    Prop :=
  ∑ j, (x t j - z (t + 1) j) ^ 2 < √k * tol ∧
  ∑ j, (ρ t * (z (t + 1) j - z t j)) ^ 2 < √k * tol ∧
  |lagrangian ℓ (z (t + 1)) (y (t + 1)) (ρ t) (x (t + 1))
    - lagrangian ℓ (z (t + 1)) (y (t + 1)) (ρ t) (x t)| ≤ tol * n ∧
  ∑ j, (x (t + 1) j - x t j) ^ 2 ≤ (k + ∑ j, x (t + 1) j ^ 2) * tol ^ 2

/-- `T` is the first iteration at which the stopping rule holds. -/
def FirstSettled (ℓ : (Fin k → ℝ) → ℝ) (n : ℕ) (tol : ℝ) (x z y : ℕ → Fin k → ℝ) (ρ : ℕ → ℝ) (T : ℕ) :
    Prop :=
  Settled ℓ n tol x z y ρ T ∧ ∀ t < T, ¬ Settled ℓ n tol x z y ρ t

open Classical in
/-- The number of steps taken when the stopping rule first holds at iteration `T`: the step of that
iteration is taken too, unless it leaves the coefficients where they are. -/
noncomputable def stepsAt (x : ℕ → Fin k → ℝ) (T : ℕ) : ℕ := if x (T + 1) = x T then T else T + 1

section fits
variable {n p : ℕ} {b : Bool}

/-- The L1 strengths of the columns: zero for the intercept. -/
def l1Vec (b : Bool) (p : ℕ) (l1 : ℝ) : Vec ℝ (ncols b p) := onSlopes b fun _ : Fin p => l1

/-- The log-likelihood with the L2 penalty, on the scale on which the model is fitted. -/
noncomputable def smoothLik (g : Glm ℝ) (raw : Dataset ℝ n p false) (d : Dataset ℝ n p b) (l2 : ℝ)
    (γ : Vec ℝ (ncols b p)) : ℝ :=
  penLogLik g raw b 0 l2 (scale d) (d.inverseTransformBeta γ)

/-- The price of a step: half the (small) multiple `eps` of the weighted squares of the changes of the
linear predictor. -/
noncomputable def moveCost (eps : ℝ) (raw : Dataset ℝ n p false) (d : Dataset ℝ n p b)
    (v x : Vec ℝ (ncols b p)) : ℝ :=
  eps / 2 * ∑ i, totalWt raw i * (linPred raw b (d.inverseTransformBeta v) i
    - linPred raw b (d.inverseTransformBeta x) i) ^ 2

/-- The last linear system of an L1 fit: it was set up at `β`, where the split variable `z` was
close, and solved by `βn`.  `y` is a subgradient of the L1 penalty at `z`, and the gradient of the
log-likelihood with the L2 penalty at `β` is `y`, up to terms that vanish with `βn - β` and
`βn - z`. -/
structure L1Stop (eps : ℝ) (g : Glm ℝ) (raw : Dataset ℝ n p false) (d : Dataset ℝ n p b)
    (l1 l2 tol : ℝ) (β βn z y : Vec ℝ (ncols b p)) (ρ : ℝ) : Prop where
  sub : ∀ j, IsSubgrad (l1Vec b p l1 j) (z j) (y j)
  close : ∑ j, (d.transformBeta β j - z j) ^ 2 < √(ncols b p : ℕ) * tol
  step : ∀ w, penScore g raw b 0 l2 (scale d) β ⬝ᵥ w
    = (y + ρ • (d.transformBeta βn - z)) ⬝ᵥ d.transformBeta w
      + (newtonMat eps g raw b l2 (scale d) β *ᵥ (βn - β)) ⬝ᵥ w

/-- The step from `β` to `βn` is small enough for the tolerance. -/
def SmallStep (g : Glm ℝ) (raw : Dataset ℝ n p false) (d : Dataset ℝ n p b) (l2 tol : ℝ)
    (β βn z y : Vec ℝ (ncols b p)) (ρ : ℝ) : Prop :=
  |lagrangian (smoothLik g raw d l2) z y ρ (d.transformBeta βn)
    - lagrangian (smoothLik g raw d l2) z y ρ (d.transformBeta β)| ≤ tol * n ∧
  ∑ j, (d.transformBeta βn j - d.transformBeta β j) ^ 2
    ≤ ((ncols b p : ℕ) + ∑ j, d.transformBeta βn j ^ 2) * tol ^ 2

/-- The step from `β` to `βn` does not increase the augmented Lagrangian, and no point that the line
search tries in between (nor the one behind `β`) increases the L1-penalized log-likelihood. -/
def NoProgress (g : Glm ℝ) (raw : Dataset ℝ n p false) (d : Dataset ℝ n p b) (l1 l2 tol : ℝ)
    (β βn z y : Vec ℝ (ncols b p)) (ρ : ℝ) : Prop :=
  lagrangian (smoothLik g raw d l2) z y ρ (d.transformBeta βn)
    ≤ lagrangian (smoothLik g raw d l2) z y ρ (d.transformBeta β) ∧
  (∀ j : ℕ, √(∑ i, (1 + d.transformBeta β i ^ 2)) * |tol| < (0.618033988749894 : ℝ) ^ j →
    penLogLik g raw b l1 l2 (scale d) (β + (0.618033988749894 : ℝ) ^ (j + 1) • (βn - β))
      ≤ penLogLik g raw b l1 l2 (scale d) β) ∧
  penLogLik g raw b l1 l2 (scale d) (β - (0.618033988749894 : ℝ) • (βn - β))
    ≤ penLogLik g raw b l1 l2 (scale d) β

/-- By how much the objective at `β'` may exceed the objective at the reported coefficients. -/
noncomputable def excess (eps : ℝ) (g : Glm ℝ) (raw : Dataset ℝ n p false) (d : Dataset ℝ n p b)
    (l1 l2 : ℝ) (β βn z : Vec ℝ (ncols b p)) (ρ : ℝ) (β' : Vec ℝ (ncols b p)) : ℝ :=
  2 * ∑ j, l1Vec b p l1 j * |d.transformBeta β j - z j|
    + 2 * ∑ j, l1Vec b p l1 j * |d.transformBeta βn j - z j|
    + ρ / 2 * ∑ j, (d.transformBeta β j - z j) ^ 2
    + ρ * ((d.transformBeta βn - z) ⬝ᵥ d.transformBeta (β' - β))
    + (newtonMat eps g raw b l2 (scale d) β *ᵥ (βn - β)) ⬝ᵥ (β' - β)

end fits

end Spec
end GLM
