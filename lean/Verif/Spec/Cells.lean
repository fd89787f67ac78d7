/-
  Observations in cells (groups, treatments, combinations of the levels of factors) and models with as many
  coefficients as cells.
-/
import Mathlib.LinearAlgebra.Matrix.Determinant.Basic
import Verif.Spec.Stats
import Verif.Spec.Glm
import Verif.Spec.Family
import Verif.Spec.Deviance
import Verif.Model.Fit

namespace GLM
namespace Spec
variable {n m p : ℕ} {b : Bool}

/-- Total weight of the observations in cell `k`; without variance weights, their number. -/
noncomputable def cellWt (c : Fin n → Fin m) (raw : Dataset ℝ n p false) (k : Fin m) : ℝ :=
  ∑ i ∈ Finset.univ.filter (c · = k), totalWt raw i

/-- Weighted sum of their responses. -/
noncomputable def cellSum (c : Fin n → Fin m) (raw : Dataset ℝ n p false) (k : Fin m) : ℝ :=
  ∑ i ∈ Finset.univ.filter (c · = k), totalWt raw i * raw.y i

/-- Weighted mean of their responses. -/
noncomputable def cellMean (c : Fin n → Fin m) (raw : Dataset ℝ n p false) (k : Fin m) : ℝ :=
  cellSum c raw k / cellWt c raw k

/-- Sum of squares within the cells. -/
noncomputable def within (c : Fin n → Fin m) (raw : Dataset ℝ n p false) : ℝ :=
  ∑ i, totalWt raw i * (raw.y i - cellMean c raw (c i)) ^ 2

/-- Sum of squares between the cells. -/
noncomputable def between (c : Fin n → Fin m) (raw : Dataset ℝ n p false) : ℝ :=
  ∑ k, cellWt c raw k * (cellMean c raw k - meanY raw) ^ 2

/-- The predictor of the model in cell `k`, whose features are `X k`. -/
noncomputable def cellPred (b : Bool) (X : Mat ℝ m p) (β : Vec ℝ (ncols b p)) (k : Fin m) : ℝ :=
  ∑ j, design b X k j * β j

/-- The information of cell `k` about its predictor: total weight, times the squared derivative of the natural
parameter, times the variance at the mean. -/
noncomputable def cellInfo (fam : Family) (c : Fin n → Fin m) (X : Mat ℝ m p) (raw : Dataset ℝ n p false)
    (b : Bool) (β : Vec ℝ (ncols b p)) (k : Fin m) : ℝ :=
  (fam.glm (F := ℝ)).link.dNatParam (cellPred b X β k) ^ 2
    * varianceFn fam ((fam.glm (F := ℝ)).link.funcInv (cellPred b X β k)) * cellWt c raw k

/-- A successful fit without penalties and offset of observations in as many cells as there are coefficients.
Observation `i` has the features `X (c i)` of its cell, no cell is empty, and the coefficients determine and
are determined by the predictors of the cells. -/
structure CellFit (env : Env ℝ) (fam : Family) (c : Fin n → Fin (ncols b p)) (X : Mat ℝ (ncols b p) p)
    (raw : Dataset ℝ n p false) (std : Bool) (d : Dataset ℝ n p b) (o : FitOptions ℝ (ncols b p))
    (f : Fit ℝ n p b) : Prop where
  features : ∀ i, raw.x i = X (c i)
  coded : IsUnit (design b X).det
  weight : ∀ k, 0 < cellWt c raw k
  offset : raw.linearOffset = none
  built : raw.finalize std b = some d
  l1 : o.l1 ≤ 0
  l2 : o.l2 ≤ 0
  fit : regression env fam.glm d o = .ok f

end Spec
end GLM
