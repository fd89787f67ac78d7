/-
  Counts observed over an exposure (time, area, population), given to the fit as the logarithm in the offset.
-/
import Verif.Spec.TwoArms

namespace GLM
namespace Spec
variable {n m p : ℕ}

/-- The offset is the logarithm of the exposure `e`. -/
structure HasExposure (raw : Dataset ℝ n p false) (e : Fin n → ℝ) : Prop where
  offset : raw.linearOffset = some fun i => Real.log (e i)
  pos : ∀ i, 0 < e i

/-- The total (weighted) exposure of arm `a`. -/
noncomputable def armExposure (raw : Dataset ℝ n 1 false) (e : Fin n → ℝ) (a : ℝ) : ℝ :=
  ∑ i ∈ arm raw a, totalWt raw i * e i

/-- Events per unit of exposure in arm `a`. -/
noncomputable def armRate (raw : Dataset ℝ n 1 false) (e : Fin n → ℝ) (a : ℝ) : ℝ :=
  armSum raw a / armExposure raw e a

/-- A successful Poisson fit, with intercept and without penalties, of two arms with exposures, at which the
score vanishes. -/
structure RateFit (env : Env ℝ) (raw : Dataset ℝ n 1 false) (e : Fin n → ℝ) (std : Bool)
    (d : Dataset ℝ n 1 true) (o : FitOptions ℝ (ncols true 1)) (f : Fit ℝ n 1 true) : Prop where
  arms : TwoArms raw
  exposure : HasExposure raw e
  exposure0 : 0 < armExposure raw e 0
  exposure1 : 0 < armExposure raw e 1
  built : raw.finalize std true = some d
  l1 : o.l1 ≤ 0
  l2 : o.l2 ≤ 0
  fit : regression env Family.poisson.glm d o = .ok f
  score : f.score f.result = 0

/-- `agg`, with exposures `e'`, is `raw`, with exposures `e`, after putting together every observation `i` in
cell `c i`: the observations of a cell have the features and the weight of the cell, and their events and
exposures add up to those of the cell. -/
structure Aggregates (c : Fin n → Fin m) (raw : Dataset ℝ n p false) (e : Fin n → ℝ)
    (agg : Dataset ℝ m p false) (e' : Fin m → ℝ) : Prop where
  exposure : HasExposure raw e
  exposure' : HasExposure agg e'
  features : ∀ i, raw.x i = agg.x (c i)
  weights : ∀ i, totalWt raw i = totalWt agg (c i)
  events : ∀ k, agg.y k = ∑ i ∈ Finset.univ.filter (c · = k), raw.y i
  total : ∀ k, e' k = ∑ i ∈ Finset.univ.filter (c · = k), e i

end Spec
end GLM
