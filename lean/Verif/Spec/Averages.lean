/-
  Putting one observation in the place of several with the same features.
-/
import Verif.Spec.Glm
import Verif.Spec.Family
import Verif.Model.Fit

namespace GLM
namespace Spec
variable {n m p : ℕ}

/-- `agg` is `raw` after averaging: every observation `i` has the features and the offset of cell `c i`, the
weight of a cell is the total weight of its observations, and its response their weighted mean. -/
structure Averages (c : Fin n → Fin m) (raw : Dataset ℝ n p false) (agg : Dataset ℝ m p false) : Prop where
  features : ∀ i, raw.x i = agg.x (c i)
  offsets : ∀ i, offset raw i = offset agg (c i)
  weight : ∀ k, totalWt agg k = ∑ i ∈ Finset.univ.filter (c · = k), totalWt raw i
  response : ∀ k, totalWt agg k * agg.y k = ∑ i ∈ Finset.univ.filter (c · = k), totalWt raw i * raw.y i

/-- Twice the difference between the saturated log-likelihoods: the part of the deviance that no model with
these features can explain. -/
noncomputable def withinCells (fam : Family) (raw : Dataset ℝ n p false) (agg : Dataset ℝ m p false) : ℝ :=
  2 * (∑ i, totalWt raw i * (fam.glm (F := ℝ)).logLikeSat (raw.y i)
    - ∑ k, totalWt agg k * (fam.glm (F := ℝ)).logLikeSat (agg.y k))

end Spec
end GLM
