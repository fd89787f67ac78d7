/-
  Vocabulary for the statistics of a fit, in terms of the user's data and coefficients.
-/
import Verif.Spec.Glm

namespace GLM
namespace Spec
variable {n p : ℕ}

/-- Log-likelihood of the saturated model, `Σ_i f_i w_i l_sat(y_i)`. -/
def satLik (g : Glm ℝ) (raw : Dataset ℝ n p false) : ℝ :=
  ∑ i, totalWt raw i * g.logLikeSat (raw.y i)

/-- Deviance of the model with coefficients `β`: twice the log-likelihood it lacks compared to the
saturated model. -/
def devianceOf (g : Glm ℝ) (raw : Dataset ℝ n p false) (b : Bool) (β : Vec ℝ (ncols b p)) : ℝ :=
  2 * (satLik g raw - logLik g raw b β)

/-- Sum of the total weights. -/
def weightSum (raw : Dataset ℝ n p false) : ℝ := ∑ i, totalWt raw i

/-- Weighted mean of the responses. -/
noncomputable def meanY (raw : Dataset ℝ n p false) : ℝ :=
  (∑ i, totalWt raw i * raw.y i) / weightSum raw

/-- Coefficients of the model without features and with intercept `c`. -/
def interceptOnly (c : ℝ) : Vec ℝ (ncols true p) := (Fin.cons c fun _ => 0 : Fin (p + 1) → ℝ)

/-- Number of observations, counted with frequency. -/
def obsCount (raw : Dataset ℝ n p false) : ℝ := ∑ i, freq raw i

/-- Effective number of observations, `(Σ f w)² / Σ f w²`. -/
noncomputable def effCount (raw : Dataset ℝ n p false) : ℝ :=
  (∑ i, freq raw i * varWt raw i) ^ 2 / ∑ i, freq raw i * varWt raw i ^ 2

/-- The data set without its features. -/
def dropFeatures (raw : Dataset ℝ n p false) : Dataset ℝ n 0 false where
  y := raw.y
  x := fun _ => Fin.elim0
  linearOffset := raw.linearOffset
  weights := raw.weights
  freqs := raw.freqs
  standardizer := none

/-- The data set with observation `i` left out: its frequency is zero. -/
def withoutObs (raw : Dataset ℝ n p false) (i : Fin n) : Dataset ℝ n p false :=
  { raw with freqs := some fun k => if k = i then 0 else freq raw k }

end Spec
end GLM
