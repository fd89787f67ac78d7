/-
  What frequency and variance weights mean: vocabulary for C11-C13.
-/
import Verif.Spec.Glm
import Mathlib.Algebra.BigOperators.Fin

namespace GLM
namespace Spec
variable {n m p : ℕ} {b : Bool}

/-- Every row of `d'` is a copy of row `r k` of `d`, and the frequencies of the copies of row `i` add
up to the frequency of row `i`. -/
structure Reweights (d : Dataset ℝ n p b) (d' : Dataset ℝ m p b) (r : Fin m → Fin n) : Prop where
  y : ∀ k, d'.y k = d.y (r k)
  x : ∀ k, d'.x k = d.x (r k)
  offset : d'.linearOffset = d.linearOffset.map fun o k => o (r k)
  weights : d'.weights = d.weights.map fun w k => w (r k)
  freq : ∀ i, freq d i = ∑ k with r k = i, freq d' k
  std : d'.standardizer = d.standardizer

/-- The data set with row `i` written out `c i` times and no frequency weights. -/
def repeatRows (d : Dataset ℝ n p b) (c : Fin n → ℕ) : Dataset ℝ (∑ i, c i) p b :=
  let r : Fin (∑ i, c i) → Fin n := fun k => (finSigmaFinEquiv.symm k).1
  { y := fun k => d.y (r k)
    x := fun k => d.x (r k)
    linearOffset := d.linearOffset.map fun o k => o (r k)
    weights := d.weights.map fun w k => w (r k)
    freqs := none
    standardizer := d.standardizer }

/-- The data set without row `i`. -/
def dropRow (d : Dataset ℝ (n + 1) p b) (i : Fin (n + 1)) : Dataset ℝ n p b :=
  { y := fun k => d.y (i.succAbove k)
    x := fun k => d.x (i.succAbove k)
    linearOffset := d.linearOffset.map fun o k => o (i.succAbove k)
    weights := d.weights.map fun w k => w (i.succAbove k)
    freqs := d.freqs.map fun f k => f (i.succAbove k)
    standardizer := d.standardizer }

/-- The data set with all variance weights multiplied by `c`. -/
def scaleWeights (d : Dataset ℝ n p b) (c : ℝ) : Dataset ℝ n p b :=
  { d with weights := some fun i => c * varWt d i }

end Spec
end GLM
