/-
  What `get_distribution` and `resid_quantile` should do: which means are meaningful, and when the
  guards against underflow do not change the parameters.
-/
import Verif.Spec.Family
import Verif.Spec.Strict
import Verif.Spec.RealDists

namespace GLM
namespace Spec
open Set

/-- The constants are those of a floating-point format: positive and in order. -/
structure F64Consts.Sane (c : F64Consts ℝ) : Prop where
  minPositive : 0 < c.minPositive
  epsilon : 0 < c.epsilon
  max : c.minPositive ≤ c.max

/-- The mean and the dispersion are so far from underflow that no guard changes the parameters of
the distribution. -/
def InRange (c : F64Consts ℝ) (fam : Family) (μ φ : ℝ) : Prop :=
  match fam with
  | .linear => c.minPositive ≤ φ
  | .poisson | .exponentialNegRec | .exponentialLog => c.minPositive ≤ μ
  | .gammaNegRec | .gammaLog =>
    c.epsilon ≤ φ ∧ c.minPositive ≤ 1 / (φ * μ) ∧ 1 / (φ * μ) ≤ c.max
  | _ => True

/-- The numbers for which the family's distribution can be built; outside of it the constructor
panics. -/
def acceptDom : Family → Set ℝ
  | .logisticLogit | .logisticCloglog => Icc 0 1
  | .binomial N => Icc 0 N
  | _ => univ

/-- The families that build a distribution even from a mean that is not a number. -/
def toleratesNan : Family → Bool
  | .poisson | .exponentialNegRec | .exponentialLog => true
  | _ => false

end Spec

/-- The constants in the arithmetic with not-a-number. -/
def F64Consts.strict (c : F64Consts ℝ) : F64Consts NReal :=
  { minPositive := .val c.minPositive, epsilon := .val c.epsilon, max := .val c.max }

end GLM
