/-
  Textbook description of the response families, written without reference to the model's
  family definitions: domains, canonical link, cumulant function, variance function.
  Only the *names* of the (family, link) pairs are shared with the model.
-/
import Verif.Model.Response
import Mathlib.Analysis.SpecialFunctions.Log.Deriv

namespace GLM
namespace Spec
open Set

/-- `Binomial<N>` is meaningful for `N > 0` only. -/
def ValidFamily : Family → Prop
  | .binomial N => 0 < N
  | _ => True

/-- Where the mean of the response lives. -/
def meanDom : Family → Set ℝ
  | .linear => univ
  | .logisticLogit | .logisticCloglog => Ioo 0 1
  | .binomial N => Ioo 0 N
  | .poisson | .exponentialNegRec | .exponentialLog | .gammaNegRec | .gammaLog
  | .invGaussNegRecSq | .invGaussLog => Ioi 0

/-- Where observations live (closed where the family has boundary atoms). -/
def yDom : Family → Set ℝ
  | .linear => univ
  | .logisticLogit | .logisticCloglog => Icc 0 1
  | .binomial N => Icc 0 N
  | .poisson => Ici 0
  | .exponentialNegRec | .exponentialLog | .gammaNegRec | .gammaLog
  | .invGaussNegRecSq | .invGaussLog => Ioi 0

/-- Linear predictors with an admissible mean. -/
def predDom : Family → Set ℝ
  | .exponentialNegRec | .gammaNegRec | .invGaussNegRecSq => Iio 0
  | _ => univ

/-- The natural parameter space of the exponential family. -/
def natDom : Family → Set ℝ
  | .linear | .logisticLogit | .logisticCloglog | .poisson | .binomial _ => univ
  | _ => Iio 0

/-- The canonical link `g₀`. -/
noncomputable def canonicalLink : Family → ℝ → ℝ
  | .linear => fun μ => μ
  | .logisticLogit | .logisticCloglog => fun μ => Real.log (μ / (1 - μ))
  | .binomial N => fun μ => Real.log (μ / (N - μ))
  | .poisson => Real.log
  | .exponentialNegRec | .exponentialLog | .gammaNegRec | .gammaLog => fun μ => -1 / μ
  | .invGaussNegRecSq | .invGaussLog => fun μ => -1 / (2 * μ ^ 2)

/-- The cumulant (log-partition) function `A`. -/
noncomputable def cumulant : Family → ℝ → ℝ
  | .linear => fun η => η ^ 2 / 2
  | .logisticLogit | .logisticCloglog => fun η => Real.log (1 + Real.exp η)
  | .binomial N => fun η => N * Real.log (1 + Real.exp η)
  | .poisson => Real.exp
  | .exponentialNegRec | .exponentialLog | .gammaNegRec | .gammaLog => fun η => -Real.log (-η)
  | .invGaussNegRecSq | .invGaussLog => fun η => -Real.sqrt (-2 * η)

/-- The variance function `V`. -/
noncomputable def varianceFn : Family → ℝ → ℝ
  | .linear => fun _ => 1
  | .logisticLogit | .logisticCloglog => fun μ => μ * (1 - μ)
  | .binomial N => fun μ => μ * (N - μ) / N
  | .poisson => fun μ => μ
  | .exponentialNegRec | .exponentialLog | .gammaNegRec | .gammaLog => fun μ => μ ^ 2
  | .invGaussNegRecSq | .invGaussLog => fun μ => μ ^ 3

/-- The link `g` of each pair. -/
noncomputable def linkFn : Family → ℝ → ℝ
  | .logisticCloglog => fun μ => Real.log (-Real.log (1 - μ))
  | .exponentialLog | .gammaLog | .invGaussLog => Real.log
  | f => canonicalLink f

/-- The mean as a function of the natural parameter (inverse of the canonical link). -/
noncomputable def meanOfNat : Family → ℝ → ℝ
  | .linear => fun η => η
  | .logisticLogit | .logisticCloglog => fun η => 1 / (1 + Real.exp (-η))
  | .binomial N => fun η => N / (1 + Real.exp (-η))
  | .poisson => Real.exp
  | .exponentialNegRec | .exponentialLog | .gammaNegRec | .gammaLog => fun η => -1 / η
  | .invGaussNegRecSq | .invGaussLog => fun η => 1 / Real.sqrt (-2 * η)

/-- Whether the link of the pair is the canonical one. -/
def IsCanonical : Family → Prop
  | .logisticCloglog | .exponentialLog | .gammaLog | .invGaussLog => False
  | _ => True

/-- Whether the family has a free dispersion parameter. -/
def freeDispersion : Family → Bool
  | .linear | .gammaNegRec | .gammaLog | .invGaussNegRecSq | .invGaussLog => true
  | _ => false

end Spec
end GLM
