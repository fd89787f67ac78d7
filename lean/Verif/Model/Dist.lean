/-
  `Response::get_distribution` (src/response.rs:25-32 and the `impl Response` blocks).
-/
import Verif.Model.Response

namespace GLM
open Scalar

section
variable {F : Type} [Scalar F]

/-- `f64::MIN_POSITIVE`, `f64::EPSILON` and `f64::MAX`. -/
structure F64Consts (F : Type) where
  minPositive : F
  epsilon : F
  max : F

/-- `f64::max`: a NaN argument is ignored. -/
def fmax (a b : F) : F := if lt a b then b else if eq a a then a else b

/-- `f64::clamp`: a NaN stays a NaN. -/
def fclamp (x lo hi : F) : F := if lt x lo then lo else if lt hi x then hi else x

/-- The arguments of a `statrs` constructor. -/
inductive Distribution (F : Type)
  | normal (mean sd : F)
  | exponential (rate : F)
  | gamma (shape rate : F)
  | poisson (rate : F)
  | bernoulli (p : F)
  | binomial (p : F) (n : ℕ)

/-- When the constructor of `statrs` returns `Ok`.  Taken from the documentation of `statrs`; that
`Gamma::new` also rejects two infinite parameters is not modelled. -/
def Distribution.accepted : Distribution F → Bool
  | .normal m s => eq m m && lt 0 s
  | .exponential r => lt 0 r
  | .gamma a r => lt 0 a && lt 0 r
  | .poisson r => lt 0 r
  | .bernoulli p => le 0 p && le p 1
  | .binomial p _ => le 0 p && le p 1

/-- The arguments `get_distribution(mu, phi)` passes to the constructor:
src/response/linear.rs:43-51, logistic.rs:69-71, poisson.rs:45-49, binomial.rs:32-37,
exponential.rs:58-66, gamma.rs:57-66.  The inverse Gaussian families do not implement `Response`
(src/response/inverse_gaussian.rs:45-46). -/
def Family.distributionArgs (c : F64Consts F) : Family → Option (F → F → Distribution F)
  | .linear => some fun mu phi => .normal mu (sqrt (fmax phi c.minPositive))
  | .logisticLogit | .logisticCloglog => some fun mu _ => .bernoulli mu
  | .poisson => some fun mu _ => .poisson (fmax mu c.minPositive)
  | .binomial N => some fun mu _ => .binomial (mu / ofNat N) N
  | .exponentialNegRec | .exponentialLog =>
    some fun mu _ => .exponential (recip (fmax mu c.minPositive))
  | .gammaNegRec | .gammaLog => some fun mu phi =>
    let alpha := 1 / fmax phi c.epsilon
    let beta := alpha / mu
    let beta := fclamp beta c.minPositive c.max
    .gamma alpha beta
  | .invGaussNegRecSq | .invGaussLog => none

/-- The families with a continuous response, for which `resid_quantile` is available
(src/fit.rs:1178-1180). -/
def Family.continuousResponse : Family → Bool
  | .linear | .exponentialNegRec | .exponentialLog | .gammaNegRec | .gammaLog => true
  | _ => false

/-- `new(..)` as a `Result`; the crate calls `unwrap` on it. -/
def Distribution.new (D : Distribution F) : Option (Distribution F) :=
  if D.accepted then some D else none

end

end GLM
