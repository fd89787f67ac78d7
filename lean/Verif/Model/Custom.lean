/-
  Families with a link supplied by the user: `impl<L: Link<..>> Glm for Family<L>`
  (src/response/*.rs) is generic in the link, and tests/custom_link.rs uses it with links that the
  crate does not ship.
-/
import Verif.Model.Response

namespace GLM
variable {F : Type} [Scalar F]
open Scalar

/-- The response types that take a link as type parameter: `Linear<L>` (src/response/linear.rs:18),
`Logistic<L>` (src/response/logistic.rs:20), `Poisson<L>` (src/response/poisson.rs:19),
`Exponential<L>` (src/response/exponential.rs:18), `Gamma<L>` (src/response/gamma.rs:19),
`InvGaussian<L>` (src/response/inverse_gaussian.rs:14). -/
inductive Resp | linear | logistic | poisson | exponential | gamma | invGauss
deriving DecidableEq

/-- The generic `impl<L> Glm for ..<L>` blocks: src/response/linear.rs:54-80,
src/response/logistic.rs:75-112, src/response/poisson.rs:52-75,
src/response/exponential.rs:70-98, src/response/gamma.rs:70-98,
src/response/inverse_gaussian.rs:49-77. -/
def Resp.glm (l : Link F) : Resp → Glm F
  | .linear => linearGlm l
  | .logistic => logisticGlm l
  | .poisson => poissonGlm l
  | .exponential => exponentialGlm l
  | .gamma => gammaGlm l
  | .invGauss => invGaussGlm l

/-- A user's `impl Link`/`impl Transform` that gives `func`, `func_inv`, `nat_param`, `d_nat_param`
and keeps the provided methods of `Transform` (src/link.rs:107-165), as both links of
tests/custom_link.rs do. -/
def Link.custom (func funcInv nat dnat : F → F) : Link F :=
  { Transform.ofNatParam nat dnat with func := func, funcInv := funcInv }

/-- The link `LinTran` of tests/custom_link.rs:16-40, with arbitrary slope `a` and intercept `c` in
place of 2.5 and -3.4. -/
def linkAffine (a c : F) : Link F :=
  Link.custom (fun y => a * y + c) (fun w => (w - c) * recip a) (fun w => (w - c) * recip a)
    (fun _ => recip a)

end GLM
