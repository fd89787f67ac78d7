/-
  The response families and their links (src/response/*.rs) and the family-level part of
  `trait Glm` (src/glm.rs:28-110).
-/
import Verif.Model.Link

namespace GLM

/-- `enum DispersionType`, src/glm.rs:21-24. -/
inductive DispersionType | free | none
deriving DecidableEq

/-- The family-specific items of `trait Glm` (src/glm.rs:28-110): the link, `DISPERSED`,
`log_partition`, `variance`, `log_like_natural`, `log_like_sat`. -/
structure Glm (F : Type) where
  link : Link F
  dispersed : DispersionType
  logPartition : F → F
  variance : F → F
  logLikeNatural : F → F → F
  logLikeSat : F → F

variable {F : Type} [Scalar F]
open Scalar

/-- Default `log_like_natural`, src/glm.rs:95-104. -/
def defaultLogLikeNatural (logPartition : F → F) (y nat : F) : F := y * nat - logPartition nat

/-! ### Linear, src/response/linear.rs -/

/-- `link::Id`, src/response/linear.rs:88-100. -/
def linkId : Link F := { Transform.canonical with func := fun y => y, funcInv := fun w => w }

/-- `log_partition` of `Linear`, src/response/linear.rs:63-66. -/
def linearLogPartition (nat : F) : F := half * nat * nat

/-- `impl Glm for Linear<L>`, src/response/linear.rs:54-80. -/
def linearGlm (l : Link F) : Glm F where
  link := l
  dispersed := .free
  logPartition := linearLogPartition
  variance _ := 1
  logLikeNatural := defaultLogLikeNatural linearLogPartition
  logLikeSat y := linearLogPartition y

/-! ### Logistic, src/response/logistic.rs -/

/-- `link::Logit`, src/response/logistic.rs:122-131. -/
def linkLogit : Link F := { Transform.canonical with
  func := fun y => ln (y / (1 - y))
  funcInv := fun w => recip (1 + exp (-w)) }

/-- `link::Cloglog`, src/response/logistic.rs:136-154. -/
def linkCloglog : Link F := {
  Transform.ofNatParam (fun x => ln (expm1 (exp x)))
    (fun x => (-(exp x)) / expm1 (-(exp x))) with
  func := fun y => ln (-(ln1p (-y)))
  funcInv := fun w => -(expm1 (-(exp w))) }

/-- `log_partition` of `Logistic`, src/response/logistic.rs:84-86. -/
def logisticLogPartition (nat : F) : F := ln1p (exp nat)

/-- The specialised `log_like_natural`, src/response/logistic.rs:95-105. -/
def logisticLogLikeNatural (y logitP : F) : F :=
  let (yt, xt) := if lt logitP 0 then (y, logitP) else (1 - y, -logitP)
  yt * xt - ln1p (exp xt)

/-- `impl Glm for Logistic<L>`, src/response/logistic.rs:75-112. -/
def logisticGlm (l : Link F) : Glm F where
  link := l
  dispersed := .none
  logPartition := logisticLogPartition
  variance mu := mu * (1 - mu)
  logLikeNatural := logisticLogLikeNatural
  logLikeSat y := prodLog y + prodLog (1 - y)

/-! ### Poisson, src/response/poisson.rs -/

/-- `link::Log` with the canonical transformation, src/response/poisson.rs:86-95. -/
def linkLogCanonical : Link F := { Transform.canonical with
  func := fun y => ln y
  funcInv := fun w => exp w }

/-- `impl Glm for Poisson<L>`, src/response/poisson.rs:52-75. -/
def poissonGlm (l : Link F) : Glm F where
  link := l
  dispersed := .none
  logPartition nat := exp nat
  variance mu := mu
  logLikeNatural := defaultLogLikeNatural (fun nat => exp nat)
  logLikeSat y := prodLog y - y

/-! ### Binomial, src/response/binomial.rs -/

/-- `link::Logit` for `Binomial<N>`, src/response/binomial.rs:68-79. -/
def linkBinLogit (N : ℕ) : Link F := { Transform.canonical with
  func := fun y => ln (y / (ofNat N - y))
  funcInv := fun w => ofNat N / (1 + exp (-w)) }

/-- `log_partition` of `Binomial<N>`, src/response/binomial.rs:47-50. -/
def binomialLogPartition (N : ℕ) (nat : F) : F := ofNat N * ln1p (exp nat)

/-- `impl Glm for Binomial<N>`, src/response/binomial.rs:40-61. -/
def binomialGlm (N : ℕ) : Glm F where
  link := linkBinLogit N
  dispersed := .none
  logPartition := binomialLogPartition N
  variance mu := mu * (ofNat N - mu) / ofNat N
  logLikeNatural := defaultLogLikeNatural (binomialLogPartition N)
  logLikeSat y := prodLog y + prodLog (ofNat N - y) - prodLog (ofNat N)

/-! ### Exponential and Gamma, src/response/{exponential,gamma}.rs -/

/-- `link::NegRec`, src/response/exponential.rs:108-117 and src/response/gamma.rs:108-117. -/
def linkNegRec : Link F := { Transform.canonical with
  func := fun y => -(recip y)
  funcInv := fun w => -(recip w) }

/-- `link::Log` of the exponential and gamma families, src/response/exponential.rs:121-137 and
src/response/gamma.rs:121-137. -/
def linkExpLog : Link F := {
  Transform.ofNatParam (fun x => -(exp (-x))) (fun x => exp (-x)) with
  func := fun y => ln y
  funcInv := fun w => exp w }

/-- `log_partition`, src/response/exponential.rs:83-85, src/response/gamma.rs:83-85. -/
def gammaLogPartition (nat : F) : F := -(ln (-nat))

/-- `impl Glm for Exponential<L>`, src/response/exponential.rs:70-98. -/
def exponentialGlm (l : Link F) : Glm F where
  link := l
  dispersed := .none
  logPartition := gammaLogPartition
  variance mu := mu * mu
  logLikeNatural := defaultLogLikeNatural gammaLogPartition
  logLikeSat y := -(1 + ln y)

/-- `impl Glm for Gamma<L>`, src/response/gamma.rs:70-98. -/
def gammaGlm (l : Link F) : Glm F where
  link := l
  dispersed := .free
  logPartition := gammaLogPartition
  variance mu := mu * mu
  logLikeNatural := defaultLogLikeNatural gammaLogPartition
  logLikeSat y := -(1 + ln y)

/-! ### Inverse Gaussian, src/response/inverse_gaussian.rs -/

/-- `link::NegRecSq`, src/response/inverse_gaussian.rs:87-96. -/
def linkNegRecSq : Link F := { Transform.canonical with
  func := fun y => -(recip (two * y * y))
  funcInv := fun w => recip (sqrt (-two * w)) }

/-- `link::Log` of the inverse Gaussian family, src/response/inverse_gaussian.rs:100-118. -/
def linkInvGaussLog : Link F := {
  Transform.ofNatParam (fun x => -half * exp (-two * x)) (fun x => exp (-two * x)) with
  func := fun y => ln y
  funcInv := fun w => exp w }

/-- `log_partition`, src/response/inverse_gaussian.rs:62-64. -/
def invGaussLogPartition (nat : F) : F := -(sqrt (-two * nat))

/-- `impl Glm for InvGaussian<L>`, src/response/inverse_gaussian.rs:49-77. -/
def invGaussGlm (l : Link F) : Glm F where
  link := l
  dispersed := .free
  logPartition := invGaussLogPartition
  variance mu := mu * mu * mu
  logLikeNatural := defaultLogLikeNatural invGaussLogPartition
  logLikeSat y := half * recip y

/-! ### The family/link pairs the crate provides -/

/-- Every (family, link) combination that type-checks with the links shipped by the crate:
`Linear<Id>`, `Logistic<Logit>`, `Logistic<Cloglog>`, `Poisson<Log>`, `Binomial<N>`,
`Exponential<NegRec>`, `Exponential<Log>`, `Gamma<NegRec>`, `Gamma<Log>`,
`InvGaussian<NegRecSq>`, `InvGaussian<Log>` (the `impl Link<..> for ..` blocks of
src/response/*.rs). -/
inductive Family
  | linear
  | logisticLogit
  | logisticCloglog
  | poisson
  | binomial (N : ℕ)
  | exponentialNegRec
  | exponentialLog
  | gammaNegRec
  | gammaLog
  | invGaussNegRecSq
  | invGaussLog
deriving DecidableEq

/-- The `Glm` implementation selected by each pair (see the cited `impl` blocks above). -/
def Family.glm : Family → Glm F
  | .linear => linearGlm linkId
  | .logisticLogit => logisticGlm linkLogit
  | .logisticCloglog => logisticGlm linkCloglog
  | .poisson => poissonGlm linkLogCanonical
  | .binomial N => binomialGlm N
  | .exponentialNegRec => exponentialGlm linkNegRec
  | .exponentialLog => exponentialGlm linkExpLog
  | .gammaNegRec => gammaGlm linkNegRec
  | .gammaLog => gammaGlm linkExpLog
  | .invGaussNegRecSq => invGaussGlm linkNegRecSq
  | .invGaussLog => invGaussGlm linkInvGaussLog

end GLM
