/-
  `Fit` and its statistics, src/fit.rs.  The functions here compute the values; the `OnceCell`
  caches in front of some of them are modelled in `Verif.Model.Cache`.
-/
import Verif.Model.Irls

namespace GLM
open Scalar

/-- `struct Fit`, src/fit.rs:27-79, without the caches.  `n_par` is `ncols b p`
(`result_std.len()`, src/fit.rs:512). -/
structure Fit (F : Type) (n p : ℕ) (b : Bool) where
  g : Glm F
  data : Dataset F n p b
  result : Vec F (ncols b p)
  resultStd : Vec F (ncols b p)
  xLinPred : Vec F n
  yHat : Vec F n
  options : FitOptions F (ncols b p)
  modelLike : F
  reg : Reg F (ncols b p)
  nIter : ℕ
  history : List (IrlsStep F (ncols b p))

section
variable {F : Type} [Scalar F] {n p : ℕ} {b : Bool}

/-- `Fit::new`, src/fit.rs:499-551. -/
def Fit.new (g : Glm F) (data : Dataset F n p b) (options : FitOptions F (ncols b p))
    (optimum : IrlsStep F (ncols b p)) (irls : Irls F (ncols b p)) : Fit F n p b :=
  let xLinPred := data.linearPredictorStd optimum.guess
  { g := g
    data := data
    result := data.inverseTransformBeta optimum.guess
    resultStd := optimum.guess
    xLinPred := xLinPred
    yHat := g.mean xLinPred
    options := options
    modelLike := optimum.like
    reg := irls.reg
    nIter := irls.nIter
    history := irls.history.map fun st =>
      { guess := data.inverseTransformBeta st.guess, like := st.like } }

/-- `Glm::regression`, src/glm.rs:159-185 (also `FitConfig::fit`, src/fit/options.rs:20-22). -/
def regression (env : Env F) (g : Glm F) (data : Dataset F n p b)
    (options : FitOptions F (ncols b p)) : Outcome (FitError F (ncols b p)) (Fit F n p b) :=
  (regressionCore env g data options).map fun r => Fit.new g data options r.1 r.2

/-- `FitOptions::default`, src/fit/options.rs:78-93. -/
def FitOptions.default (env : Env F) {k : ℕ} : FitOptions F k :=
  { maxIter := 128, tol := env.eps, l2 := 0, l1 := 0, initGuess := none }

namespace Fit

/-- `rank`, src/fit.rs:684-686. -/
def rank (_f : Fit F n p b) : F := ofNat (ncols b p)

/-- `deviance_terms`, src/fit.rs:194-201. -/
def devianceTerms (f : Fit F n p b) : Vec F n :=
  let llTerms := f.g.logLikeTerms f.data f.resultStd
  let llSat : Vec F n := fun i => f.g.logLikeSat (f.data.y i)
  f.data.applyVarWeights fun i => (llSat i - llTerms i) * two

/-- `deviance`, src/fit.rs:186-189. -/
def deviance (f : Fit F n p b) : F := f.data.freqSum f.devianceTerms

/-- The weight term common to `aic` and `bic`, src/fit.rs:96-97 and :117-118. -/
def sumLogWeights (f : Fit F n p b) : F :=
  f.data.freqSum fun i => ln (f.data.getVarianceWeights i)

/-- `aic`, src/fit.rs:95-100. -/
def aic (f : Fit F n p b) : F := f.deviance + two * f.rank - two * f.sumLogWeights

/-- `bic`, src/fit.rs:116-121. -/
def bic (f : Fit F n p b) : F :=
  ln f.data.nObs * f.rank - two * f.modelLike - two * f.sumLogWeights

/-- `dispersion`, src/fit.rs:224-245. -/
def dispersion (f : Fit F n p b) : F :=
  match f.g.dispersed with
  | .free =>
    let dev := f.deviance
    let q := f.rank
    let nEff := f.data.nEff
    let scaling := if le nEff q then 0 else (1 - q / nEff) * f.data.sumWeights
    dev / scaling
  | .none => 1

/-- `ndf`, src/fit.rs:495-497. -/
def ndf (f : Fit F n p b) : F := f.data.nObs - f.rank

/-- `test_ndf`, src/fit.rs:903-909. -/
def testNdf (_f : Fit F n p b) : ℕ := if b then ncols b p - 1 else ncols b p

/-- `fisher_data_std`, src/fit.rs:323-327. -/
def fisherDataStd (f : Fit F n p b) (params : Vec F (ncols b p)) : Mat F (ncols b p) (ncols b p) :=
  let linPred := f.data.linearPredictorStd params
  let adjVar := f.g.adjustedVarianceDiag linPred
  Mat.dotM (fun j i => f.data.xConj j i * adjVar i) f.data.x

/-- `fisher_std`, src/fit.rs:331-334. -/
def fisherStd (f : Fit F n p b) (params : Vec F (ncols b p)) : Mat F (ncols b p) (ncols b p) :=
  f.reg.irlsMat (f.fisherDataStd params) params

/-- `fisher`, src/fit.rs:296-303. -/
def fisher (f : Fit F n p b) (params : Vec F (ncols b p)) : Mat F (ncols b p) (ncols b p) :=
  f.data.inverseTransformFisher (f.fisherStd (f.data.transformBeta params))

/-- `fisher_inv`, src/fit.rs:308-320. -/
def fisherInv (env : Env F) (f : Fit F n p b) :
    Except LinalgError (Mat F (ncols b p) (ncols b p)) := env.inv (f.fisher f.result)

/-- `fisher_std_inv`, src/fit.rs:338-345. -/
def fisherStdInv (env : Env F) (f : Fit F n p b) :
    Except LinalgError (Mat F (ncols b p) (ncols b p)) := env.inv (f.fisherStd f.resultStd)

/-- `covariance`, src/fit.rs:160-176. -/
def covariance (env : Env F) (f : Fit F n p b) :
    Except LinalgError (Mat F (ncols b p) (ncols b p)) := do
  let phi := f.dispersion
  let fRegInv ← f.fisherInv env
  let fData := f.data.inverseTransformFisher (f.fisherDataStd f.resultStd)
  return fun i j => ((fRegInv.dotM fData).dotM fRegInv) i j * phi

/-- `hat`, src/fit.rs:356-376. -/
def hat (env : Env F) (f : Fit F n p b) : Except LinalgError (Mat F n n) := do
  let var : Vec F n := fun i => f.g.variance (f.yHat i)
  let etaD : Vec F n := fun i => f.g.link.dNatParam (f.xLinPred i)
  let fisherInv ← f.fisherStdInv env
  let left : Mat F n (ncols b p) := fun i j => var i * etaD i * f.data.x i j
  let right : Mat F (ncols b p) n := fun j i => f.data.xConj j i * etaD i
  return left.dotM (fisherInv.dotM right)

/-- `leverage`, src/fit.rs:401-404. -/
def leverage (env : Env F) (f : Fit F n p b) : Except LinalgError (Vec F n) := do
  let hat ← f.hat env
  return hat.diag

/-- `resid_resp`, src/fit.rs:807-809. -/
def residResp (f : Fit F n p b) : Vec F n := vsub f.data.y f.yHat

/-- `resid_pear`, src/fit.rs:772-787. -/
def residPear (f : Fit F n p b) : Vec F n :=
  let invVarDiag : Vec F n := fun i => recip (f.g.variance (f.yHat i))
  let scales := f.data.applyVarWeights invVarDiag
  fun i => sqrt (scales i) * f.residResp i

/-- `cooks`, src/fit.rs:132-141. -/
def cooks (env : Env F) (f : Fit F n p b) : Except LinalgError (Vec F n) := do
  let hat ← f.leverage env
  let pearSq : Vec F n := fun i => f.residPear i * f.residPear i
  let hTerms : Vec F n := fun i => let omh := 1 - hat i; hat i / (omh * omh)
  let denom := f.rank * f.dispersion
  return fun i => pearSq i * hTerms i / denom

/-- `deviance_terms_loo`, src/fit.rs:205-211. -/
def devianceTermsLoo (env : Env F) (f : Fit F n p b) : Except LinalgError (Vec F n) := do
  let pearSq : Vec F n := fun i => f.residPear i * f.residPear i
  let lev ← f.leverage env
  let hatRat : Vec F n := fun i => lev i / (1 - lev i)
  return fun i => f.devianceTerms i + hatRat i * (hatRat i + two) * pearSq i

/-- `dispersion_loo`, src/fit.rs:248-283. -/
def dispersionLoo (env : Env F) (f : Fit F n p b) : Except LinalgError (Vec F n) :=
  match f.g.dispersed with
  | .free => do
    let pearSq : Vec F n := fun i => f.residPear i * f.residPear i
    let lev ← f.leverage env
    let hatRat : Vec F n := fun i => lev i / (1 - lev i)
    let terms : Vec F n := fun i => f.devianceTerms i + hatRat i * pearSq i
    let terms := f.data.applyFreqWeights terms
    let total : Vec F n := fun i => -(terms i) + f.deviance
    match f.data.weights with
    | none => match f.data.freqs with
      | some fr => return fun i => total i / -(fr i - f.ndf)
      | none => return fun i => total i / (f.ndf - 1)
    | some w =>
      let v1 := f.data.freqSum w
      let w2 := vmul w w
      let v2 := f.data.freqSum w2
      let fw := f.data.applyFreqWeights w
      let fw2 := f.data.applyFreqWeights w2
      let v1p : Vec F n := fun i => -(fw i) + v1
      let v2p : Vec F n := fun i => -(fw2 i) + v2
      let q := f.rank
      return fun i => total i / (v1p i - v2p i / v1p i * q)
  | .none => return vfill 1

/-- `infl_coef`, src/fit.rs:387-397. -/
def inflCoef (env : Env F) (f : Fit F n p b) : Except LinalgError (Mat F n (ncols b p)) := do
  let lev ← f.leverage env
  let residAdj : Vec F n := fun i =>
    f.g.link.adjustErrors (f.residResp i) (f.xLinPred i) / (-(lev i) + 1)
  let xte : Mat F (ncols b p) n := fun j i => f.data.xConjExt j i * residAdj i
  let fisherInv ← f.fisherInv env
  return xte.tr.dotM fisherInv

/-- `predict`, src/fit.rs:665-681. -/
def predict (f : Fit F n p b) {m : ℕ} (dataX : Mat F m p) (linOff : Option (Vec F m)) : Vec F m :=
  let linPred := Mat.dotV (Dataset.padded b dataX) f.result
  let linPred := match linOff with
    | some off => vadd linPred off
    | none => linPred
  f.g.mean linPred

/-- `resid_dev`, src/fit.rs:696-701. -/
def residDev (f : Fit F n p b) : Vec F n :=
  fun i => signum (f.residResp i) * sqrt (f.devianceTerms i)

/-- `resid_dev_std`, src/fit.rs:711-718. -/
def residDevStd (env : Env F) (f : Fit F n p b) : Except LinalgError (Vec F n) := do
  let phi := f.dispersion
  let hat ← f.leverage env
  return fun i => f.residDev i / sqrt ((-(hat i) + 1) * phi)

/-- `resid_pear_std`, src/fit.rs:797-804. -/
def residPearStd (env : Env F) (f : Fit F n p b) : Except LinalgError (Vec F n) := do
  let phi := f.dispersion
  let hat ← f.leverage env
  return fun i => f.residPear i / sqrt ((-(hat i) + 1) * phi)

/-- `resid_student`, src/fit.rs:821-832. -/
def residStudent (env : Env F) (f : Fit F n p b) : Except LinalgError (Vec F n) := do
  let devTermsLoo ← f.devianceTermsLoo env
  let scaled : Vec F n ← match f.g.dispersed with
    | .free => do
      let phiLoo ← f.dispersionLoo env
      pure (vdiv devTermsLoo phiLoo)
    | .none => pure devTermsLoo
  return fun i => signum (f.residResp i) * sqrt (scaled i)

/-- `resid_work`, src/fit.rs:846-853. -/
def residWork (f : Fit F n p b) : Vec F n := fun i =>
  let adj := f.g.link.adjustErrorsVariance (f.residResp i) (f.g.variance (f.yHat i)) (f.xLinPred i)
  adj.1 / adj.2

/-- The external coefficients of the features, without the intercept, src/fit.rs:740-744. -/
def featureCoef : {b : Bool} → Fit F n p b → Vec F p
  | true, f => fun j => f.result (Fin.succ j : Fin (p + 1))
  | false, f => f.result

/-- `resid_part`, src/fit.rs:733-762. -/
def residPart (f : Fit F n p b) : Mat F n p :=
  let xOrig := f.data.xOrig
  let betaJ := f.featureCoef
  let xCentered : Mat F n p :=
    if b then
      let wt := f.data.applyTotalWeights (vfill 1)
      let xMean : Vec F p := fun j => (vsum fun i => xOrig i j * wt i) / vsum wt
      fun i j => xOrig i j - xMean j
    else xOrig
  fun i j => f.residWork i + xCentered i j * betaJ j

/-- `score`, src/fit.rs:858-870. -/
def score (f : Fit F n p b) (params : Vec F (ncols b p)) : Vec F (ncols b p) :=
  let paramsStd := f.data.transformBeta params
  let linPred := f.data.linearPredictorStd paramsStd
  let mu := f.g.mean linPred
  let residResponse := vsub f.data.y mu
  let residWorking : Vec F n := fun i => f.g.link.adjustErrors (residResponse i) (linPred i)
  let scoreInt := f.data.xConj.dotV residWorking
  f.data.inverseTransformScore (f.reg.gradient scoreInt paramsStd)

/-- `lr_test_against`, src/fit.rs:484-489. -/
def lrTestAgainst (f : Fit F n p b) (alternative : Vec F (ncols b p)) : F :=
  let altStd := f.data.transformBeta alternative
  let altLike := f.g.logLike f.data altStd
  let altLikeReg := altLike + f.reg.likelihood altStd
  two * (f.modelLike - altLikeReg)

/-- `score_test_against`, src/fit.rs:890-898. -/
def scoreTestAgainst (env : Env F) (f : Fit F n p b) (alternative : Vec F (ncols b p)) :
    Except LinalgError F := do
  let fisherAlt := f.fisher alternative
  let scoreAlt := f.score alternative
  let invFisherAlt ← env.inv fisherAlt
  return vdot scoreAlt (invFisherAlt.dotV scoreAlt)

/-- `wald_test_against`, src/fit.rs:931-940. -/
def waldTestAgainst (f : Fit F n p b) (alternative : Vec F (ncols b p)) : F :=
  let altStd := f.data.transformBeta alternative
  let dParamsStd := vsub f.resultStd altStd
  let fisherStd := f.fisherStd altStd
  vdot dParamsStd (fisherStd.dotV dParamsStd)

/-- `wald_z`, src/fit.rs:949-953. -/
def waldZ (env : Env F) (f : Fit F n p b) : Except LinalgError (Vec F (ncols b p)) := do
  let parCov ← f.covariance env
  return fun j => f.result j / sqrt (parCov j j)

/-- The intercept of the null model without offset, src/fit.rs:573, :583-587. -/
def nullIntercept (f : Fit F n p b) : F :=
  let yBar := f.data.weightedSum f.data.y / f.data.sumWeights
  if b then f.g.link.func yBar else 0

/-- The intercept-only dataset fitted when there is an offset, src/fit.rs:610-624. -/
def nullDataset (f : Fit F n p b) (off : Vec F n) : Dataset F n 0 true :=
  { y := f.data.y
    x := fun _ _ => 1
    linearOffset := some off
    weights := f.data.weights
    freqs := f.data.freqs
    standardizer := none }

/-- `Array1::zeros(n_par)` with element `0` replaced, src/fit.rs:595-599 and :637-643; the
indexing panics on an empty array. -/
def firstParam {k : ℕ} (v : F) : Outcome Empty (Vec F k) :=
  match k with
  | 0 => .panic
  | _ + 1 => .ok (Fin.cons v vzeros)

/-- `null_model_fit`, src/fit.rs:564-660.  A failed fit of the null model is a panic
(`expect`, line 636). -/
def nullModelFit (env : Env F) (f : Fit F n p b) : Outcome Empty (F × Vec F (ncols b p)) :=
  match f.data.linearOffset with
  | none =>
    let yBar := f.data.weightedSum f.data.y / f.data.sumWeights
    let intercept := f.nullIntercept
    let natPar := f.g.link.natParam intercept
    let nullLikeOne := f.g.logLikeNatural yBar natPar
    let nullLikeTotal := f.data.sumWeights * nullLikeOne
    (firstParam intercept).map fun par => (nullLikeTotal, par)
  | some off =>
    if b then
      match regression env f.g (f.nullDataset off)
          { FitOptions.default env with maxIter := f.options.maxIter } with
      | .ok nullFit =>
        (firstParam (nullFit.resultStd (0 : Fin 1))).map fun par => (nullFit.modelLike, par)
      | .err _ => .panic
      | .panic => .panic
      | .diverge => .diverge
    else
      let terms : Vec F n := fun i =>
        f.g.logLikeNatural (f.data.y i) (f.g.link.natParam (off i))
      .ok (f.data.weightedSum terms, vzeros)

/-- `null_like`, src/fit.rs:556-559. -/
def nullLike (env : Env F) (f : Fit F n p b) : Outcome Empty F := (f.nullModelFit env).map Prod.fst

/-- `lr_test`, src/fit.rs:472-478. -/
def lrTest (env : Env F) (f : Fit F n p b) : Outcome Empty F :=
  (f.nullLike env).map fun nl => -two * (nl - f.modelLike)

/-- `wald_test`, src/fit.rs:919-926. -/
def waldTest (env : Env F) (f : Fit F n p b) : Outcome Empty F :=
  (f.nullModelFit env).map fun nm => f.waldTestAgainst nm.2

/-- `score_test`, src/fit.rs:881-885. -/
def scoreTest (env : Env F) (f : Fit F n p b) : Outcome LinalgError F :=
  match f.nullModelFit env with
  | .ok nm => match f.scoreTestAgainst env nm.2 with
    | .ok v => .ok v
    | .error e => .err e
  | .err e => e.elim
  | .panic => .panic
  | .diverge => .diverge

/-- `r_sq`, src/fit.rs:973-976. -/
def rSq (env : Env F) (f : Fit F n p b) : Outcome Empty F :=
  (f.lrTest env).map fun lr => lr / (lr + f.deviance)

/-- `rss`, src/fit.rs:983-986. -/
def rss (f : Fit F n p b) : F :=
  vsum (f.data.applyTotalWeights fun i => f.residResp i * f.residResp i)

end Fit
end

end GLM
