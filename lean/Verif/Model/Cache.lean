/-
  The `OnceCell` caches of `Fit` (src/fit.rs:57-78) and the accessors of `Fit` written with them, in
  the order in which the Rust code reads and fills the cells.
-/
import Verif.Model.Refit

namespace GLM
open Scalar

/-- The cells of `struct Fit`, src/fit.rs:57-78. -/
inductive Cell
  | phi
  | devTerms
  | residPear
  | covariance
  | fisherInv
  | fisherStdInv
  | hat
  | nullModel
deriving DecidableEq

/-- What a cell holds. -/
@[reducible] def Cell.type (F : Type) (n k : ℕ) : Cell → Type
  | .phi => F
  | .devTerms => Vec F n
  | .residPear => Vec F n
  | .covariance => Mat F k k
  | .fisherInv => Mat F k k
  | .fisherStdInv => Mat F k k
  | .hat => Mat F n n
  | .nullModel => F × Vec F k

/-- The contents of all cells. -/
abbrev Cache (F : Type) (n k : ℕ) := (c : Cell) → Option (c.type F n k)

/-- The cells of a new fit, src/fit.rs:542-549. -/
def Cache.empty {F : Type} {n k : ℕ} : Cache F n k := fun _ => none

/-- The errors of `RegressionError` (src/error.rs:8-25) an accessor can return. -/
inductive AccessError (F : Type)
  | linalg
  | maxIter (k nIter : ℕ) (history : List (IrlsStep F k))

/-- The error of a fit as an error of an accessor. -/
def AccessError.ofFit {F : Type} {k : ℕ} : FitError F k → AccessError F
  | .linalg => .linalg
  | .maxIter m h => .maxIter k m h

/-- A computation that can read and fill the cells.  The cells keep what was stored before a
failure. -/
def CacheM (F : Type) (n k : ℕ) (α : Type) :=
  Cache F n k → Outcome (AccessError F) α × Cache F n k

namespace CacheM
variable {F : Type} {n k : ℕ} {α β : Type}

/-- Sequencing; a failure ends the computation. -/
instance : Monad (CacheM F n k) where
  pure a := fun c => (.ok a, c)
  bind m f := fun c => match m c with
    | (.ok a, c') => f a c'
    | (.err e, c') => (.err e, c')
    | (.panic, c') => (.panic, c')
    | (.diverge, c') => (.diverge, c')

/-- A computation that does not use the cells. -/
def lift (o : Outcome (AccessError F) α) : CacheM F n k α := fun c => (o, c)

/-- `?` on a linear algebra error. -/
def try? (r : Except LinalgError α) : CacheM F n k α :=
  lift ((Outcome.ofExcept r).mapErr fun _ => .linalg)

/-- `OnceCell::get_or_init` and `get_or_try_init` of the `once_cell` crate: return the stored value;
otherwise compute it, and panic if the computation itself filled the cell; errors are not stored. -/
def getOrInit (cell : Cell) (init : CacheM F n k (cell.type F n k)) :
    CacheM F n k (cell.type F n k) := fun c =>
  match c cell with
  | some v => (.ok v, c)
  | none => match init c with
    | (.ok v, c') => match c' cell with
      | none => (.ok v, Function.update c' cell (some v))
      | some _ => (.panic, c')
    | (.err e, c') => (.err e, c')
    | (.panic, c') => (.panic, c')
    | (.diverge, c') => (.diverge, c')

end CacheM

section
variable {F : Type} [Scalar F] {n p : ℕ} {b : Bool}

namespace Fit
namespace Cached
open CacheM

/-- `deviance_terms`, src/fit.rs:194-201. -/
def devianceTerms (f : Fit F n p b) : CacheM F n (ncols b p) (Vec F n) :=
  getOrInit .devTerms (do
    let llTerms := f.g.logLikeTerms f.data f.resultStd
    let llSat : Vec F n := fun i => f.g.logLikeSat (f.data.y i)
    return f.data.applyVarWeights fun i => (llSat i - llTerms i) * two)

/-- `deviance`, src/fit.rs:186-189. -/
def deviance (f : Fit F n p b) : CacheM F n (ncols b p) F := do
  let terms ← devianceTerms f
  return f.data.freqSum terms

/-- `aic`, src/fit.rs:95-100. -/
def aic (f : Fit F n p b) : CacheM F n (ncols b p) F := do
  let sumLogWeights := f.sumLogWeights
  let dev ← deviance f
  return dev + two * f.rank - two * sumLogWeights

/-- `dispersion`, src/fit.rs:224-245. -/
def dispersion (f : Fit F n p b) : CacheM F n (ncols b p) F :=
  getOrInit .phi (match f.g.dispersed with
    | .free => do
      let dev ← deviance f
      let q := f.rank
      let nEff := f.data.nEff
      let scaling := if le nEff q then 0 else (1 - q / nEff) * f.data.sumWeights
      return dev / scaling
    | .none => return 1)

/-- `fisher_inv`, src/fit.rs:308-320. -/
def fisherInv (env : Env F) (f : Fit F n p b) :
    CacheM F n (ncols b p) (Mat F (ncols b p) (ncols b p)) :=
  getOrInit .fisherInv (try? (env.inv (f.fisher f.result)))

/-- `fisher_std_inv`, src/fit.rs:338-345. -/
def fisherStdInv (env : Env F) (f : Fit F n p b) :
    CacheM F n (ncols b p) (Mat F (ncols b p) (ncols b p)) :=
  getOrInit .fisherStdInv (try? (env.inv (f.fisherStd f.resultStd)))

/-- `covariance`, src/fit.rs:160-176. -/
def covariance (env : Env F) (f : Fit F n p b) :
    CacheM F n (ncols b p) (Mat F (ncols b p) (ncols b p)) :=
  getOrInit .covariance (do
    let phi ← dispersion f
    let fRegInv ← fisherInv env f
    let fData := f.data.inverseTransformFisher (f.fisherDataStd f.resultStd)
    return fun i j => ((fRegInv.dotM fData).dotM fRegInv) i j * phi)

/-- `hat`, src/fit.rs:356-376. -/
def hat (env : Env F) (f : Fit F n p b) : CacheM F n (ncols b p) (Mat F n n) :=
  getOrInit .hat (do
    let var : Vec F n := fun i => f.g.variance (f.yHat i)
    let etaD : Vec F n := fun i => f.g.link.dNatParam (f.xLinPred i)
    let fisherInv ← fisherStdInv env f
    let left : Mat F n (ncols b p) := fun i j => var i * etaD i * f.data.x i j
    let right : Mat F (ncols b p) n := fun j i => f.data.xConj j i * etaD i
    return left.dotM (fisherInv.dotM right))

/-- `leverage`, src/fit.rs:401-404. -/
def leverage (env : Env F) (f : Fit F n p b) : CacheM F n (ncols b p) (Vec F n) := do
  let hat ← hat env f
  return hat.diag

/-- `resid_pear`, src/fit.rs:772-787. -/
def residPear (f : Fit F n p b) : CacheM F n (ncols b p) (Vec F n) :=
  getOrInit .residPear (do
    let residuals := f.residResp
    let invVarDiag : Vec F n := fun i => recip (f.g.variance (f.yHat i))
    let scales := f.data.applyVarWeights invVarDiag
    return fun i => sqrt (scales i) * residuals i)

/-- `cooks`, src/fit.rs:132-141. -/
def cooks (env : Env F) (f : Fit F n p b) : CacheM F n (ncols b p) (Vec F n) := do
  let hat ← leverage env f
  let pear ← residPear f
  let pearSq : Vec F n := fun i => pear i * pear i
  let hTerms : Vec F n := fun i => let omh := 1 - hat i; hat i / (omh * omh)
  let phi ← dispersion f
  let denom := f.rank * phi
  return fun i => pearSq i * hTerms i / denom

/-- `deviance_terms_loo`, src/fit.rs:205-211. -/
def devianceTermsLoo (env : Env F) (f : Fit F n p b) : CacheM F n (ncols b p) (Vec F n) := do
  let devTerms ← devianceTerms f
  let pear ← residPear f
  let lev ← leverage env f
  let hatRat : Vec F n := fun i => lev i / (1 - lev i)
  return fun i => devTerms i + hatRat i * (hatRat i + two) * (pear i * pear i)

/-- `dispersion_loo`, src/fit.rs:248-283. -/
def dispersionLoo (env : Env F) (f : Fit F n p b) : CacheM F n (ncols b p) (Vec F n) :=
  match f.g.dispersed with
  | .free => do
    let pear ← residPear f
    let lev ← leverage env f
    let hatRat : Vec F n := fun i => lev i / (1 - lev i)
    let devTerms ← devianceTerms f
    let terms : Vec F n := fun i => devTerms i + hatRat i * (pear i * pear i)
    let terms := f.data.applyFreqWeights terms
    let dev ← deviance f
    let total : Vec F n := fun i => -(terms i) + dev
    match f.data.weights with
    | none => match f.data.freqs with
      | some fr => return fun i => total i / -(fr i - f.ndf)
      | none => return fun i => total i / (f.ndf - 1)
    | some w =>
      let v1 := f.data.freqSum w
      let w2 := vmul w w
      let v2 := f.data.freqSum w2
      let fw := f.data.applyFreqWeights w
      let fw2 := f.data.applyFreqWeights w2
      let v1p : Vec F n := fun i => -(fw i) + v1
      let v2p : Vec F n := fun i => -(fw2 i) + v2
      let q := f.rank
      return fun i => total i / (v1p i - v2p i / v1p i * q)
  | .none => return vfill 1

/-- `infl_coef`, src/fit.rs:387-397. -/
def inflCoef (env : Env F) (f : Fit F n p b) : CacheM F n (ncols b p) (Mat F n (ncols b p)) := do
  let residResp := f.residResp
  let lev ← leverage env f
  let residAdj : Vec F n := fun i =>
    f.g.link.adjustErrors (residResp i) (f.xLinPred i) / (-(lev i) + 1)
  let xte : Mat F (ncols b p) n := fun j i => f.data.xConjExt j i * residAdj i
  let fisherInv ← fisherInv env f
  return xte.tr.dotM fisherInv

/-- `loo_exact`, src/fit.rs:409-459. -/
def looExact (env : Env F) (f : Fit F n p b) : CacheM F n (ncols b p) (Mat F n (ncols b p)) := do
  let looCoef ← inflCoef env f
  let looInitial : Mat F n (ncols b p) := fun i => vsub f.result (looCoef i)
  lift ((seqOutcome (f.looFit env looInitial)).mapErr .ofFit)

/-- `resid_dev`, src/fit.rs:696-701. -/
def residDev (f : Fit F n p b) : CacheM F n (ncols b p) (Vec F n) := do
  let llDiff ← devianceTerms f
  return fun i => signum (f.residResp i) * sqrt (llDiff i)

/-- `resid_dev_std`, src/fit.rs:711-718. -/
def residDevStd (env : Env F) (f : Fit F n p b) : CacheM F n (ncols b p) (Vec F n) := do
  let dev ← residDev f
  let phi ← dispersion f
  let hat ← leverage env f
  return fun i => dev i / sqrt ((-(hat i) + 1) * phi)

/-- `resid_pear_std`, src/fit.rs:797-804. -/
def residPearStd (env : Env F) (f : Fit F n p b) : CacheM F n (ncols b p) (Vec F n) := do
  let pearson ← residPear f
  let phi ← dispersion f
  let hat ← leverage env f
  return fun i => pearson i / sqrt ((-(hat i) + 1) * phi)

/-- `resid_student`, src/fit.rs:821-832. -/
def residStudent (env : Env F) (f : Fit F n p b) : CacheM F n (ncols b p) (Vec F n) := do
  let devTermsLoo ← devianceTermsLoo env f
  let scaled : Vec F n ← match f.g.dispersed with
    | .free => do
      let phiLoo ← dispersionLoo env f
      pure (vdiv devTermsLoo phiLoo)
    | .none => pure devTermsLoo
  return fun i => signum (f.residResp i) * sqrt (scaled i)

/-- `null_model_fit`, src/fit.rs:564-660: the computation itself uses no cell of this fit. -/
def nullModelFit (env : Env F) (f : Fit F n p b) :
    CacheM F n (ncols b p) (F × Vec F (ncols b p)) :=
  getOrInit .nullModel (lift ((f.nullModelFit env).mapErr fun e => e.elim))

/-- `null_like`, src/fit.rs:556-559. -/
def nullLike (env : Env F) (f : Fit F n p b) : CacheM F n (ncols b p) F := do
  let nm ← nullModelFit env f
  return nm.1

/-- `lr_test`, src/fit.rs:472-478. -/
def lrTest (env : Env F) (f : Fit F n p b) : CacheM F n (ncols b p) F := do
  let nl ← nullLike env f
  return -two * (nl - f.modelLike)

/-- `wald_test`, src/fit.rs:919-926. -/
def waldTest (env : Env F) (f : Fit F n p b) : CacheM F n (ncols b p) F := do
  let nm ← nullModelFit env f
  return f.waldTestAgainst nm.2

/-- `score_test`, src/fit.rs:881-885. -/
def scoreTest (env : Env F) (f : Fit F n p b) : CacheM F n (ncols b p) F := do
  let nm ← nullModelFit env f
  try? (f.scoreTestAgainst env nm.2)

/-- `wald_z`, src/fit.rs:949-953. -/
def waldZ (env : Env F) (f : Fit F n p b) : CacheM F n (ncols b p) (Vec F (ncols b p)) := do
  let parCov ← covariance env f
  return fun j => f.result j / sqrt (parCov j j)

/-- `r_sq`, src/fit.rs:973-976. -/
def rSq (env : Env F) (f : Fit F n p b) : CacheM F n (ncols b p) F := do
  let lr ← lrTest env f
  let dev ← deviance f
  return lr / (lr + dev)

/-- `pvalue_lr_test`, src/fit.rs:1067-1076. -/
def pvalueLrTest (ds : Dists F) (env : Env F) (f : Fit F n p b) : CacheM F n (ncols b p) F := do
  let stat ← lrTest env f
  if f.testNdf = 0 then return 1
  else do
    let chi2 ← lift (unwrapDist (ds.chi2 (ofNat f.testNdf)))
    return chi2.2 stat

/-- `pvalue_wald`, src/fit.rs:1091-1113. -/
def pvalueWald (ds : Dists F) (env : Env F) (f : Fit F n p b) :
    CacheM F n (ncols b p) (Vec F (ncols b p)) := do
  let z ← waldZ env f
  match f.g.dispersed with
  | .none => return fun j => two * ds.normalSf (abs (z j))
  | .free => do
    let sf ← lift (unwrapDist (ds.studentT f.ndf))
    return fun j => two * sf (abs (z j))

/-- `pvalue_exact`, src/fit.rs:1126-1153: the deviance and the dispersion are read before the loop;
the loop uses no cell of this fit. -/
def pvalueExact (ds : Dists F) (env : Env F) (f : Fit F n p b) :
    CacheM F n (ncols b p) (Vec F (ncols b p)) := do
  let devFull ← deviance f
  let phiFull ← dispersion f
  lift ((seqOutcome fun k => (f.devWithoutCovariate env k).bind fun devReduced =>
    let deltaD := devReduced - devFull
    match f.g.dispersed with
    | .none => (unwrapDist (ds.chi2 1)).map fun chi2 => 1 - chi2.1 deltaD
    | .free => (unwrapDist (ds.fisherSnedecor 1 f.ndf)).map fun sf => sf (deltaD / phiFull)).mapErr
      fun e => .ofFit e.2)

/-- `resid_quantile`, src/fit.rs:1178-1205. -/
def residQuantile (ds : Dists F) (dist : F → F → Distribution F) (f : Fit F n p b) :
    CacheM F n (ncols b p) (Vec F n) := do
  let phi ← dispersion f
  let phiI : Vec F n := fun i => phi / f.data.getVarianceWeights i
  lift ((seqOutcome fun i => (unwrapDist (dist (f.yHat i) (phiI i)).new).map fun D =>
    ds.normalInvCdf (ds.cdf D (f.data.y i))).mapErr fun e : Empty => e.elim)

end Cached

/-- The public accessors of a fit that use the cells, with the type of their result.  The others
(`bic`, `fisher`, `score`, `predict`, `ndf`, `test_ndf`, `rss`, `resid_resp`, `resid_work`,
`resid_part`, `*_against`) read no cell. -/
inductive Accessor (F : Type) (n p : ℕ) (b : Bool) : Type → Type 1
  | aic : Accessor F n p b F
  | cooks : Accessor F n p b (Vec F n)
  | covariance : Accessor F n p b (Mat F (ncols b p) (ncols b p))
  | deviance : Accessor F n p b F
  | dispersion : Accessor F n p b F
  | hat : Accessor F n p b (Mat F n n)
  | inflCoef : Accessor F n p b (Mat F n (ncols b p))
  | leverage : Accessor F n p b (Vec F n)
  | looExact : Accessor F n p b (Mat F n (ncols b p))
  | lrTest : Accessor F n p b F
  | nullLike : Accessor F n p b F
  | residDev : Accessor F n p b (Vec F n)
  | residDevStd : Accessor F n p b (Vec F n)
  | residPear : Accessor F n p b (Vec F n)
  | residPearStd : Accessor F n p b (Vec F n)
  | residStudent : Accessor F n p b (Vec F n)
  | scoreTest : Accessor F n p b F
  | waldTest : Accessor F n p b F
  | waldZ : Accessor F n p b (Vec F (ncols b p))
  | rSq : Accessor F n p b F
  | pvalueLrTest : Accessor F n p b F
  | pvalueWald : Accessor F n p b (Vec F (ncols b p))
  | pvalueExact : Accessor F n p b (Vec F (ncols b p))
  | residQuantile (dist : F → F → Distribution F) : Accessor F n p b (Vec F n)

/-- A call of an accessor on a fit whose cells are in some state. -/
def access (ds : Dists F) (env : Env F) (f : Fit F n p b) {α : Type} :
    Accessor F n p b α → CacheM F n (ncols b p) α
  | .aic => Cached.aic f
  | .cooks => Cached.cooks env f
  | .covariance => Cached.covariance env f
  | .deviance => Cached.deviance f
  | .dispersion => Cached.dispersion f
  | .hat => Cached.hat env f
  | .inflCoef => Cached.inflCoef env f
  | .leverage => Cached.leverage env f
  | .looExact => Cached.looExact env f
  | .lrTest => Cached.lrTest env f
  | .nullLike => Cached.nullLike env f
  | .residDev => Cached.residDev f
  | .residDevStd => Cached.residDevStd env f
  | .residPear => Cached.residPear f
  | .residPearStd => Cached.residPearStd env f
  | .residStudent => Cached.residStudent env f
  | .scoreTest => Cached.scoreTest env f
  | .waldTest => Cached.waldTest env f
  | .waldZ => Cached.waldZ env f
  | .rSq => Cached.rSq env f
  | .pvalueLrTest => Cached.pvalueLrTest ds env f
  | .pvalueWald => Cached.pvalueWald ds env f
  | .pvalueExact => Cached.pvalueExact ds env f
  | .residQuantile dist => Cached.residQuantile ds dist f

/-- The cells after a sequence of accessor calls, whatever they return. -/
def cellsAfter (ds : Dists F) (env : Env F) (f : Fit F n p b)
    (calls : List (Σ α : Type, Accessor F n p b α)) : Cache F n (ncols b p) :=
  calls.foldl (fun c a => (f.access ds env a.2 c).2) Cache.empty

end Fit
end

end GLM
