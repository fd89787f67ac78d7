/-
  The statistics of src/fit.rs that fit further models: `loo_exact`, `dev_without_covariate` and
  `pvalue_exact`; the p-values and quantile residuals, relative to the distribution functions of
  `statrs`.
-/
import Verif.Model.Fit
import Verif.Model.Dist

namespace GLM
open Scalar

section
variable {E α : Type}

/-- A `for` loop over `0..k` whose body uses `?` and stores one result per index: the first failure
ends the loop (src/fit.rs:417-457 and :1132-1150). -/
def seqOutcome : {k : ℕ} → (Fin k → Outcome E α) → Outcome E (Fin k → α)
  | 0, _ => .ok Fin.elim0
  | _ + 1, body => (body 0).bind fun a =>
      (seqOutcome fun i => body i.succ).map fun v => Fin.cons a v

/-- Conversion of `Result` to an outcome. -/
def Outcome.ofExcept : Except E α → Outcome E α
  | .ok a => .ok a
  | .error e => .err e

/-- `From<LinalgError> for RegressionError` and friends: change of the error type at a `?`. -/
def Outcome.mapErr {E' : Type} (h : E → E') : Outcome E α → Outcome E' α
  | .ok a => .ok a
  | .err e => .err (h e)
  | .panic => .panic
  | .diverge => .diverge
end

/-- `RegressionError` as returned by a fit of a model with any number of parameters. -/
abbrev AnyFitError (F : Type) := Σ k : ℕ, FitError F k

/-- The distribution functions taken from `statrs`.  A constructor that rejects its parameters is
`none`; the crate calls `unwrap` on it.
* `chi2 ndf` is (cdf, sf) of `ChiSquared::new(ndf)`;
* `studentT df` is the sf of `StudentsT::new(0, 1, df)`;
* `fisherSnedecor d1 d2` is the sf of `FisherSnedecor::new(d1, d2)`;
* `normalSf`, `normalInvCdf` belong to `Normal::standard()`;
* `cdf D` is the cdf of the distribution with arguments `D`.
Conversions to and from `f64` are not modelled. -/
structure Dists (F : Type) where
  chi2 : F → Option ((F → F) × (F → F))
  studentT : F → Option (F → F)
  fisherSnedecor : F → F → Option (F → F)
  normalSf : F → F
  normalInvCdf : F → F
  cdf : Distribution F → F → F

section
variable {F : Type} [Scalar F] {n p : ℕ} {b : Bool}

namespace Fit

/-- The data set of `loo_exact` for observation `i`, src/fit.rs:418-441. -/
def looData (f : Fit F n p b) (i : Fin n) : Option (Dataset F n p b) :=
  let freqs := match f.data.freqs with
    | some fr => fr
    | none => vfill 1
  let freqsI : Vec F n := fun k => if k = i then 0 else freqs k
  let dataI : Dataset F n p false :=
    { y := f.data.y
      x := f.data.xOrig
      linearOffset := f.data.linearOffset
      weights := f.data.weights
      freqs := some freqsI
      standardizer := none }
  dataI.finalize f.data.standardizer.isSome b

/-- One round of the loop of `loo_exact`, src/fit.rs:417-457; a failing standardization of the
reduced data is a panic. -/
def looFit (env : Env F) (f : Fit F n p b) (looInitial : Mat F n (ncols b p)) (i : Fin n) :
    Outcome (FitError F (ncols b p)) (Vec F (ncols b p)) :=
  match f.looData i with
  | none => .panic
  | some dataI =>
    (regression env f.g dataI { f.options with initGuess := some (looInitial i) }).map Fit.result

/-- `loo_exact`, src/fit.rs:409-459. -/
def looExact (env : Env F) (f : Fit F n p b) :
    Outcome (FitError F (ncols b p)) (Mat F n (ncols b p)) :=
  ((Outcome.ofExcept (f.inflCoef env)).mapErr fun _ => FitError.linalg).bind fun looCoef =>
    let looInitial : Mat F n (ncols b p) := fun i => vsub f.result (looCoef i)
    seqOutcome (f.looFit env looInitial)

/-- The options of a reduced fit, src/fit.rs:1048-1052. -/
def reducedOptions {k k' : ℕ} (o : FitOptions F k) (init : Vec F k') : FitOptions F k' :=
  { maxIter := o.maxIter, tol := o.tol, l2 := o.l2, l1 := o.l1, initGuess := some init }

/-- The last two lines of `dev_without_covariate`, src/fit.rs:1053-1054. -/
def reducedDeviance {p' : ℕ} {b' : Bool} (env : Env F) (g : Glm F) (data : Dataset F n p' b')
    (options : FitOptions F (ncols b' p')) : Outcome (AnyFitError F) F :=
  ((regression env g data options).map Fit.deviance).mapErr fun e => ⟨_, e⟩

/-- `dev_without_covariate(0)` of a model with intercept, src/fit.rs:1001-1055: the features on the
original scale, without an intercept. -/
def devWithoutIntercept (env : Env F) (f : Fit F n p true) : Outcome (AnyFitError F) F :=
  let data : Dataset F n p false :=
    { y := f.data.y
      x := fun i j => f.data.xExt i (j.succ : Fin (p + 1))
      linearOffset := f.data.linearOffset
      weights := f.data.weights
      freqs := f.data.freqs
      standardizer := none }
  reducedDeviance env f.g data
    (reducedOptions f.options fun j => f.result (j.succ : Fin (p + 1)))

/-- `dev_without_covariate(j + 1)` of a model with intercept, src/fit.rs:1001-1055: the standardized
columns without the one of feature `j`. -/
def devWithoutFeature (env : Env F) (f : Fit F n (p + 1) true) (j : Fin (p + 1)) :
    Outcome (AnyFitError F) F :=
  let skip : Fin (p + 1) → Fin (p + 2) := (j.succ : Fin (p + 2)).succAbove
  let data : Dataset F n p true :=
    { y := f.data.y
      x := fun i k => f.data.x i (skip k)
      linearOffset := f.data.linearOffset
      weights := f.data.weights
      freqs := f.data.freqs
      standardizer := none }
  reducedDeviance env f.g data (reducedOptions f.options fun k => f.resultStd (skip k))

/-- `dev_without_covariate(j)` of a model without intercept and at least two features,
src/fit.rs:1001-1055.  The reduced data set is marked as having an intercept
(`has_intercept: !is_intercept`, line 1024), although its first column is a feature. -/
def devWithoutColumn (env : Env F) (f : Fit F n (p + 2) false) (j : Fin (p + 2)) :
    Outcome (AnyFitError F) F :=
  let data : Dataset F n p true :=
    { y := f.data.y
      x := fun i k => f.data.x i (j.succAbove (k : Fin (p + 1)))
      linearOffset := f.data.linearOffset
      weights := f.data.weights
      freqs := f.data.freqs
      standardizer := none }
  reducedDeviance env f.g data
    (reducedOptions f.options fun k => f.resultStd (j.succAbove (k : Fin (p + 1))))

/-- `dev_without_covariate(0)` of a model without intercept and with a single feature: the reduced
design has no columns but is marked as having an intercept, so `zero_first_maybe`
(src/irls.rs:304-314) indexes an empty array when there is a penalty.  Otherwise the mark has no
effect (it is only read by `get_reg` without a standardizer). -/
def devWithoutOnlyColumn (env : Env F) (f : Fit F n 1 false) : Outcome (AnyFitError F) F :=
  if gt f.options.l1 0 || gt f.options.l2 0 then .panic
  else
    let data : Dataset F n 0 false :=
      { y := f.data.y
        x := fun _ => Fin.elim0
        linearOffset := f.data.linearOffset
        weights := f.data.weights
        freqs := f.data.freqs
        standardizer := none }
    reducedDeviance env f.g data (reducedOptions f.options Fin.elim0)

/-- `dev_without_covariate`, src/fit.rs:1001-1055. -/
def devWithoutCovariate (env : Env F) : {p : ℕ} → {b : Bool} → Fit F n p b → Fin (ncols b p) →
    Outcome (AnyFitError F) F
  | 0, true, f, _ => f.devWithoutIntercept env
  | _ + 1, true, f, i =>
    Fin.cases (f.devWithoutIntercept env) (fun j => f.devWithoutFeature env j) i
  | 1, false, f, _ => f.devWithoutOnlyColumn env
  | _ + 2, false, f, i => f.devWithoutColumn env i
  | 0, false, _, i => i.elim0

/-- `unwrap` of a distribution constructor. -/
def unwrapDist {E α : Type} : Option α → Outcome E α
  | some a => .ok a
  | none => .panic

/-- `pvalue_lr_test`, src/fit.rs:1067-1076. -/
def pvalueLrTest (ds : Dists F) (env : Env F) (f : Fit F n p b) : Outcome Empty F :=
  (f.lrTest env).bind fun stat =>
    if f.testNdf = 0 then .ok 1
    else (unwrapDist (ds.chi2 (ofNat f.testNdf))).map fun chi2 => chi2.2 stat

/-- `pvalue_wald`, src/fit.rs:1091-1113. -/
def pvalueWald (ds : Dists F) (env : Env F) (f : Fit F n p b) :
    Outcome LinalgError (Vec F (ncols b p)) :=
  (Outcome.ofExcept (f.waldZ env)).bind fun z =>
    match f.g.dispersed with
    | .none => .ok fun j => two * ds.normalSf (abs (z j))
    | .free => (unwrapDist (ds.studentT f.ndf)).map fun sf => fun j => two * sf (abs (z j))

/-- The p-value of one parameter in `pvalue_exact`, src/fit.rs:1133-1149. -/
def pvalueExactAt (ds : Dists F) (env : Env F) (f : Fit F n p b) (k : Fin (ncols b p)) :
    Outcome (AnyFitError F) F :=
  (f.devWithoutCovariate env k).bind fun devReduced =>
    let deltaD := devReduced - f.deviance
    match f.g.dispersed with
    | .none => (unwrapDist (ds.chi2 1)).map fun chi2 => 1 - chi2.1 deltaD
    | .free => (unwrapDist (ds.fisherSnedecor 1 f.ndf)).map fun sf => sf (deltaD / f.dispersion)

/-- `pvalue_exact`, src/fit.rs:1126-1153. -/
def pvalueExact (ds : Dists F) (env : Env F) (f : Fit F n p b) :
    Outcome (AnyFitError F) (Vec F (ncols b p)) :=
  seqOutcome (f.pvalueExactAt ds env)

/-- `resid_quantile`, src/fit.rs:1178-1205; `dist` is `M::get_distribution` without its `unwrap`. -/
def residQuantile (ds : Dists F) (dist : F → F → Distribution F) (f : Fit F n p b) :
    Outcome Empty (Vec F n) :=
  let phiI : Vec F n := fun i => f.dispersion / f.data.getVarianceWeights i
  seqOutcome fun i => (unwrapDist (dist (f.yHat i) (phiI i)).new).map fun D =>
    ds.normalInvCdf (ds.cdf D (f.data.y i))

end Fit
end

end GLM
