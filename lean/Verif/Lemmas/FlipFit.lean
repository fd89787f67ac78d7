/-
  The statistics of two fits whose features are counted in different directions.
-/
import Verif.Lemmas.Flip

namespace GLM
open Scalar Spec
variable {n p : ℕ} {b : Bool}

/-- The change between the two scales goes along with the directions. -/
structure FlipsExt (s : Fin (ncols b p) → ℝ) (d d' : Dataset ℝ n p b) : Prop
    extends Flips s d d' where
  inv : ∀ γ, d'.inverseTransformBeta (flipV s γ) = flipV s (d.inverseTransformBeta γ)
  beta : ∀ γ, d'.transformBeta (flipV s γ) = flipV s (d.transformBeta γ)
  fisher : ∀ m, d'.inverseTransformFisher (flipM s m) = flipM s (d.inverseTransformFisher m)
  score : ∀ v, d'.inverseTransformScore (flipV s v) = flipV s (d.inverseTransformScore v)
  xExt : ∀ i j, d'.xExt i j = s j * d.xExt i j

/-- The statistics that do not single out the intercept agree up to directions. -/
structure SameFitFlipped (s : Fin (ncols b p) → ℝ) (f f' : Fit ℝ n p b) : Prop where
  result : f'.result = flipV s f.result
  history : f'.history = f.history.map (flipStep s)
  nIter : f'.nIter = f.nIter
  modelLike : f'.modelLike = f.modelLike
  yHat : f'.yHat = f.yHat
  deviance : f'.deviance = f.deviance
  dispersion : f'.dispersion = f.dispersion
  aic : f'.aic = f.aic
  bic : f'.bic = f.bic
  rss : f'.rss = f.rss
  ndf : f'.ndf = f.ndf
  score : ∀ β, f'.score (flipV s β) = flipV s (f.score β)
  fisher : ∀ β, f'.fisher (flipV s β) = flipM s (f.fisher β)
  covariance : ∀ env : Env ℝ, SignFree s env →
    f'.covariance env = (f.covariance env).map (flipM s)
  waldZ : ∀ env : Env ℝ, SignFree s env → f'.waldZ env = (f.waldZ env).map (flipV s)
  lrTestAgainst : ∀ β, f'.lrTestAgainst (flipV s β) = f.lrTestAgainst β
  waldTestAgainst : ∀ β, f'.waldTestAgainst (flipV s β) = f.waldTestAgainst β
  scoreTestAgainst : ∀ env : Env ℝ, SignFree s env → ∀ β,
    f'.scoreTestAgainst env (flipV s β) = f.scoreTestAgainst env β
  hat : ∀ env : Env ℝ, SignFree s env → f'.hat env = f.hat env
  leverage : ∀ env : Env ℝ, SignFree s env → f'.leverage env = f.leverage env
  cooks : ∀ env : Env ℝ, SignFree s env → f'.cooks env = f.cooks env
  inflCoef : ∀ env : Env ℝ, SignFree s env →
    f'.inflCoef env = (f.inflCoef env).map fun m i => flipV s (m i)
  residResp : f'.residResp = f.residResp
  residPear : f'.residPear = f.residPear
  residDev : f'.residDev = f.residDev
  residWork : f'.residWork = f.residWork
  residPearStd : ∀ env : Env ℝ, SignFree s env → f'.residPearStd env = f.residPearStd env
  residDevStd : ∀ env : Env ℝ, SignFree s env → f'.residDevStd env = f.residDevStd env
  residStudent : ∀ env : Env ℝ, SignFree s env → f'.residStudent env = f.residStudent env
  pvalueWald : ∀ (ds : Dists ℝ) (env : Env ℝ), SignFree s env →
    f'.pvalueWald ds env = f.pvalueWald ds env
  residQuantile : ∀ (ds : Dists ℝ) dist, f'.residQuantile ds dist = f.residQuantile ds dist

namespace FlipsExt
variable {s : Fin (ncols b p) → ℝ} {d d' : Dataset ℝ n p b} (h : FlipsExt s d d')
include h

/-- All statistics that do not single out the intercept. -/
theorem sameFit (g : Glm ℝ) {o o' : FitOptions ℝ (ncols b p)}
    (st : IrlsStep ℝ (ncols b p)) (t : Irls ℝ (ncols b p)) :
    SameFitFlipped s (Fit.new g d o st t) (Fit.new g d' o' (flipStep s st) (t.flip s)) := by
  have hr := h.toFlips
  have hs := hr.signs
  set f := Fit.new g d o st t with hf
  set f' := Fit.new g d' o' (flipStep s st) (t.flip s) with hf'
  have hg : f'.g = f.g := rfl
  have hreg : f'.reg = f.reg.flip s := rfl
  have hstd : f'.resultStd = flipV s f.resultStd := rfl
  have hres : f'.result = flipV s f.result := h.inv _
  have hd : f.data = d := rfl
  have hd' : f'.data = d' := rfl
  have hl : f'.xLinPred = f.xLinPred := hr.linPred _
  have hy : f'.yHat = f.yHat := congrArg g.mean hl
  have hrank : f'.rank = f.rank := rfl
  have hdt : f'.devianceTerms = f.devianceTerms := by
    simp only [Fit.devianceTerms, hg, hd, hd', hr.varW, hr.y, hstd, hr.logLikeTerms]
  have hdev : f'.deviance = f.deviance := by
    simp only [Fit.deviance, hdt, hd, hd', hr.freqSum]
  have hdisp : f'.dispersion = f.dispersion := by
    simp only [Fit.dispersion, hg, hdev, hrank, hd, hd', hr.nEff, hr.sumWeights]
  have hslw : f'.sumLogWeights = f.sumLogWeights := by
    simp only [Fit.sumLogWeights, Dataset.getVarianceWeights, hd, hd', hr.freqSum, hr.weights]
  have hndf : f'.ndf = f.ndf := by simp only [Fit.ndf, hrank, hd, hd', hr.nObs]
  have hfd : ∀ γ, f'.fisherDataStd (flipV s γ) = flipM s (f.fisherDataStd γ) := by
    intro γ
    simp only [Fit.fisherDataStd, hg, hd, hd', hr.linPred]
    exact hr.xConj_dotM _
  have hfs : ∀ γ, f'.fisherStd (flipV s γ) = flipM s (f.fisherStd γ) := by
    intro γ
    simp only [Fit.fisherStd, hfd, hreg]
    exact Reg.flip_irlsMat hs _ _ _ _
  have hfi : ∀ β, f'.fisher (flipV s β) = flipM s (f.fisher β) := by
    intro β
    simp only [Fit.fisher, hd, hd', h.beta, hfs, h.fisher]
  have hinv : ∀ env : Env ℝ, SignFree s env →
      f'.fisherInv env = (f.fisherInv env).map (flipM s) := by
    intro env he
    simp only [Fit.fisherInv, hres, hfi]
    exact he.inv _
  have hsc : ∀ β, f'.score (flipV s β) = flipV s (f.score β) := by
    intro β
    simp only [Fit.score, hg, hd, hd', h.beta, hr.linPred, hr.y, hr.xConj_dotV, hreg,
      Reg.flip_gradient hs, h.score]
  have hdotM := flipM_dotM hs
  have hdot : ∀ u v : Vec ℝ (ncols b p), vdot (flipV s u) (flipV s v) = vdot u v :=
    fun u v => vdotBy_flip hs u v
  have hdotV := flipM_dotV hs
  have hcov : ∀ env : Env ℝ, SignFree s env →
      f'.covariance env = (f.covariance env).map (flipM s) := by
    intro env he
    unfold Fit.covariance
    rw [hinv env he]
    cases f.fisherInv env with
    | error e => rfl
    | ok A =>
      refine congrArg Except.ok ?_
      simp only [hdisp, hstd, hfd, hd, hd', h.fisher, hdotM]
      funext i j
      simp only [flipM]
      ring
  have hwz : ∀ env : Env ℝ, SignFree s env →
      f'.waldZ env = (f.waldZ env).map (flipV s) := by
    intro env he
    unfold Fit.waldZ
    rw [hcov env he, hres]
    cases f.covariance env with
    | error e => rfl
    | ok A =>
      refine congrArg Except.ok (funext fun j => ?_)
      have h1 : flipM s A j j = A j j := by
        simp only [flipM]; linear_combination (A j j) * IsSigns.sq hs j
      simp only [h1, flipV]
      ring
  have hhat : ∀ env : Env ℝ, SignFree s env → f'.hat env = f.hat env := by
    intro env he
    unfold Fit.hat Fit.fisherStdInv
    rw [hstd, hfs, he.inv]
    cases env.inv (f.fisherStd f.resultStd) with
    | error e => rfl
    | ok A =>
      refine congrArg Except.ok ?_
      simp only [hg, hy, hl, hd, hd']
      funext i l
      have h1 : ∀ j, Mat.dotM (flipM s A)
            (fun j i => d'.xConj j i * f.g.link.dNatParam (f.xLinPred i)) j l
          = s j * Mat.dotM A (fun j i => d.xConj j i * f.g.link.dNatParam (f.xLinPred i)) j l := by
        intro j
        simp only [Mat.dotM, vdotBy_real, hr.xConj, flipM, Finset.mul_sum]
        refine Finset.sum_congr rfl fun m _ => ?_
        linear_combination (s j * A j m * d.xConj m l * f.g.link.dNatParam (f.xLinPred l))
          * IsSigns.sq hs m
      change (vdotBy (.matMat n n i l)
          (fun j => f.g.variance (f.yHat i) * f.g.link.dNatParam (f.xLinPred i) * d'.x i j)
          fun j => Mat.dotM (flipM s A)
            (fun j i => d'.xConj j i * f.g.link.dNatParam (f.xLinPred i)) j l)
        = vdotBy (.matMat n n i l)
          (fun j => f.g.variance (f.yHat i) * f.g.link.dNatParam (f.xLinPred i) * d.x i j)
          fun j => Mat.dotM A (fun j i => d.xConj j i * f.g.link.dNatParam (f.xLinPred i)) j l
      simp only [h1, hr.x, vdotBy_real]
      refine Finset.sum_congr rfl fun m _ => ?_
      linear_combination (f.g.variance (f.yHat i) * f.g.link.dNatParam (f.xLinPred i) * d.x i m
        * Mat.dotM A (fun j i => d.xConj j i * f.g.link.dNatParam (f.xLinPred i)) m l)
        * IsSigns.sq hs m
  have hlev : ∀ env : Env ℝ, SignFree s env → f'.leverage env = f.leverage env := by
    intro env he
    simp only [Fit.leverage, hhat env he]
  have hrr : f'.residResp = f.residResp := by
    simp only [Fit.residResp, hd, hd', hr.y, hy]
  have hrp : f'.residPear = f.residPear := by
    simp only [Fit.residPear, hd, hd', hr.varW, hg, hy, hrr]
  have hrd : f'.residDev = f.residDev := by funext i; simp only [Fit.residDev, hrr, hdt]
  have hdtl : ∀ env : Env ℝ, SignFree s env → f'.devianceTermsLoo env = f.devianceTermsLoo env := by
    intro env he
    simp only [Fit.devianceTermsLoo, hlev env he, hdt, hrp]
  have hdl : ∀ env : Env ℝ, SignFree s env → f'.dispersionLoo env = f.dispersionLoo env := by
    intro env he
    simp only [Fit.dispersionLoo, hg, hlev env he, hdt, hrp, hdev, hndf, hrank, hd, hd', hr.freqW,
      hr.freqSum, hr.weights, hr.freqs]
  exact
    { result := hres
      history := by
        change ((t.history.map (flipStep s)).map fun st => _) = _
        simp only [List.map_map]
        change _ = (t.history.map fun st => _).map (flipStep s)
        rw [List.map_map]
        refine List.map_congr_left fun st _ => ?_
        simp only [Function.comp, flipStep, h.inv]
      nIter := rfl
      modelLike := rfl
      yHat := hy
      deviance := hdev
      dispersion := hdisp
      aic := by simp only [Fit.aic, hdev, hrank, hslw]
      bic := by
        have hm : f'.modelLike = f.modelLike := rfl
        simp only [Fit.bic, hrank, hslw, hd, hd', hr.nObs, hm]
      rss := by simp only [Fit.rss, hd, hd', hr.totalW, hrr]
      ndf := hndf
      score := hsc
      fisher := hfi
      covariance := hcov
      waldZ := hwz
      lrTestAgainst := fun β => by
        have hm : f'.modelLike = f.modelLike := rfl
        simp only [Fit.lrTestAgainst, hg, hd, hd', h.beta, hr.logLike, hreg,
          Reg.flip_likelihood hs, hm]
      waldTestAgainst := fun β => by
        simp only [Fit.waldTestAgainst, hd, hd', h.beta, hstd, hfs, flipV_sub, hdotV, hdot]
      scoreTestAgainst := fun env he β => by
        unfold Fit.scoreTestAgainst
        rw [hfi, hsc]
        dsimp only
        rw [he.inv (f.fisher β)]
        cases env.inv (f.fisher β) with
        | error e => rfl
        | ok A =>
          refine congrArg Except.ok ?_
          rw [hdotV, hdot]
      hat := hhat
      leverage := hlev
      cooks := fun env he => by
        simp only [Fit.cooks, hlev env he, hrp, hrank, hdisp]
      inflCoef := fun env he => by
        unfold Fit.inflCoef
        rw [hlev env he, hinv env he]
        cases f.leverage env with
        | error e => rfl
        | ok lev =>
          cases f.fisherInv env with
          | error e => rfl
          | ok A =>
            refine congrArg Except.ok ?_
            have hxe : ∀ j i, d'.xConjExt j i = s j * d.xConjExt j i := by
              intro j i
              simp only [Dataset.xConjExt, Dataset.weightCols, hr.freqs, hr.weights]
              cases d.freqs <;> cases d.weights <;> simp only [Mat.tr, h.xExt, mul_assoc]
            funext i j
            simp only [Mat.dotM, Mat.tr, hg, hrr, hl, hd, hd', hxe, vdotBy_real, flipM, flipV,
              Finset.mul_sum]
            refine Finset.sum_congr rfl fun m _ => ?_
            linear_combination (d.xConjExt m i
              * (f.g.link.adjustErrors (f.residResp i) (f.xLinPred i) / (-(lev i) + 1))
              * A m j * s j) * IsSigns.sq hs m
      residResp := hrr
      residPear := hrp
      residDev := hrd
      residWork := by
        funext i
        simp only [Fit.residWork, hrr, hg, hy, hl]
      residPearStd := fun env he => by simp only [Fit.residPearStd, hlev env he, hrp, hdisp]
      residDevStd := fun env he => by simp only [Fit.residDevStd, hlev env he, hrd, hdisp]
      residStudent := fun env he => by
        simp only [Fit.residStudent, hdtl env he, hdl env he, hg, hrr]
      pvalueWald := fun ds env he => by
        unfold Fit.pvalueWald
        rw [hwz env he, hg, hndf]
        cases f.waldZ env with
        | error e => rfl
        | ok z =>
          have hz : ∀ j, Scalar.abs (flipV s z j) = Scalar.abs (z j) := fun j =>
            IsSigns.abs_mul' hs j (z j)
          simp only [Except.map, Outcome.ofExcept, Outcome.bind, hz]
      residQuantile := fun ds dist => by
        simp only [Fit.residQuantile, hdisp, hy, hd, hd', hr.y, Dataset.getVarianceWeights,
          hr.weights] }

end FlipsExt

end GLM
