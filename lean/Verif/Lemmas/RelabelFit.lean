/-
  The statistics of two fits whose parameters are numbered differently.
-/
import Verif.Lemmas.Relabel

namespace GLM
open Scalar Spec
variable {n p p' : ℕ} {b b' : Bool}

/-- The change between the two scales goes along with the numbering. -/
structure RelabelsExt (τ : Fin (ncols b' p') ≃ Fin (ncols b p)) (d : Dataset ℝ n p b)
    (d' : Dataset ℝ n p' b') : Prop extends Relabels τ d d' where
  inv : ∀ γ, d'.inverseTransformBeta (fun j => γ (τ j)) = fun j => d.inverseTransformBeta γ (τ j)
  beta : ∀ γ, d'.transformBeta (fun j => γ (τ j)) = fun j => d.transformBeta γ (τ j)
  fisher : ∀ m, d'.inverseTransformFisher (fun i j => m (τ i) (τ j))
    = fun i j => d.inverseTransformFisher m (τ i) (τ j)
  score : ∀ v, d'.inverseTransformScore (fun j => v (τ j)) = fun j => d.inverseTransformScore v (τ j)
  xExt : ∀ i j, d'.xExt i j = d.xExt i (τ j)

namespace RelabelsExt
variable {τ : Fin (ncols b' p') ≃ Fin (ncols b p)} {d : Dataset ℝ n p b} {d' : Dataset ℝ n p' b'}
  (h : RelabelsExt τ d d')
include h

/-- All statistics that do not single out the intercept. -/
theorem sameFit (g : Glm ℝ) {o : FitOptions ℝ (ncols b p)} {o' : FitOptions ℝ (ncols b' p')}
    (st : IrlsStep ℝ (ncols b p)) (s : Irls ℝ (ncols b p)) :
    SameFit τ (Fit.new g d o st s) (Fit.new g d' o' (reorderStep τ st) (s.reorder τ)) := by
  have hr := h.toRelabels
  set f := Fit.new g d o st s with hf
  set f' := Fit.new g d' o' (reorderStep τ st) (s.reorder τ) with hf'
  have hg : f'.g = f.g := rfl
  have hreg : f'.reg = f.reg.reorder τ := rfl
  have hstd : f'.resultStd = fun j => f.resultStd (τ j) := rfl
  have hres : f'.result = fun j => f.result (τ j) := h.inv _
  have hd : f.data = d := rfl
  have hd' : f'.data = d' := rfl
  have hl : f'.xLinPred = f.xLinPred := hr.linPred _
  have hy : f'.yHat = f.yHat := congrArg g.mean hl
  have hrank : f'.rank = f.rank := by simp only [Fit.rank, card_reorder τ]
  have hdt : f'.devianceTerms = f.devianceTerms := by
    simp only [Fit.devianceTerms, hg, hd, hd', hr.varW, hr.y, hstd, hr.logLikeTerms]
  have hdev : f'.deviance = f.deviance := by
    simp only [Fit.deviance, hdt, hd, hd', hr.freqSum]
  have hdisp : f'.dispersion = f.dispersion := by
    simp only [Fit.dispersion, hg, hdev, hrank, hd, hd', hr.nEff, hr.sumWeights]
  have hslw : f'.sumLogWeights = f.sumLogWeights := by
    simp only [Fit.sumLogWeights, Dataset.getVarianceWeights, hd, hd', hr.freqSum, hr.weights]
  have hndf : f'.ndf = f.ndf := by simp only [Fit.ndf, hrank, hd, hd', hr.nObs]
  have hfd : ∀ γ, f'.fisherDataStd (fun j => γ (τ j)) = fun i j => f.fisherDataStd γ (τ i) (τ j) := by
    intro γ
    simp only [Fit.fisherDataStd, hg, hd, hd', hr.linPred]
    exact hr.xConj_dotM _
  have hfs : ∀ γ, f'.fisherStd (fun j => γ (τ j)) = fun i j => f.fisherStd γ (τ i) (τ j) := by
    intro γ
    simp only [Fit.fisherStd, hfd, hreg]
    exact Reg.reorder_irlsMat τ _ _ _ _
  have hfi : ∀ β, f'.fisher (fun j => β (τ j)) = fun i j => f.fisher β (τ i) (τ j) := by
    intro β
    simp only [Fit.fisher, hd, hd', h.beta, hfs, h.fisher]
  have hinv : ∀ env : Env ℝ, OrderFree τ env →
      f'.fisherInv env = (f.fisherInv env).map fun m i j => m (τ i) (τ j) := by
    intro env he
    simp only [Fit.fisherInv, hres, hfi]
    exact he.inv _
  have hsc : ∀ β, f'.score (fun j => β (τ j)) = fun j => f.score β (τ j) := by
    intro β
    simp only [Fit.score, hg, hd, hd', h.beta, hr.linPred, hr.y, hr.xConj_dotV, hreg,
      Reg.reorder_gradient, h.score]
  have hdotM : ∀ A B : Mat ℝ (ncols b p) (ncols b p),
      Mat.dotM (fun i j => A (τ i) (τ j)) (fun i j => B (τ i) (τ j))
        = fun i j => Mat.dotM A B (τ i) (τ j) := by
    intro A B
    funext i j
    exact vdotBy_reorder τ (A (τ i)) fun l => B l (τ j)
  have hdot : ∀ u v : Vec ℝ (ncols b p), vdot (fun j => u (τ j)) (fun j => v (τ j)) = vdot u v :=
    fun u v => vdotBy_reorder τ u v
  have hdotV : ∀ (A : Mat ℝ (ncols b p) (ncols b p)) (v : Vec ℝ (ncols b p)),
      Mat.dotV (fun i j => A (τ i) (τ j)) (fun j => v (τ j)) = fun j => A.dotV v (τ j) := by
    intro A v; funext i; exact vdotBy_reorder τ (A (τ i)) v
  have hcov : ∀ env : Env ℝ, OrderFree τ env →
      f'.covariance env = (f.covariance env).map fun m i j => m (τ i) (τ j) := by
    intro env he
    unfold Fit.covariance
    rw [hinv env he]
    cases f.fisherInv env with
    | error e => rfl
    | ok A =>
      refine congrArg Except.ok ?_
      simp only [hdisp, hstd, hfd, hd, hd', h.fisher, hdotM]
  have hwz : ∀ env : Env ℝ, OrderFree τ env →
      f'.waldZ env = (f.waldZ env).map fun z j => z (τ j) := by
    intro env he
    unfold Fit.waldZ
    rw [hcov env he, hres]
    cases f.covariance env <;> rfl
  have hhat : ∀ env : Env ℝ, OrderFree τ env → f'.hat env = f.hat env := by
    intro env he
    unfold Fit.hat Fit.fisherStdInv
    rw [hstd, hfs, he.inv]
    cases env.inv (f.fisherStd f.resultStd) with
    | error e => rfl
    | ok A =>
      refine congrArg Except.ok ?_
      simp only [hg, hy, hl, hd, hd']
      funext i l
      have h1 : ∀ j, Mat.dotM (fun i j => A (τ i) (τ j))
            (fun j i => d'.xConj j i * f.g.link.dNatParam (f.xLinPred i)) j l
          = Mat.dotM A (fun j i => d.xConj j i * f.g.link.dNatParam (f.xLinPred i)) (τ j) l := by
        intro j
        simp only [Mat.dotM, hr.xConj]
        exact vdotBy_reorder τ (A (τ j)) fun m => d.xConj m l * f.g.link.dNatParam (f.xLinPred l)
      change (vdotBy (.matMat n n i l)
          (fun j => f.g.variance (f.yHat i) * f.g.link.dNatParam (f.xLinPred i) * d'.x i j)
          fun j => Mat.dotM (fun i j => A (τ i) (τ j))
            (fun j i => d'.xConj j i * f.g.link.dNatParam (f.xLinPred i)) j l) = _
      simp only [h1, hr.x]
      exact vdotBy_reorder τ (fun j => f.g.variance (f.yHat i) * f.g.link.dNatParam (f.xLinPred i)
        * d.x i j) fun j => Mat.dotM A (fun j i => d.xConj j i * f.g.link.dNatParam (f.xLinPred i)) j l
  have hlev : ∀ env : Env ℝ, OrderFree τ env → f'.leverage env = f.leverage env := by
    intro env he
    simp only [Fit.leverage, hhat env he]
  have hrr : f'.residResp = f.residResp := by
    simp only [Fit.residResp, hd, hd', hr.y, hy]
  have hrp : f'.residPear = f.residPear := by
    simp only [Fit.residPear, hd, hd', hr.varW, hg, hy, hrr]
  have hrd : f'.residDev = f.residDev := by funext i; simp only [Fit.residDev, hrr, hdt]
  have hdtl : ∀ env : Env ℝ, OrderFree τ env → f'.devianceTermsLoo env = f.devianceTermsLoo env := by
    intro env he
    simp only [Fit.devianceTermsLoo, hlev env he, hdt, hrp]
  have hdl : ∀ env : Env ℝ, OrderFree τ env → f'.dispersionLoo env = f.dispersionLoo env := by
    intro env he
    simp only [Fit.dispersionLoo, hg, hlev env he, hdt, hrp, hdev, hndf, hrank, hd, hd', hr.freqW,
      hr.freqSum, hr.weights, hr.freqs]
  exact
    { result := hres
      history := by
        change ((s.history.map (reorderStep τ)).map fun st => _) = _
        simp only [List.map_map]
        change _ = (s.history.map fun st => _).map (reorderStep τ)
        rw [List.map_map]
        refine List.map_congr_left fun st _ => ?_
        simp only [Function.comp, reorderStep, h.inv]
      nIter := rfl
      modelLike := rfl
      yHat := hy
      deviance := hdev
      dispersion := hdisp
      aic := by simp only [Fit.aic, hdev, hrank, hslw]
      bic := by
        have hm : f'.modelLike = f.modelLike := rfl
        simp only [Fit.bic, hrank, hslw, hd, hd', hr.nObs, hm]
      rss := by simp only [Fit.rss, hd, hd', hr.totalW, hrr]
      ndf := hndf
      score := hsc
      fisher := hfi
      covariance := hcov
      waldZ := hwz
      lrTestAgainst := fun β => by
        have hm : f'.modelLike = f.modelLike := rfl
        simp only [Fit.lrTestAgainst, hg, hd, hd', h.beta, hr.logLike, hreg,
          Reg.reorder_likelihood, hm]
      waldTestAgainst := fun β => by
        simp only [Fit.waldTestAgainst, hd, hd', h.beta, hstd, hfs]
        rw [show vsub (fun j => f.resultStd (τ j)) (fun j => d.transformBeta β (τ j))
          = fun j => vsub f.resultStd (d.transformBeta β) (τ j) from rfl, hdotV, hdot]
      scoreTestAgainst := fun env he β => by
        unfold Fit.scoreTestAgainst
        rw [hfi, hsc]
        dsimp only
        rw [he.inv (f.fisher β)]
        cases env.inv (f.fisher β) with
        | error e => rfl
        | ok A =>
          refine congrArg Except.ok ?_
          rw [hdotV, hdot]
      hat := hhat
      leverage := hlev
      cooks := fun env he => by
        simp only [Fit.cooks, hlev env he, hrp, hrank, hdisp]
      inflCoef := fun env he => by
        unfold Fit.inflCoef
        rw [hlev env he, hinv env he]
        cases f.leverage env with
        | error e => rfl
        | ok lev =>
          cases f.fisherInv env with
          | error e => rfl
          | ok A =>
            refine congrArg Except.ok ?_
            have hxe : ∀ j i, d'.xConjExt j i = d.xConjExt (τ j) i := by
              intro j i
              simp only [Dataset.xConjExt, Dataset.weightCols, hr.freqs, hr.weights]
              cases d.freqs <;> cases d.weights <;> simp only [Mat.tr, h.xExt]
            funext i j
            simp only [Mat.dotM, hg, hrr, hl, hd, hd', hxe]
            exact vdotBy_reorder τ (fun m => d.xConjExt m i
              * (f.g.link.adjustErrors (f.residResp i) (f.xLinPred i) / (-(lev i) + 1)))
              fun m => A m (τ j)
      residResp := hrr
      residPear := hrp
      residDev := hrd
      residWork := by
        funext i
        simp only [Fit.residWork, hrr, hg, hy, hl]
      residPearStd := fun env he => by simp only [Fit.residPearStd, hlev env he, hrp, hdisp]
      residDevStd := fun env he => by simp only [Fit.residDevStd, hlev env he, hrd, hdisp]
      residStudent := fun env he => by
        simp only [Fit.residStudent, hdtl env he, hdl env he, hg, hrr]
      pvalueWald := fun ds env he => by
        unfold Fit.pvalueWald
        rw [hwz env he, hg, hndf]
        cases f.waldZ env with
        | error e => rfl
        | ok z =>
          cases f.g.dispersed with
          | none => rfl
          | free =>
            change (Fit.unwrapDist (ds.studentT f.ndf)).map _
              = ((Fit.unwrapDist (ds.studentT f.ndf)).map _).map _
            cases ds.studentT f.ndf <;> rfl
      residQuantile := fun ds dist => by
        simp only [Fit.residQuantile, hdisp, hy, hd, hd', hr.y, Dataset.getVarianceWeights,
          hr.weights] }

end RelabelsExt

end GLM
