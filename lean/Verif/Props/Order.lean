/-
  C69: the order of the observations does not matter.
-/
import Verif.Spec.Order
import Verif.Lemmas.Congr
import Verif.Lemmas.Witness
import Verif.Props.Weights

namespace GLM
open Spec Matrix Scalar
variable {n p : ℕ} {b : Bool} (σ : Equiv.Perm (Fin n)) (d : Dataset ℝ n p b)

theorem perm_freq (k : Fin n) : freq (permuteRows σ d) k = freq d (σ k) := by
  simp only [freq, permuteRows]; cases d.freqs <;> rfl

theorem perm_reweights : Reweights d (permuteRows σ d) σ where
  y _ := rfl
  x _ := rfl
  offset := rfl
  weights := rfl
  std := rfl
  freq i := by
    simp only [perm_freq]
    rw [Finset.sum_eq_single (σ.symm i)]
    · simp
    · intro k hk hne
      exact absurd (by rw [← (Finset.mem_filter.mp hk).2, σ.symm_apply_apply]) hne
    · intro h; exact absurd (by simp) h

theorem perm_fromDataset (raw : Dataset ℝ n p false) (b : Bool) :
    Standardizer.fromDataset (permuteRows σ raw) b = Standardizer.fromDataset raw b := by
  have hW : ∀ k, (permuteRows σ raw).applyTotalWeights (vfill 1) k
      = raw.applyTotalWeights (vfill 1) (σ k) := by
    intro k
    simp only [Dataset.applyTotalWeights_real, totalWt, perm_freq, (perm_reweights σ raw).varWt]
    rfl
  have hx : ∀ k j, (permuteRows σ raw).x k j = raw.x (σ k) j := fun _ _ => rfl
  have hs : ∀ φ : Fin n → ℝ, ∑ k, φ (σ k) = ∑ i, φ i := fun φ => Equiv.sum_comp σ φ
  unfold Standardizer.fromDataset
  simp only [(perm_reweights σ raw).nEff, vsum_real, hW, hx, hs fun i => raw.applyTotalWeights (vfill 1) i]
  have h1 : ∀ j, ∑ k, raw.applyTotalWeights (vfill 1) (σ k) * raw.x (σ k) j
      = ∑ i, raw.applyTotalWeights (vfill 1) i * raw.x i j :=
    fun j => hs fun i => raw.applyTotalWeights (vfill 1) i * raw.x i j
  have h2 : ∀ (m : Vec ℝ p) j, ∑ k, raw.applyTotalWeights (vfill 1) (σ k)
        * ((raw.x (σ k) j - m j) * (raw.x (σ k) j - m j))
      = ∑ i, raw.applyTotalWeights (vfill 1) i * ((raw.x i j - m j) * (raw.x i j - m j)) :=
    fun m j => hs fun i => raw.applyTotalWeights (vfill 1) i
      * ((raw.x i j - m j) * (raw.x i j - m j))
  simp only [h1, h2]

theorem perm_finalize (raw : Dataset ℝ n p false) (std b : Bool) :
    (permuteRows σ raw).finalize std b = (raw.finalize std b).map (permuteRows σ) := by
  have hp : ∀ x : Mat ℝ n p, (fun k => Dataset.padded b x (σ k))
      = Dataset.padded b fun k => x (σ k) := by
    intro x; cases b <;> rfl
  unfold Dataset.finalize
  cases std
  · simp only [Bool.false_eq_true, if_false, Option.map_some, permuteRows, hp]
  · simp only [if_true, perm_fromDataset, Option.map_map]
    congr 1
    funext s
    simp only [Function.comp, permuteRows, hp]
    rfl

theorem perm_initGuess (env : Env ℝ) (g : Glm ℝ) :
    g.initGuess env (permuteRows σ d) = g.initGuess env d := by
  have h := perm_reweights σ d
  have hbar : (vmean? (permuteRows σ d).y).getD 0 = (vmean? d.y).getD 0 := by
    unfold vmean?
    split
    · rfl
    · simp only [Option.getD_some, vsum_real]
      congr 1
      exact Equiv.sum_comp σ d.y
  have hM : (permuteRows σ d).xConj.dotM (permuteRows σ d).x = d.xConj.dotM d.x := by
    have := h.xConj_dotM fun _ => 1
    simpa using this
  unfold Glm.initGuess
  dsimp only
  rw [hbar, hM]
  cases ho : d.linearOffset with
  | none =>
    have : (permuteRows σ d).linearOffset = none := by rw [h.offset, ho]; rfl
    rw [this]
    dsimp only
    have := h.xConj_dotV fun i => g.link.func (half * (d.y i + (vmean? d.y).getD 0))
    rw [← this]
    rfl
  | some off =>
    have : (permuteRows σ d).linearOffset = some fun k => off (σ k) := by rw [h.offset, ho]; rfl
    rw [this]
    dsimp only
    have := h.xConj_dotV (vsub (fun i => g.link.func (half * (d.y i + (vmean? d.y).getD 0))) off)
    rw [← this]
    rfl

/-- The whole run does not depend on the order. -/
theorem perm_core (env : Env ℝ) (g : Glm ℝ) (o : FitOptions ℝ (ncols b p)) :
    regressionCore env g (permuteRows σ d) o = regressionCore env g d o := by
  have h := perm_reweights σ d
  refine regressionCore_congr (h.irlsMatVec _ g) (h.logLike g) rfl rfl rfl rfl rfl ?_
  unfold initialGuess
  cases o.initGuess with
  | none => exact perm_initGuess σ d env g
  | some β => exact h.transformBeta β


section
variable (env : Env ℝ) (g : Glm ℝ) (o : FitOptions ℝ (ncols b p))
  (r : IrlsStep ℝ (ncols b p) × Irls ℝ (ncols b p))

theorem perm_samePoint :
    SamePoint (Fit.new g d o r.1 r.2) (Fit.new g (permuteRows σ d) o r.1 r.2) where
  g := rfl
  resultStd := rfl
  result := (perm_reweights σ d).inverseTransformBeta _
  modelLike := rfl
  reg := rfl

theorem perm_null (f f' : Fit ℝ n p b) (hd : f'.data = permuteRows σ f.data) (hg : f'.g = f.g)
    (ho : f'.options = f.options) : f'.nullModelFit env = f.nullModelFit env := by
  have h := perm_reweights σ f.data
  have hws : ∀ v : Vec ℝ n, (permuteRows σ f.data).weightedSum (fun k => v (σ k))
      = f.data.weightedSum v := by
    intro v
    rw [Dataset.weightedSum_real, Dataset.weightedSum_real]
    exact h.sum_total v
  have hy : (permuteRows σ f.data).weightedSum (permuteRows σ f.data).y
      = f.data.weightedSum f.data.y := hws _
  unfold Fit.nullModelFit Fit.nullIntercept
  rw [hd, h.sumWeights, hg, hy, ho]
  cases hoff : f.data.linearOffset with
  | none =>
    have : (permuteRows σ f.data).linearOffset = none := by rw [h.offset, hoff]; rfl
    rw [this]
  | some off =>
    have : (permuteRows σ f.data).linearOffset = some fun k => off (σ k) := by
      rw [h.offset, hoff]; rfl
    rw [this]
    dsimp only
    have h1 : f'.nullDataset (fun k => off (σ k)) = permuteRows σ (f.nullDataset off) := by
      unfold Fit.nullDataset
      rw [hd]
      rfl
    have h2 := hws fun i => f.g.logLikeNatural (f.data.y i) (f.g.link.natParam (off i))
    rw [h1]
    cases b
    · exact congrArg (fun z => Outcome.ok (z, vzeros)) h2
    · simp only [if_true]
      unfold regression
      rw [perm_core]
      cases regressionCore env f.g (f.nullDataset off)
        { FitOptions.default env with maxIter := f.options.maxIter } <;> rfl

theorem perm_hat (f f' : Fit ℝ n p b) (hd : f'.data = permuteRows σ f.data) (hs : SamePoint f f')
    (hy : ∀ k, f'.yHat k = f.yHat (σ k)) (hl : ∀ k, f'.xLinPred k = f.xLinPred (σ k)) :
    f'.hat env = (f.hat env).map fun h k l => h (σ k) (σ l) := by
  have h := perm_reweights σ f.data
  have hF : f'.fisherStd f'.resultStd = f.fisherStd f.resultStd := by
    simp only [Fit.fisherStd, h.fisherDataStd_eq hs rfl hd, hs.reg, hs.resultStd]
  have hx : ∀ k j, f'.data.x k j = f.data.x (σ k) j := by intro k j; rw [hd]; rfl
  have hxc : ∀ j k, f'.data.xConj j k = f.data.xConj j (σ k) := by
    intro j k
    rw [hd, Dataset.xConj_real, Dataset.xConj_real, totalWt, totalWt, perm_freq, h.varWt]
    rfl
  unfold Fit.hat Fit.fisherStdInv
  rw [hF]
  cases env.inv (f.fisherStd f.resultStd) with
  | error e => rfl
  | ok A =>
    refine congrArg Except.ok ?_
    funext k l
    simp only [Mat.dotM, vdotBy_real, hy, hl, hs.g, hx, hxc]

theorem perm_dispersionLoo (f f' : Fit ℝ n p b) (hd : f'.data = permuteRows σ f.data)
    (hs : SamePoint f f') (hp : ∀ k, f'.residPear k = f.residPear (σ k))
    (hdt : ∀ k, f'.devianceTerms k = f.devianceTerms (σ k))
    (hl : f'.leverage env = (f.leverage env).map fun v k => v (σ k)) :
    f'.dispersionLoo env = (f.dispersionLoo env).map fun v k => v (σ k) := by
  have h := perm_reweights σ f.data
  have hdev := h.deviance_eq hs rfl hd
  have hfw : ∀ (v v' : Vec ℝ n), (∀ k, v' k = v (σ k)) →
      ∀ k, f'.data.applyFreqWeights v' k = f.data.applyFreqWeights v (σ k) := by
    intro v v' hv k
    rw [hd, Dataset.applyFreqWeights_real, Dataset.applyFreqWeights_real, perm_freq, hv]
  have hfs : ∀ (v v' : Vec ℝ n), (∀ k, v' k = v (σ k)) → f'.data.freqSum v' = f.data.freqSum v := by
    intro v v' hv
    rw [hd, Dataset.freqSum_real, Dataset.freqSum_real]
    simp only [hv]
    exact h.sum_freq v
  have hnd : f'.ndf = f.ndf := by
    unfold Fit.ndf
    rw [hd, h.nObs]; rfl
  unfold Fit.dispersionLoo
  rw [hs.g, hl]
  cases f.g.dispersed with
  | none => rfl
  | free =>
    dsimp only
    cases f.leverage env with
    | error e => rfl
    | ok lev =>
      simp only [Except.map, bind, Except.bind, pure, Except.pure]
      have ht : ∀ k, f'.data.applyFreqWeights (fun i => f'.devianceTerms i
            + lev (σ i) / (1 - lev (σ i)) * (f'.residPear i * f'.residPear i)) k
          = f.data.applyFreqWeights (fun i => f.devianceTerms i
            + lev i / (1 - lev i) * (f.residPear i * f.residPear i)) (σ k) :=
        hfw _ _ fun k => by rw [hdt, hp]
      simp only [ht, hdev, hnd]
      have hw' : f'.data.weights = f.data.weights.map fun w k => w (σ k) := by rw [hd]; rfl
      have hf' : f'.data.freqs = f.data.freqs.map fun w k => w (σ k) := by rw [hd]; rfl
      rw [hw', hf']
      cases hw : f.data.weights with
      | none => cases hf : f.data.freqs <;> rfl
      | some w =>
        simp only [Option.map_some]
        refine congrArg Except.ok ?_
        funext k
        rw [hfs w (fun k => w (σ k)) fun _ => rfl,
          hfs (vmul w w) (vmul (fun k => w (σ k)) fun k => w (σ k)) fun _ => rfl,
          hfw w (fun k => w (σ k)) fun _ => rfl,
          hfw (vmul w w) (vmul (fun k => w (σ k)) fun k => w (σ k)) fun _ => rfl]
        rfl

/-- The statistics of a fit do not depend on the order. -/
theorem perm_fit : SameUpToOrder σ (Fit.new g d o r.1 r.2) (Fit.new g (permuteRows σ d) o r.1 r.2) := by
  have h := perm_reweights σ d
  have hs := perm_samePoint σ d g o r
  set f := Fit.new g d o r.1 r.2 with hf
  set f' := Fit.new g (permuteRows σ d) o r.1 r.2 with hf'
  have hsm := h.sameModel
  have hl : ∀ k, f'.xLinPred k = f.xLinPred (σ k) := fun k => h.linPred _ k
  have hy : ∀ k, f'.yHat k = f.yHat (σ k) := fun k => congrArg g.link.funcInv (hl k)
  have hrr : ∀ k, f'.residResp k = f.residResp (σ k) := fun k => by
    change d.y (σ k) - f'.yHat k = d.y (σ k) - f.yHat (σ k)
    rw [hy]
  have hvw : ∀ (v v' : Vec ℝ n), (∀ k, v' k = v (σ k)) →
      ∀ k, f'.data.applyVarWeights v' k = f.data.applyVarWeights v (σ k) := by
    intro v v' hv k
    rw [Dataset.applyVarWeights_real, Dataset.applyVarWeights_real, hv]
    exact congrArg (· * _) (h.varWt k)
  have hrp : ∀ k, f'.residPear k = f.residPear (σ k) := by
    intro k
    unfold Fit.residPear
    rw [hrr, hvw (fun i => recip (f.g.variance (f.yHat i))) _ fun i => by rw [hy]; rfl]
  have hdt : ∀ k, f'.devianceTerms k = f.devianceTerms (σ k) := by
    intro k
    unfold Fit.devianceTerms
    exact hvw (fun i => (f.g.logLikeSat (f.data.y i) - f.g.logLikeTerms f.data f.resultStd i) * two) _
      (fun i => by
        change (g.logLikeSat (d.y (σ i)) - g.logLikeNatural (d.y (σ i)) (g.link.natParam
          ((permuteRows σ d).linearPredictorStd r.1.guess i))) * two = _
        rw [h.linPred]; rfl) k
  have hrw : ∀ k, f'.residWork k = f.residWork (σ k) := by
    intro k
    unfold Fit.residWork
    dsimp only
    rw [hrr, hy, hl]; rfl
  have hhat : ∀ env, f'.hat env = (f.hat env).map fun h k l => h (σ k) (σ l) :=
    fun env => perm_hat σ env f f' rfl hs hy hl
  have hlev : ∀ env, f'.leverage env = (f.leverage env).map fun v k => v (σ k) := by
    intro env
    unfold Fit.leverage
    rw [hhat]
    cases f.hat env <;> rfl
  have hdisp := h.dispersion_eq hs rfl rfl
  have hnull : ∀ env, f'.nullModelFit env = f.nullModelFit env :=
    fun env => perm_null σ env f f' rfl rfl rfl
  have hlr : ∀ env, f'.lrTest env = f.lrTest env := fun env => by
    simp only [Fit.lrTest, Fit.nullLike, hnull]; rfl
  have hdev := h.deviance_eq hs rfl rfl
  have hcov := fun env => hsm.covariance env f f' hs rfl rfl
  have hfs : ∀ γ, f'.fisherStd γ = f.fisherStd γ := fun γ => by
    simp only [Fit.fisherStd, h.fisherDataStd_eq hs rfl rfl, hs.reg]
  have hloo : ∀ env, f'.dispersionLoo env = (f.dispersionLoo env).map fun v k => v (σ k) :=
    fun env => perm_dispersionLoo σ env f f' rfl hs hrp hdt (hlev env)
  have hrd : ∀ k, f'.residDev k = f.residDev (σ k) := fun k => by
    simp only [Fit.residDev, hrr, hdt]
  have hxo : ∀ k, f'.data.xOrig k = f.data.xOrig (σ k) := by
    intro k
    change (permuteRows σ d).xOrig k = d.xOrig (σ k)
    unfold Dataset.xOrig Dataset.features
    cases hst : d.standardizer with
    | none =>
      have : (permuteRows σ d).standardizer = none := hst
      rw [this]; cases b <;> rfl
    | some s =>
      have : (permuteRows σ d).standardizer = some s := hst
      rw [this]; cases b <;> rfl
  refine
    { result := hs.result
      history := ?_
      nIter := rfl
      modelLike := rfl
      predict := fun x off => by simp only [Fit.predict, hs.result]; rfl
      deviance := hdev
      dispersion := hdisp
      aic := hsm.aic f f' hs rfl rfl
      bic := hsm.bic f f' hs rfl rfl
      rss := ?_
      score := h.score_eq hs rfl rfl
      fisher := h.fisher_eq hs rfl rfl
      covariance := hcov
      waldZ := fun env => by simp only [Fit.waldZ, hcov, hs.result]
      lrTest := hlr
      waldTest := fun env => ?_
      scoreTest := fun env => ?_
      rSq := fun env => by simp only [Fit.rSq, hlr, hdev]
      yHat := hy
      residResp := hrr
      residPear := hrp
      residDev := hrd
      residWork := hrw
      residPart := fun k => ?_
      hat := hhat
      leverage := hlev
      cooks := fun env => ?_
      residDevStd := fun env => ?_
      residPearStd := fun env => ?_
      residStudent := fun env => ?_
      inflCoef := fun env => ?_ }
  · change (r.2.history.map fun st => _) = r.2.history.map fun st => _
    exact List.map_congr_left fun st _ => by rw [h.inverseTransformBeta]
  · simp only [Fit.rss, vsum_real, Dataset.applyTotalWeights_real, hrr]
    exact h.sum_total fun i => f.residResp i * f.residResp i
  · have hw : ∀ a, f'.waldTestAgainst a = f.waldTestAgainst a := fun a => by
      simp only [Fit.waldTestAgainst, hfs, hs.resultStd]
      rw [show f'.data.transformBeta a = f.data.transformBeta a from h.transformBeta a]
    simp only [Fit.waldTest, hnull, hw]
  · have hw : ∀ a, f'.scoreTestAgainst env a = f.scoreTestAgainst env a := fun a => by
      simp only [Fit.scoreTestAgainst, h.fisher_eq hs rfl rfl, h.score_eq hs rfl rfl]
    simp only [Fit.scoreTest, hnull, hw]
  · funext j
    have hfc : f'.featureCoef = f.featureCoef := by
      have := hs.result
      cases b
      · exact this
      · exact funext fun j => congrFun this _
    have hW : ∀ k, f'.data.applyTotalWeights (vfill 1) k = f.data.applyTotalWeights (vfill 1) (σ k) := by
      intro k
      rw [Dataset.applyTotalWeights_real, Dataset.applyTotalWeights_real]
      change totalWt (permuteRows σ d) k * _ = totalWt d (σ k) * _
      rw [totalWt, totalWt, perm_freq, h.varWt]
      rfl
    have h1 : ∀ j, ∑ i, f'.data.xOrig i j * f'.data.applyTotalWeights (vfill 1) i
        = ∑ i, f.data.xOrig i j * f.data.applyTotalWeights (vfill 1) i := by
      intro j
      simp only [hW, hxo]
      exact Equiv.sum_comp σ fun i => f.data.xOrig i j * f.data.applyTotalWeights (vfill 1) i
    have h2 : ∑ i, f'.data.applyTotalWeights (vfill 1) i
        = ∑ i, f.data.applyTotalWeights (vfill 1) i := by
      simp only [hW]
      exact Equiv.sum_comp σ fun i => f.data.applyTotalWeights (vfill 1) i
    unfold Fit.residPart
    simp only [hfc, hrw, vsum_real, h1, h2]
    cases b <;> simp only [hxo, if_true, Bool.false_eq_true, if_false]
  · unfold Fit.cooks
    rw [hlev, hdisp]
    cases f.leverage env with
    | error e => rfl
    | ok lev =>
      refine congrArg Except.ok ?_
      funext k
      simp only [hrp]; rfl
  · unfold Fit.residDevStd
    rw [hlev, hdisp]
    cases f.leverage env with
    | error e => rfl
    | ok lev =>
      refine congrArg Except.ok ?_
      funext k
      simp only [hrd]
  · unfold Fit.residPearStd
    rw [hlev, hdisp]
    cases f.leverage env with
    | error e => rfl
    | ok lev =>
      refine congrArg Except.ok ?_
      funext k
      simp only [hrp]
  · have hdl : f'.devianceTermsLoo env = (f.devianceTermsLoo env).map fun v k => v (σ k) := by
      unfold Fit.devianceTermsLoo
      rw [hlev]
      cases f.leverage env with
      | error e => rfl
      | ok lev =>
        refine congrArg Except.ok ?_
        funext k
        simp only [hdt, hrp]
    unfold Fit.residStudent
    rw [hdl, hs.g]
    cases f.devianceTermsLoo env with
    | error e => rfl
    | ok dl =>
      cases f.g.dispersed with
      | none =>
        refine congrArg Except.ok ?_
        funext k
        simp only [hrr]
      | free =>
        dsimp only
        rw [hloo]
        cases f.dispersionLoo env with
        | error e => rfl
        | ok pl =>
          refine congrArg Except.ok ?_
          funext k
          simp only [hrr]; rfl
  · have hxe : ∀ j k, f'.data.xConjExt j k = f.data.xConjExt j (σ k) := by
      intro j k
      rw [Dataset.xConjExt_real, Dataset.xConjExt_real]
      have h1 : totalWt f'.data k = totalWt f.data (σ k) := by
        change totalWt (permuteRows σ d) k = totalWt d (σ k)
        rw [totalWt, totalWt, perm_freq, h.varWt]
      have h2 : f'.data.xExt k j = f.data.xExt (σ k) j := by
        unfold Dataset.xExt
        cases b
        · simp only [hxo]
        · simp only [hxo]; rfl
      rw [h1, h2]
    unfold Fit.inflCoef Fit.fisherInv
    rw [hlev, h.fisher_eq hs rfl rfl, hs.result]
    cases f.leverage env with
    | error e => rfl
    | ok lev =>
      cases env.inv (f.fisher f.result) with
      | error e => rfl
      | ok A =>
        refine congrArg Except.ok ?_
        funext k j
        simp only [Mat.dotM, vdotBy_real, hxe, hrr, hl]
        rfl

end

/-- C69: for every family, penalty, tolerance, budget, weights and offset: the order in which the
observations are given does not matter.  The reordered data build when the original data do, the fits
succeed or fail alike, and successful fits agree in everything that belongs to the model and have the
same values for each observation. -/
theorem C69_row_order (σ : Equiv.Perm (Fin n)) {raw : Dataset ℝ n p false} {std : Bool}
    {d : Dataset ℝ n p b} (hd : raw.finalize std b = some d) :
    ∃ d', (permuteRows σ raw).finalize std b = some d' ∧
      ∀ (env : Env ℝ) (g : Glm ℝ) (o : FitOptions ℝ (ncols b p)),
        Related (· = ·) (SameUpToOrder σ) (regression env g d o) (regression env g d' o) := by
  refine ⟨permuteRows σ d, by rw [perm_finalize, hd]; rfl, fun env g o => ?_⟩
  unfold regression
  rw [perm_core]
  cases regressionCore env g d o with
  | panic => exact .panic
  | diverge => exact .diverge
  | err e => exact .err rfl
  | ok r => exact .ok (perm_fit σ d g o r)

/-- The same for data that cannot be built: both builds panic. -/
theorem C69_build (σ : Equiv.Perm (Fin n)) (raw : Dataset ℝ n p false) (std b : Bool) :
    ((permuteRows σ raw).finalize std b).isSome = (raw.finalize std b).isSome := by
  rw [perm_finalize]
  cases raw.finalize std b <;> rfl

example : ∃ d : Dataset ℝ 3 1 true, (exRaw ![0, 1, 4]).finalize true true = some d :=
  exRaw_finalize _ _ _

end GLM
