/-
  C13: whole fits when all variance weights are multiplied by a constant.
-/
import Verif.Spec.WeightUnits
import Verif.Props.VarWeights
import Verif.Props.ResponseUnits

namespace GLM
open Spec Matrix
variable {n p : ℕ} {b : Bool} {c : ℝ} {env : Env ℝ} {fam : Family}

section problem
variable (raw : Dataset ℝ n p false)

theorem weights_linPred (β : Vec ℝ (ncols b p)) (i : Fin n) :
    linPred (scaleWeights raw c) b β i = linPred raw b β i := rfl

theorem weights_scoreVec (g : Glm ℝ) (β : Vec ℝ (ncols b p)) :
    scoreVec g (scaleWeights raw c) b β = c • scoreVec g raw b β := by
  funext j
  simp only [scoreVec, Pi.smul_apply, smul_eq_mul, Finset.mul_sum, scaleWeights_totalWt]
  refine Finset.sum_congr rfl fun i _ => ?_
  simp only [← mul_assoc]
  rfl

theorem weights_fisherMat (g : Glm ℝ) (β : Vec ℝ (ncols b p)) :
    fisherMat g (scaleWeights raw c) b β = c • fisherMat g raw b β := by
  ext j k
  simp only [fisherMat, Matrix.smul_apply, smul_eq_mul, Finset.mul_sum, scaleWeights_totalWt]
  refine Finset.sum_congr rfl fun i _ => ?_
  simp only [← mul_assoc]
  rfl

theorem weights_gram : Spec.gram (scaleWeights raw c) b = c • Spec.gram raw b := by
  ext j k
  simp only [Spec.gram, Matrix.smul_apply, smul_eq_mul, Finset.mul_sum, scaleWeights_totalWt]
  refine Finset.sum_congr rfl fun i _ => ?_
  simp only [← mul_assoc]
  rfl

theorem weights_logLik (g : Glm ℝ) (β : Vec ℝ (ncols b p)) :
    logLik g (scaleWeights raw c) b β = c * logLik g raw b β := by
  simp only [logLik, Finset.mul_sum, scaleWeights_totalWt]
  refine Finset.sum_congr rfl fun i _ => ?_
  simp only [← mul_assoc]
  rfl

/-- The rescaled problem is a twin of the original one. -/
theorem weights_twin (hc : 0 < c) (g : Glm ℝ) {eps l1 l2 : ℝ} (h1 : l1 ≤ 0) (σ : Fin p → ℝ) :
    Twin eps (1 : Matrix (Fin (ncols b p)) (Fin (ncols b p)) ℝ) 0 c 0 g g (scaleWeights raw c) raw l1
      (c * l2) l1 l2 σ σ where
  invertible := ⟨1, one_mul _, one_mul _⟩
  pos := hc
  obj β := by
    rw [one_mulVec, add_zero, add_zero, penLogLik, penLogLik, weights_logLik, penalty_noL1 h1,
      penalty_noL1 h1, ridgeMat_smul hc.le, smul_mulVec, dotProduct_smul, smul_eq_mul]
    ring
  score β := by
    rw [one_mulVec, add_zero, transpose_one, one_mulVec, penScore_eq h1, penScore_eq h1,
      weights_scoreVec, ridgeMat_smul hc.le, smul_mulVec, smul_sub]
  newton β := by
    rw [one_mulVec, add_zero, transpose_one, Matrix.one_mul, Matrix.mul_one, newtonMat, newtonMat,
      weights_fisherMat, ridgeMat_smul hc.le, weights_gram, smul_add, smul_add, smul_comm c eps]

end problem

section run
variable {raw : Dataset ℝ n p false} {std : Bool} {d : Dataset ℝ n p b}
  {o : FitOptions ℝ (ncols b p)}

theorem weights_inverse (d : Dataset ℝ n p b) (γ : Vec ℝ (ncols b p)) :
    (scaleWeights d c).inverseTransformBeta γ = d.inverseTransformBeta γ := by
  cases b <;> rfl

theorem weights_transform (d : Dataset ℝ n p b) (γ : Vec ℝ (ncols b p)) :
    (scaleWeights d c).transformBeta γ = d.transformBeta γ := by
  cases b <;> rfl

theorem weights_extStep (d : Dataset ℝ n p b) : extStep (scaleWeights d c) = extStep d := by
  funext st
  simp only [extStep, weights_inverse]

theorem weights_twinStep :
    twinStep (b := b) (b' := b) (p := p) (p' := p) 1 0 c 0 = scaleStep c := by
  funext st
  simp only [twinStep, scaleStep, one_mulVec, add_zero]

theorem extStep_injective (hd : raw.finalize std b = some d) : Function.Injective (extStep d) := by
  intro a a' h
  have h1 := congrArg IrlsStep.guess h
  have h2 := congrArg IrlsStep.like h
  obtain ⟨u, l⟩ := a
  obtain ⟨u', l'⟩ := a'
  have e1 : u = u' := inverse_inj hd h1
  have e2 : l = l' := h2
  rw [e1, e2]

theorem extStep_scaleStep (st : IrlsStep ℝ (ncols b p)) :
    scaleStep c (extStep d st) = extStep d (scaleStep c st) := rfl

/-- The starting points agree. -/
theorem weights_start (he : env.Exact) (hdec : env.Decides) (hc : 0 < c) (g : Glm ℝ)
    (hd : raw.finalize std b = some d) :
    initialGuess env g (scaleWeights d c) (scaleOptions c o) = initialGuess env g d o := by
  unfold initialGuess
  cases ho : o.initGuess with
  | some β => simp only [scaleOptions, ho, weights_transform]
  | none =>
    simp only [scaleOptions, ho]
    rw [initGuess_target (C13_build hc hd), initGuess_target hd]
    have hA : (scaleWeights d c).xConj.dotM (scaleWeights d c).x
        = fun j k => c * d.xConj.dotM d.x j k := by
      have e := scaleWeights_xConj_dotM d (c := c) fun _ => 1
      simpa only [mul_one] using e
    have hv := scaleWeights_xConj_dotV d (c := c) fun i => (startTargets g raw).y i - offset raw i
    have ht : (fun i => (startTargets g (scaleWeights raw c)).y i - offset (scaleWeights raw c) i)
        = fun i => (startTargets g raw).y i - offset raw i := rfl
    rw [ht, hA, hv]
    have hm : Matrix.of (fun j k => c * d.xConj.dotM d.x j k) = c • Matrix.of (d.xConj.dotM d.x) := rfl
    have hsym : (Matrix.of (d.xConj.dotM d.x)).IsSymm := by rw [dotM_gramInt]; exact gramInt_symm
    by_cases hu : IsUnit (Matrix.of (d.xConj.dotM d.x)).det
    · obtain ⟨x, hx⟩ := he.solveh_complete
        (d.xConj.dotV fun i => (startTargets g raw).y i - offset raw i) hsym hu
      have h1 := he.solveh_sound hsym hx
      have h2 : env.solveh (fun j k => c * d.xConj.dotM d.x j k)
          (fun j => c * d.xConj.dotV (fun i => (startTargets g raw).y i - offset raw i) j) = .ok x := by
        refine he.solveh_eq ?_ ?_ ?_
        · rw [hm]; exact hsym.smul c
        · rw [hm, det_smul]
          exact ((isUnit_iff_ne_zero.mpr hc.ne').pow _).mul hu
        · rw [hm, smul_mulVec, h1]; rfl
      rw [hx, h2]
    · have hu' : ¬ IsUnit (Matrix.of (fun j k => c * d.xConj.dotM d.x j k)).det := by
        rw [hm, det_smul, IsUnit.mul_iff]
        exact fun h => hu h.2
      rw [hdec.solveh _ hu, hdec.solveh _ hu']

/-- **C13** (the course of a fit): with all variance weights (and the L2 strength, if any) multiplied
by `c` the fit visits the same coefficients, takes the same number of steps and ends the same way,
with the same start, for every family, machine epsilon, budget and start.  The tolerance is zero: a
positive tolerance is compared with unscaled differences of likelihoods. -/
theorem C13_run (he : env.Exact) (hdec : env.Decides) (hc : 0 < c)
    (hd : raw.finalize std b = some d) (h1 : o.l1 ≤ 0) (ht : o.tol = 0) :
    Related (ErrorAfterWeights c) (CourseAfterWeights c) (regression env fam.glm d o)
      (regression env fam.glm (scaleWeights d c) (scaleOptions c o)) := by
  have hd' := C13_build hc hd
  have hr := twin_run (d := scaleWeights d c) (o := scaleOptions c o) (d' := d) (o' := o) he hdec
    (Family.lawfulAdj fam) (Family.lawfulAdj fam) (weights_twin raw hc fam.glm h1 (scale d)) hd' hd h1
    h1 (.inl ⟨ht, ht⟩) rfl
    (by rw [weights_inverse, weights_start he hdec hc fam.glm hd, one_mulVec, add_zero])
  generalize regression env fam.glm (scaleWeights d c) (scaleOptions c o) = x at hr
  generalize regression env fam.glm d o = y at hr
  cases hr with
  | panic => exact .panic
  | diverge => exact .diverge
  | err e =>
    cases e with
    | linalg => exact .err .linalg
    | @maxIter m h h' hh =>
      rw [weights_extStep, weights_twinStep, List.map_map] at hh
      have e : scaleStep c ∘ extStep d = extStep d ∘ scaleStep (b := b) c := rfl
      rw [e, ← List.map_map] at hh
      have e2 := (extStep_injective hd).list_map hh
      subst e2
      exact .err (.maxIter m h')
  | ok h =>
    exact .ok ⟨by rw [h.result, one_mulVec, add_zero], by rw [h.history, weights_twinStep], h.nIter⟩

end run

section statistics
variable {raw : Dataset ℝ n p false} {std : Bool} {d : Dataset ℝ n p b} {env₁ env₂ env' : Env ℝ}
  {o o' : FitOptions ℝ (ncols b p)} {f f' : Fit ℝ n p b}

/-- **C13** (the fitted models): two fits, of the data and of the data with all variance weights
multiplied by `c`, that report the same coefficients report the same fitted values, effective sample
size, dispersion, leverages and influences; likelihoods, deviances, scores, informations and test
statistics are multiplied by `c`; the covariance is *divided* by `c`, and z statistics and
standardized residuals are multiplied by its root. -/
theorem C13_statistics (he : env'.Exact) (hdec : env'.Decides) (hc : 0 < c)
    (hd : raw.finalize std b = some d) (hf : regression env₁ fam.glm d o = .ok f)
    (hf' : regression env₂ fam.glm (scaleWeights d c) o' = .ok f') (hres : f'.result = f.result)
    (h1 : o.l1 ≤ 0) (h1' : o'.l1 ≤ 0) (h2 : o'.l2 = c * o.l2) : FitAfterWeights c env' f f' := by
  have hd' := C13_build hc hd
  have hg := Family.lawfulAdj fam
  have hc0 := hc.ne'
  obtain ⟨g1, g2, g3, hr⟩ := regression_ofRaw hd hf
  obtain ⟨k1, k2, k3, hr'⟩ := regression_ofRaw hd' hf'
  obtain ⟨a1, a2, a3, a4, a5, -⟩ := C10_external hg hd h1 hf
  obtain ⟨b1, b2, b3, b4, b5, -⟩ := C10_external hg hd' h1' hf'
  have htw := weights_twin (b := b) (eps := 0) (l2 := o.l2) raw hc fam.glm h1 (scale d)
  have hsc : scale (scaleWeights d c) = scale d := rfl
  have hpen : ∀ β, penLogLik fam.glm (scaleWeights raw c) b o'.l1 o'.l2 (scale d) β
      = c * penLogLik fam.glm raw b o.l1 o.l2 (scale d) β := by
    intro β
    have e := htw.obj β
    rw [one_mulVec, add_zero, add_zero, ← h2] at e
    rw [← e]
    simp only [penLogLik, penalty, max_eq_right h1, max_eq_right h1']
  have hscore : ∀ β, f'.score β = fun j => c * f.score β j := by
    intro β
    have e := htw.score β
    rw [one_mulVec, add_zero, transpose_one, one_mulVec, ← h2] at e
    rw [a2, b2, hsc]
    have e' : penScore fam.glm (scaleWeights raw c) b o'.l1 o'.l2 (scale d) β
        = penScore fam.glm (scaleWeights raw c) b o.l1 o'.l2 (scale d) β := by
      simp only [penScore_eq h1, penScore_eq h1']
    rw [e', ← e]; rfl
  have hfisher : ∀ β, Matrix.of (f'.fisher β) = c • Matrix.of (f.fisher β) := by
    intro β
    rw [b3, a3, weights_fisherMat, h2, ridgeMat_smul hc.le, hsc, smul_add]
  have hdet : ∀ β, IsUnit (Matrix.of (f'.fisher β)).det ↔ IsUnit (Matrix.of (f.fisher β)).det :=
    fun β => by
    rw [hfisher, det_smul, IsUnit.mul_iff]
    exact and_iff_right (isUnit_iff_ne_zero.mpr (pow_ne_zero _ hc0))
  have hinv : ∀ β, IsUnit (Matrix.of (f.fisher β)).det →
      (Matrix.of (f'.fisher β))⁻¹ = c⁻¹ • (Matrix.of (f.fisher β))⁻¹ := fun β hu => by
    rw [hfisher]
    refine inv_eq_right_inv ?_
    rw [Matrix.smul_mul, Matrix.mul_smul, mul_nonsing_inv _ hu, smul_smul, mul_inv_cancel₀ hc0,
      one_smul]
  have hyh : f'.yHat = f.yHat := funext fun i => by
    rw [hr'.mean, hr.mean, g1, k1, hres]; rfl
  have hlin : f'.xLinPred = f.xLinPred := funext fun i => by
    rw [hr'.lin, hr.lin, hres]; rfl
  have hrr : f'.residResp = f.residResp := funext fun i => by
    rw [hr'.residResp, hr.residResp, g1, k1, hres]; rfl
  have hdt : ∀ i, f'.devianceTerms i = c * f.devianceTerms i := fun i => by
    rw [hr'.devianceTerms, hr.devianceTerms, g1, k1, hres, scaleWeights_varWt, mul_assoc]; rfl
  have hdev : f'.deviance = c * f.deviance := by
    simp only [Fit.deviance, Dataset.freqSum_real, hdt, Finset.mul_sum]
    refine Finset.sum_congr rfl fun i _ => ?_
    rw [Dataset.finalize_freq hr'.built, Dataset.finalize_freq hr.built, scaleWeights_freq]
    ring
  have hrk : f'.rank = f.rank := rfl
  have hgg : f'.g = f.g := k1.trans g1.symm
  have hdd : f'.data = scaleWeights f.data c := by rw [k2, g2]
  have hne : f'.data.nEff = f.data.nEff := by rw [hdd, C13_nEff _ hc]
  have hdisp : f'.dispersion = f.dispersion := by
    simp only [Fit.dispersion, hgg, hdev, hrk, hdd, C13_nEff _ hc, scaleWeights_sumWeights]
    cases f.g.dispersed with
    | none => rfl
    | free =>
      dsimp only
      by_cases hq : Scalar.le f.data.nEff f.rank = true
      · rw [if_pos hq, if_pos hq]; simp
      · rw [if_neg hq, if_neg hq, mul_left_comm, mul_div_mul_left _ _ hc0]
  have hp : ∀ i, f'.residPear i = Real.sqrt c * f.residPear i := fun i => by
    rw [C51_pearson hd' hf', C51_pearson hd hf, hres, scaleWeights_varWt, mul_div_assoc,
      Real.sqrt_mul hc.le, mul_assoc]
    rfl
  have hp2 : ∀ i, f'.residPear i * f'.residPear i = c * (f.residPear i * f.residPear i) := fun i => by
    rw [hp]
    linear_combination (f.residPear i) ^ 2 * Real.sq_sqrt hc.le
  have hrd : ∀ i, f'.residDev i = Real.sqrt c * f.residDev i := fun i => by
    rw [Fit.residDev, Fit.residDev, hdt, hrr]
    simp only [sqrt_real]
    rw [Real.sqrt_mul hc.le]; ring
  have hwork : f'.residWork = f.residWork := by
    unfold Fit.residWork
    rw [hgg, hrr, hyh, hlin]
  have hhat : f'.hat env' = f.hat env' := by
    by_cases hu : IsUnit (Matrix.of (f.fisher f.result)).det
    · obtain ⟨H, hH, -⟩ := C40_available hd hf he hu
      obtain ⟨H', hH', -⟩ := C40_available hd' hf' he (by rw [hres]; exact (hdet _).mpr hu)
      rw [hH, hH']
      refine congrArg Except.ok (Matrix.of.injective ?_)
      rw [(hat_eq hg hd hf he hH).2, (hat_eq hg hd' hf' he hH').2, hres, hinv _ hu]
      have q : diagonal (fun i => totalWt (scaleWeights raw c) i
            * fam.glm.link.dNatParam (linPred (scaleWeights raw c) b f.result i))
          = c • diagonal (fun i => totalWt raw i
            * fam.glm.link.dNatParam (linPred raw b f.result i)) := by
        rw [← diagonal_smul]; congr 1; funext i
        rw [scaleWeights_totalWt, mul_assoc]; rfl
      rw [q]
      change diagonal (fun i => fam.glm.variance (meanAt fam.glm raw b f.result i)
        * fam.glm.link.dNatParam (linPred raw b f.result i)) * design b raw.x * _
          * (design b raw.x)ᵀ * _ = _
      simp only [Matrix.smul_mul, Matrix.mul_smul, smul_smul]
      rw [mul_inv_cancel₀ hc0, one_smul]
    · rw [hat_singular hdec hd hf hu,
        hat_singular hdec hd' hf' fun hc => hu ((hdet _).mp (by rw [← hres]; exact hc))]
  have hlev : f'.leverage env' = f.leverage env' := by unfold Fit.leverage; rw [hhat]
  have hcov : f'.covariance env' = (f.covariance env').map fun V j k => c⁻¹ * V j k := by
    by_cases hu : IsUnit (Matrix.of (f.fisher f.result)).det
    · obtain ⟨V, hV⟩ := covariance_regular he hu
      obtain ⟨V', hV'⟩ := covariance_regular (f := f') he (by rw [hres]; exact (hdet _).mpr hu)
      rw [hV, hV']
      refine congrArg Except.ok (Matrix.of.injective ?_)
      change Matrix.of V' = c⁻¹ • Matrix.of V
      rw [(covariance_eq hg hd hf he hV).2, (covariance_eq hg hd' hf' he hV').2, hres, hinv _ hu,
        weights_fisherMat, hdisp]
      simp only [Matrix.smul_mul, Matrix.mul_smul, smul_smul]
      congr 1
      field_simp
    · rw [covariance_singular hdec hu,
        covariance_singular (f := f') hdec fun hc => hu ((hdet _).mp (by rw [← hres]; exact hc))]
      rfl
  refine
    { yHat := hyh
      predict := fun x off => by unfold Fit.predict; rw [hgg, hres]
      modelLike := by rw [a1, b1, hsc, hres, hpen]
      deviance := hdev
      rss := ?_
      nEff := hne
      dispersion := hdisp
      residResp := hrr
      residWork := hwork
      residPart := ?_
      residPear := funext hp
      residDev := funext hrd
      score := hscore
      fisher := fun β => Matrix.of.injective (hfisher β)
      hat := hhat
      leverage := hlev
      inflCoef := ?_
      covariance := hcov
      waldZ := ?_
      cooks := ?_
      residPearStd := ?_
      residDevStd := ?_
      lrAgainst := fun β => by rw [a4, b4, hsc, hres, hpen, hpen]; ring
      waldAgainst := fun β => ?_
      scoreAgainst := fun β => ?_ }
  · rw [hr'.rss, hr.rss, g1, k1, Finset.mul_sum]
    refine Finset.sum_congr rfl fun i _ => ?_
    rw [hres, scaleWeights_totalWt, mul_assoc]; rfl
  · have hx : f'.data.xOrig = f.data.xOrig := by
      rw [Dataset.finalize_xOrig hr'.built, Dataset.finalize_xOrig hr.built]; rfl
    have hW : ∀ i, f'.data.applyTotalWeights (vfill 1) i
        = c * f.data.applyTotalWeights (vfill 1) i := fun i => by
      rw [hdd]
      simp only [Dataset.applyTotalWeights_real, scaleWeights_totalWt, mul_assoc]
    have hfc : f'.featureCoef = f.featureCoef := by
      cases b
      · exact hres
      · funext j; exact congrFun hres j.succ
    unfold Fit.residPart
    simp only [hx, hfc, hwork, hW, vsum_real, ← Finset.mul_sum, mul_left_comm _ c,
      mul_div_mul_left _ _ hc0]
  · have hx : ∀ j i, f'.data.xConjExt j i = c * f.data.xConjExt j i := fun j i => by
      rw [Dataset.xConjExt_real, Dataset.xConjExt_real, hdd, scaleWeights_totalWt, mul_assoc]
      have e : (scaleWeights f.data c).xExt = f.data.xExt := by cases b <;> rfl
      rw [e]
    unfold Fit.inflCoef Fit.fisherInv
    rw [hlev]
    cases f.leverage env' with
    | error e => rfl
    | ok lev =>
      by_cases hu : IsUnit (Matrix.of (f.fisher f.result)).det
      · have hu' : IsUnit (Matrix.of (f'.fisher f'.result)).det := by
          rw [hres]; exact (hdet _).mpr hu
        rw [he.inv_eq hu, he.inv_eq hu', hres, hinv _ hu]
        refine congrArg Except.ok (funext fun i => funext fun j => ?_)
        simp only [Mat.dotM, Mat.tr, vdotBy_real, hx, hgg, hrr, hlin]
        refine Finset.sum_congr rfl fun k _ => ?_
        change c * _ * _ * (c⁻¹ * _) = _
        field_simp
        rfl
      · have hu' : ¬ IsUnit (Matrix.of (f'.fisher f'.result)).det := by
          rw [hres]; exact fun h => hu ((hdet _).mp h)
        rw [hdec.inv hu, hdec.inv hu']
        rfl
  · unfold Fit.waldZ
    rw [hcov]
    cases hV : f.covariance env' with
    | error e => rfl
    | ok V =>
      refine congrArg Except.ok (funext fun j => ?_)
      simp only [sqrt_real]
      rw [hres, Real.sqrt_mul (inv_nonneg.mpr hc.le), Real.sqrt_inv]
      by_cases h0 : Real.sqrt (V j j) = 0
      · simp [h0]
      · have := (Real.sqrt_pos.mpr hc).ne'
        field_simp
  · unfold Fit.cooks
    rw [hlev, hdisp, hrk]
    cases f.leverage env' with
    | error e => rfl
    | ok lev =>
      refine congrArg Except.ok (funext fun i => ?_)
      dsimp only
      rw [hp2]; ring
  · unfold Fit.residPearStd
    rw [hlev, hdisp]
    cases f.leverage env' with
    | error e => rfl
    | ok lev =>
      refine congrArg Except.ok (funext fun i => ?_)
      dsimp only
      rw [hp, mul_div_assoc]
  · unfold Fit.residDevStd
    rw [hlev, hdisp]
    cases f.leverage env' with
    | error e => rfl
    | ok lev =>
      refine congrArg Except.ok (funext fun i => ?_)
      dsimp only
      rw [hrd, mul_div_assoc]
  · rw [a5, b5, ← a3, ← b3, hfisher, hres, smul_mulVec, dotProduct_smul, smul_eq_mul]
  · by_cases hu : IsUnit (Matrix.of (f.fisher β)).det
    · rw [scoreTest_regular he hu, scoreTest_regular he ((hdet β).mpr hu), hinv β hu, hscore]
      refine congrArg Except.ok ?_
      have e : (fun j => c * f.score β j) = c • f.score β := rfl
      rw [e, smul_mulVec, mulVec_smul, smul_dotProduct, dotProduct_smul, dotProduct_smul]
      simp only [smul_eq_mul]
      field_simp
    · rw [scoreTest_singular hdec hu, scoreTest_singular hdec fun h => hu ((hdet β).mp h)]
      rfl

variable (he : env'.Exact) (hdec : env'.Decides) (hc : 0 < c)
  (hd : raw.finalize std b = some d) (hf : regression env₁ fam.glm d o = .ok f)
  (hf' : regression env₂ fam.glm (scaleWeights d c) o' = .ok f') (hres : f'.result = f.result)
  (h1 : o.l1 ≤ 0) (h1' : o'.l1 ≤ 0) (h2 : o'.l2 = c * o.l2)
include he hdec hc hd hf hf' hres h1 h1' h2

/-- **C13** (information criteria): with positive variance weights, `aic` and `bic` move by the change
of the deviance or likelihood and by the logarithm of the factor for every observation. -/
theorem C13_criteria (hw : ∀ i, 0 < varWt raw i) :
    f'.aic = f.aic + (c - 1) * f.deviance - 2 * (obsCount raw * Real.log c) ∧
    f'.bic = f.bic - 2 * ((c - 1) * f.modelLike) - 2 * (obsCount raw * Real.log c) := by
  have H := C13_statistics he hdec hc hd hf hf' hres h1 h1' h2
  have hd' := C13_build hc hd
  obtain ⟨g1, g2, g3, hr⟩ := regression_ofRaw hd hf
  obtain ⟨k1, k2, k3, hr'⟩ := regression_ofRaw hd' hf'
  have hlw : f'.sumLogWeights = f.sumLogWeights + obsCount raw * Real.log c := by
    simp only [Fit.sumLogWeights, Dataset.freqSum_real, Dataset.getVarianceWeights_real,
      Dataset.finalize_freq hr'.built, Dataset.finalize_freq hr.built,
      Dataset.finalize_varWt hr'.built, Dataset.finalize_varWt hr.built, scaleWeights_freq,
      scaleWeights_varWt, ln_real, obsCount, Finset.sum_mul, ← Finset.sum_add_distrib]
    refine Finset.sum_congr rfl fun i _ => ?_
    rw [Real.log_mul hc.ne' (hw i).ne']; ring
  have hrk : f'.rank = f.rank := rfl
  have hno : f'.data.nObs = f.data.nObs := by rw [k2, g2]; rfl
  constructor
  · simp only [Fit.aic, hlw, H.deviance, hrk, two_real]; ring
  · simp only [Fit.bic, hlw, H.modelLike, hrk, hno, two_real]; ring

/-- **C13** (studentized residuals): they are multiplied by the root of `c` like the other
standardized residuals.  (If the weights were not given, no single observation may carry all of the
frequency.) -/
theorem C13_student (hfr : raw.weights = none → ∀ i, freq raw i ≠ obsCount raw) :
    f'.residStudent env' = (f.residStudent env').map fun v i => Real.sqrt c * v i := by
  have H := C13_statistics he hdec hc hd hf hf' hres h1 h1' h2
  have hc0 := hc.ne'
  have hd' := C13_build hc hd
  obtain ⟨g1, g2, g3, hr⟩ := regression_ofRaw hd hf
  obtain ⟨k1, k2, k3, hr'⟩ := regression_ofRaw hd' hf'
  have hgg : f'.g = f.g := k1.trans g1.symm
  have hdd : f'.data = scaleWeights f.data c := by rw [k2, g2]
  have hp2 : ∀ i, f'.residPear i * f'.residPear i = c * (f.residPear i * f.residPear i) := fun i => by
    rw [H.residPear]
    linear_combination (f.residPear i) ^ 2 * Real.sq_sqrt hc.le
  have hdt : ∀ i, f'.devianceTerms i = c * f.devianceTerms i := fun i => by
    rw [hr'.devianceTerms, hr.devianceTerms, g1, k1, hres, scaleWeights_varWt, mul_assoc]; rfl
  have hloo : f'.devianceTermsLoo env' = (f.devianceTermsLoo env').map fun v i => c * v i := by
    unfold Fit.devianceTermsLoo
    rw [H.leverage]
    cases f.leverage env' with
    | error e => rfl
    | ok lev =>
      refine congrArg Except.ok (funext fun i => ?_)
      dsimp only
      rw [hp2, hdt]; ring
  have hwt : f.data.weights = raw.weights := by
    rw [g2]; exact (Dataset.finalize_cases hd).2.2.1
  have hrk : f'.rank = f.rank := rfl
  have hdl : f.g.dispersed = .free → f'.dispersionLoo env' = f.dispersionLoo env' := by
    intro hfree
    unfold Fit.dispersionLoo
    rw [hgg, hfree, H.leverage, H.deviance]
    cases f.leverage env' with
    | error e => rfl
    | ok lev =>
      have ht : ∀ i, f'.data.applyFreqWeights (fun i => f'.devianceTerms i + lev i / (1 - lev i)
            * (f'.residPear i * f'.residPear i)) i
          = c * f.data.applyFreqWeights (fun i => f.devianceTerms i + lev i / (1 - lev i)
            * (f.residPear i * f.residPear i)) i := fun i => by
        rw [hdd]
        simp only [Dataset.applyFreqWeights_real, hp2, hdt, scaleWeights_freq]; ring
      have hw' : f'.data.weights = some fun i => c * varWt f.data i := by rw [hdd]; rfl
      have hfa : ∀ v i, f'.data.applyFreqWeights v i = freq f.data i * v i := fun v i => by
        rw [hdd, Dataset.applyFreqWeights_real]; rfl
      have hfs : ∀ v, f'.data.freqSum v = ∑ i, freq f.data i * v i := fun v => by
        rw [hdd, Dataset.freqSum_real]; rfl
      rw [hw']
      cases hw : f.data.weights with
      | some w =>
        have hv : ∀ i, varWt f.data i = w i := fun i => by simp [varWt, hw]
        refine congrArg Except.ok (funext fun i => ?_)
        dsimp only
        rw [ht, hrk]
        have e1 : ∑ k, freq f.data k * (c * w k) = c * ∑ k, freq f.data k * w k := by
          rw [Finset.mul_sum]; exact Finset.sum_congr rfl fun k _ => by ring
        have e2 : ∑ k, freq f.data k * (c * w k * (c * w k))
            = c * c * ∑ k, freq f.data k * (w k * w k) := by
          rw [Finset.mul_sum]; exact Finset.sum_congr rfl fun k _ => by ring
        simp only [hfa, hfs, vmul, hv, e1, e2, Dataset.applyFreqWeights_real, Dataset.freqSum_real]
        set S1 := ∑ k, freq f.data k * w k
        set S2 := ∑ k, freq f.data k * (w k * w k)
        have e3 : -(freq f.data i * (c * w i)) + c * S1 = c * (-(freq f.data i * w i) + S1) := by ring
        have e4 : -(freq f.data i * (c * w i * (c * w i))) + c * c * S2
            = c * (c * (-(freq f.data i * (w i * w i)) + S2)) := by ring
        rw [e3, e4, mul_div_mul_left _ _ hc0, mul_div_assoc, mul_assoc c, ← mul_sub, neg_mul_eq_mul_neg,
          ← mul_add, mul_div_mul_left _ _ hc0]
      | none =>
        have hv : ∀ i, varWt f.data i = 1 := fun i => by simp [varWt, hw]
        have hno : f.data.nObs = obsCount raw := hr.nObs
        have hfq : ∀ i, freq f.data i = freq raw i := fun i => by rw [Dataset.finalize_freq hr.built]
        have hsum : ∑ k, freq raw k = obsCount raw := rfl
        have hfull : ∀ i, -(freq raw i) + obsCount raw ≠ 0 := fun i h0 =>
          hfr (hwt.symm.trans hw) i (by linarith)
        have key : ∀ i, -(f'.data.applyFreqWeights (fun i => c * varWt f.data i) i)
              + f'.data.freqSum (fun i => c * varWt f.data i)
              - (-(f'.data.applyFreqWeights (vmul (fun i => c * varWt f.data i)
                  fun i => c * varWt f.data i) i)
                + f'.data.freqSum (vmul (fun i => c * varWt f.data i) fun i => c * varWt f.data i))
                / (-(f'.data.applyFreqWeights (fun i => c * varWt f.data i) i)
                  + f'.data.freqSum (fun i => c * varWt f.data i)) * f'.rank
            = c * (f.ndf - freq raw i) := by
          intro i
          rw [hrk]
          simp only [hfa, hfs, vmul, hv, mul_one, hfq, ← Finset.sum_mul, hsum, Fit.ndf, hno]
          have e3 : -(freq raw i * c) + obsCount raw * c = c * (-(freq raw i) + obsCount raw) := by ring
          have e4 : -(freq raw i * (c * c)) + obsCount raw * (c * c)
              = c * (c * (-(freq raw i) + obsCount raw)) := by ring
          rw [e3, e4, mul_div_mul_left _ _ hc0, mul_div_assoc, div_self (hfull i)]
          ring
        have fin : ∀ i, (-(c * f.data.applyFreqWeights (fun i => f.devianceTerms i
              + lev i / (1 - lev i) * (f.residPear i * f.residPear i)) i) + c * f.deviance)
              / (c * (f.ndf - freq raw i))
            = (-(f.data.applyFreqWeights (fun i => f.devianceTerms i
              + lev i / (1 - lev i) * (f.residPear i * f.residPear i)) i) + f.deviance)
              / (f.ndf - freq raw i) := fun i => by
          rw [neg_mul_eq_mul_neg, ← mul_add, mul_div_mul_left _ _ hc0]
        cases hq : f.data.freqs with
        | none =>
          have hf1 : ∀ i, freq raw i = 1 := fun i => by rw [← hfq]; simp [freq, hq]
          refine congrArg Except.ok (funext fun i => ?_)
          have e := fin i
          rw [← key, ← ht, hf1] at e
          exact e
        | some fr =>
          have hf1 : ∀ i, freq raw i = fr i := fun i => by rw [← hfq]; simp [freq, hq]
          refine congrArg Except.ok (funext fun i => ?_)
          have e := fin i
          rw [← key, ← ht, hf1, ← neg_sub (fr i)] at e
          exact e
  have hrt : ∀ x y : ℝ, Scalar.signum x * Scalar.sqrt (c * y)
      = Real.sqrt c * (Scalar.signum x * Scalar.sqrt y) := fun x y => by
    simp only [sqrt_real]
    rw [Real.sqrt_mul hc.le]; ring
  unfold Fit.residStudent
  rw [hgg, hloo, H.residResp]
  cases f.devianceTermsLoo env' with
  | error e => rfl
  | ok v =>
    cases hD : f.g.dispersed with
    | none =>
      refine congrArg Except.ok (funext fun i => ?_)
      exact hrt _ _
    | free =>
      rw [hdl hD]
      cases f.dispersionLoo env' with
      | error e => rfl
      | ok w =>
        refine congrArg Except.ok (funext fun i => ?_)
        refine Eq.trans ?_ (hrt _ _)
        simp only [vdiv, mul_div_assoc]

/-- **C13** (comparisons with the null model): the statistics are multiplied by `c` and R² does not
change. -/
theorem C13_tests (hW : weightSum raw ≠ 0)
    (hb : (b = true ∧ raw.linearOffset = none) ∨ (b = false ∧ p ≠ 0)) :
    TestsAfterChange c env' f f' := by
  have H := C13_statistics he hdec hc hd hf hf' hres h1 h1' h2
  have hd' := C13_build hc hd
  have hWc : weightSum (scaleWeights raw c) = c * weightSum raw := by
    simp only [weightSum, scaleWeights_totalWt, Finset.mul_sum]
  have hW' : weightSum (scaleWeights raw c) ≠ 0 := by rw [hWc]; exact mul_ne_zero hc.ne' hW
  have key : ∃ v v' par, f.nullModelFit env' = .ok (v, par) ∧
      f'.nullModelFit env' = .ok (v', par) := by
    rcases hb with ⟨rfl, ho⟩ | ⟨rfl, hp⟩
    · have hmean : meanY (scaleWeights raw c) = meanY raw := by
        rw [meanY, meanY, hWc, ← mul_div_mul_left (∑ i, totalWt raw i * raw.y i) _ hc.ne',
          Finset.mul_sum]
        congr 1
        exact Finset.sum_congr rfl fun i _ => by rw [scaleWeights_totalWt, mul_assoc]; rfl
      have n1 := (C37_intercept (env' := env') hd' hf' ho hW').1
      rw [hmean] at n1
      exact ⟨_, _, _, (C37_intercept hd hf ho hW).1, n1⟩
    · exact ⟨_, _, _, (C37_no_intercept hd hf hp fun _ => hW).1,
        (C37_no_intercept (env' := env') hd' hf' hp fun _ => hW').1⟩
  obtain ⟨v, v', par, hn, hn'⟩ := key
  obtain ⟨c1, c2, c3⟩ := C38_lr_null hd hf (fun _ => hW) hn
  obtain ⟨d1, d2, d3⟩ := C38_lr_null hd' hf' (fun _ => hW') hn'
  refine ⟨⟨_, c1, ?_⟩, ⟨_, c2, ?_⟩, ?_, ⟨f.lrTestAgainst par / (f.lrTestAgainst par + f.deviance),
    ?_, ?_⟩⟩
  · rw [d1, H.lrAgainst]
  · rw [d2, H.waldAgainst]
  · rw [d3, c3, H.scoreAgainst]
    cases f.scoreTestAgainst env' par <;> rfl
  · rw [Fit.rSq, c1]; rfl
  · rw [Fit.rSq, d1, H.lrAgainst, H.deviance]
    refine congrArg Outcome.ok ?_
    dsimp only
    rw [← mul_add, mul_div_mul_left _ _ hc.ne']

end statistics
/-- **C13** (Linear, any tolerance): without penalties and with machine epsilon zero the two fits
return the same coefficients from any starts and with any tolerances. -/
theorem C13_linear {raw : Dataset ℝ n p false} {std : Bool} {d : Dataset ℝ n p b}
    {o o' : FitOptions ℝ (ncols b p)} (hc : 0 < c) (he : env.Exact) (heps : env.eps = 0)
    (hd : raw.finalize std b = some d) (hw : ∀ i, 0 ≤ totalWt raw i)
    (hr : IsUnit (Spec.gram raw b).det) (h1 : o.l1 ≤ 0) (h2 : o.l2 ≤ 0) (hm : 1 ≤ o.maxIter)
    (h1' : o'.l1 ≤ 0) (h2' : o'.l2 ≤ 0) (hm' : 1 ≤ o'.maxIter) :
    ∃ f f', regression env Family.linear.glm d o = .ok f ∧
      regression env Family.linear.glm (scaleWeights d c) o' = .ok f' ∧ f'.result = f.result := by
  have hd' := C13_build hc hd
  have hβ := (lin_score_zero_iff (raw := raw) hr).mpr rfl
  set β := lsMat raw b *ᵥ fun i => raw.y i - offset raw i
  have hβ' : scoreVec linG (scaleWeights raw c) b β = 0 := by
    rw [weights_scoreVec, hβ, smul_zero]
  have hw' : ∀ i, 0 ≤ totalWt (scaleWeights raw c) i := fun i => by
    rw [scaleWeights_totalWt]; exact mul_nonneg hc.le (hw i)
  have hr' : IsUnit (Spec.gram (scaleWeights raw c) b).det := by
    rw [weights_gram, det_smul]
    exact ((isUnit_iff_ne_zero.mpr hc.ne').pow _).mul hr
  obtain ⟨f, hf, e, -⟩ := C57_exact_least_squares
    (⟨he, hd, h1, h2, hw, hr, (isLeastSquares_iff hw _).mpr hβ⟩ : LinSetting env raw std d o β) heps hm
  obtain ⟨f', hf', e', -⟩ := C57_exact_least_squares
    (⟨he, hd', h1', h2', hw', hr', (isLeastSquares_iff hw' _).mpr hβ'⟩ :
      LinSetting env (scaleWeights raw c) std _ o' _) heps hm'
  exact ⟨f, f', hf, hf', by rw [e, e']⟩

/-! ### Non-vacuity -/

/-- A regression with variance weights in other units: all the conclusions hold of actual fits. -/
example : ∃ f f' : Fit ℝ 3 1 true, f.result = ![-1 / 2, 2] ∧ f'.result = ![-1 / 2, 2] ∧
    FitAfterWeights 3 (exactEnv 0 0) f f' ∧ TestsAfterChange 3 (exactEnv 0 0) f f' ∧
    f'.residStudent (exactEnv 0 0)
      = (f.residStudent (exactEnv 0 0)).map fun v i => Real.sqrt 3 * v i := by
  obtain ⟨d, f₀, hd, hf₀, hr₀⟩ := exLinFit true
  obtain ⟨f, f', hf, hf', hr⟩ := C13_linear (c := 3) (o := exOpts 0 0 none 1)
    (o' := exOpts 0 0 none 1) (by norm_num) (exactEnv_exact le_rfl 0) rfl hd
    (fun i => (exRaw_totalWt_pos _ i).le) (exRaw_gram_det _) le_rfl le_rfl le_rfl le_rfl le_rfl le_rfl
  obtain rfl : f₀ = f := Outcome.ok.inj (hf₀.symm.trans hf)
  have h2 : (exOpts 0 0 none 1 : FitOptions ℝ (ncols true 1)).l2
      = 3 * (exOpts 0 0 none 1 : FitOptions ℝ (ncols true 1)).l2 := (mul_zero _).symm
  have hE := exactEnv_exact (eps := 0) le_rfl 0
  refine ⟨f₀, f', hr₀, hr.trans hr₀, ?_, ?_, ?_⟩
  · exact C13_statistics hE (exactEnv_decides 0 0) (by norm_num) hd hf hf' hr le_rfl le_rfl h2
  · exact C13_tests hE (exactEnv_decides 0 0) (by norm_num) hd hf hf' hr le_rfl le_rfl h2
      exRaw_meanY_014 (Or.inl ⟨rfl, rfl⟩)
  · refine C13_student hE (exactEnv_decides 0 0) (by norm_num) hd hf hf' hr le_rfl le_rfl h2 ?_
    intro _ i
    have hN : obsCount (exRaw ![0, 1, 4]) = 4 := by
      simp [obsCount, freq, exRaw, Fin.sum_univ_three]; norm_num
    rw [hN]
    fin_cases i <;> simp [freq, exRaw]

/-- Hypotheses of `C13_run` with the crate's own start and a ridge penalty. -/
example : ∃ d, (exRaw ![1, 2, 4]).finalize true true = some d ∧
    Related (ErrorAfterWeights (1 / 5)) (CourseAfterWeights (1 / 5))
      (regression (exactEnv (1 / 10) 50) Family.gammaLog.glm d { exOptsZero none with l2 := 1 })
      (regression (exactEnv (1 / 10) 50) Family.gammaLog.glm (scaleWeights d (1 / 5))
        (scaleOptions (1 / 5) { exOptsZero none with l2 := 1 })) := by
  obtain ⟨d, hd⟩ := exRaw_finalize ![1, 2, 4] true true
  exact ⟨d, hd, C13_run (o := { exOptsZero none with l2 := 1 })
    (exactEnv_exact (eps := 1 / 10) (by norm_num) 50) (exactEnv_decides _ _) (by norm_num) hd le_rfl rfl⟩

end GLM
