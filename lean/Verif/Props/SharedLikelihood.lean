/-
  C68: different families with the same likelihood give the same fit.
-/
import Verif.Spec.Proportions
import Verif.Lemmas.Congr
import Verif.Lemmas.Family
import Verif.Props.VarWeights

namespace GLM
open Spec Matrix Scalar

section
variable {F : Type} [Scalar F] {n p : ℕ} {b : Bool}

theorem gamma_core (env : Env F) (l : Link F) (d : Dataset F n p b) (o : FitOptions F (ncols b p)) :
    regressionCore env (gammaGlm l) d o = regressionCore env (exponentialGlm l) d o :=
  regressionCore_congr (fun _ => rfl) (fun _ => rfl) rfl rfl rfl rfl rfl rfl

theorem gamma_nullModelFit (env : Env F) (l : Link F) (f f' : Fit F n p b)
    (h : f' = { f with g := gammaGlm l }) (hf : f.g = exponentialGlm l) :
    f'.nullModelFit env = f.nullModelFit env := by
  subst h
  have key : ∀ (d' : Dataset F n 0 true) o', regression env (gammaGlm l) d' o'
      = (regression env (exponentialGlm l) d' o').map fun e => { e with g := gammaGlm l } := by
    intro d' o'
    unfold regression
    rw [gamma_core]
    cases regressionCore env (exponentialGlm l) d' o' <;> rfl
  have e : ∀ off, Fit.nullDataset { f with g := gammaGlm l } off = f.nullDataset off := fun _ => rfl
  unfold Fit.nullModelFit
  simp only [Fit.nullIntercept, hf, e, key]
  cases hoff : f.data.linearOffset with
  | none => rfl
  | some off =>
    dsimp only
    cases regression env (exponentialGlm l) (f.nullDataset off)
      { FitOptions.default env with maxIter := f.options.maxIter } <;> rfl

/-- C68, exponential and gamma: with the same link and the same data, in any arithmetic, the two
families take the same iterations to the same coefficients (or fail alike); only what depends on the
dispersion differs.  The exponential dispersion is one. -/
theorem C68_gamma_is_exponential (env : Env F) (l : Link F) (d : Dataset F n p b)
    (o : FitOptions F (ncols b p)) :
    Related (· = ·) (fun f f' => SameUpToDispersion f f' ∧ f.dispersion = 1)
      (regression env (exponentialGlm l) d o) (regression env (gammaGlm l) d o) := by
  unfold regression
  rw [gamma_core]
  cases regressionCore env (exponentialGlm l) d o with
  | panic => exact .panic
  | diverge => exact .diverge
  | err e => exact .err rfl
  | ok r =>
    refine .ok ⟨?_, rfl⟩
    have hnull : ∀ env, (Fit.new (gammaGlm l) d o r.1 r.2).nullModelFit env
        = (Fit.new (exponentialGlm l) d o r.1 r.2).nullModelFit env :=
      fun env => gamma_nullModelFit env l _ _ rfl rfl
    have hlr : ∀ env, (Fit.new (gammaGlm l) d o r.1 r.2).lrTest env
        = (Fit.new (exponentialGlm l) d o r.1 r.2).lrTest env := fun env => by
      simp only [Fit.lrTest, Fit.nullLike, hnull]; rfl
    exact
      { result := rfl
        history := rfl
        nIter := rfl
        modelLike := rfl
        yHat := rfl
        predict := fun _ _ => rfl
        deviance := rfl
        aic := rfl
        bic := rfl
        score := rfl
        fisher := rfl
        leverage := fun _ => rfl
        residPear := rfl
        residDev := rfl
        lrTest := hlr
        rSq := fun env => by simp only [Fit.rSq, hlr]; rfl
        waldTest := fun env => by simp only [Fit.waldTest, hnull]; rfl
        scoreTest := fun env => by simp only [Fit.scoreTest, hnull]; rfl }

end

/-! ### Binomial counts and proportions -/

section
variable {n p : ℕ} {b : Bool} {N : ℕ} (hN : 0 < N) (d : Dataset ℝ n p b)

/-- The logistic family with the logit link. -/
local notation "gL" => Family.glm (F := ℝ) Family.logisticLogit
/-- The binomial family out of `N`. -/
local notation "gB" => Family.glm (F := ℝ) (Family.binomial N)

include hN

theorem prop_mean (w : ℝ) : (gL).link.funcInv w = (gB).link.funcInv w / N := by
  have : (N : ℝ) ≠ 0 := by exact_mod_cast hN.ne'
  rw [funcInv_real, funcInv_real]
  dsimp only
  rw [div_right_comm, div_self this]

theorem prop_var (w : ℝ) : N * (gL).variance ((gL).link.funcInv w)
    = (gB).variance ((gB).link.funcInv w) := by
  have : (N : ℝ) ≠ 0 := by exact_mod_cast hN.ne'
  rw [prop_mean hN, variance_real, variance_real]
  simp only [varianceFn]
  field_simp

theorem prop_like (y η : ℝ) : N * (gL).logLikeNatural (y / N) η = (gB).logLikeNatural y η := by
  have : (N : ℝ) ≠ 0 := by exact_mod_cast hN.ne'
  rw [logLikeNatural_real, logLikeNatural_real]
  simp only [cumulant]
  field_simp

theorem prop_func (y : ℝ) : (gL).link.func (y / N) = (gB).link.func y := by
  have : (N : ℝ) ≠ 0 := by exact_mod_cast hN.ne'
  rw [func_real, func_real]
  dsimp only
  congr 1
  by_cases h : (N : ℝ) - y = 0
  · have : y = N := by linarith
    subst this; simp [this]
  · have h' : 1 - y / N ≠ 0 := by
      intro e; apply h; field_simp at e; linarith
    field_simp

theorem prop_sat {y : ℝ} (h0 : 0 ≤ y) (h1 : y ≤ N) :
    N * (gL).logLikeSat (y / N) = (gB).logLikeSat y := by
  have hN' : (N : ℝ) ≠ 0 := by exact_mod_cast hN.ne'
  rw [logLikeSat_real, logLikeSat_real]
  dsimp only
  have e : 1 - y / N = (N - y) / N := by field_simp
  have key : ∀ z : ℝ, 0 ≤ z → N * (z / N * Real.log (z / N)) = z * Real.log z - z * Real.log N := by
    intro z hz
    rcases hz.eq_or_lt with rfl | hz
    · simp
    · rw [Real.log_div hz.ne' hN']; field_simp
  rw [e, mul_add, key y h0, key (N - y) (by linarith)]
  ring

omit hN in
theorem prop_totalWt (i : Fin n) : totalWt (proportions N d) i = N * totalWt d i :=
  scaleWeights_totalWt d (c := N) i

omit hN in
theorem prop_linPred (γ : Vec ℝ (ncols b p)) :
    (proportions N d).linearPredictorStd γ = d.linearPredictorStd γ := rfl

theorem prop_scoreInt (γ : Vec ℝ (ncols b p)) :
    (proportions N d).scoreInt gL γ = d.scoreInt gB γ := by
  have hN' : (N : ℝ) ≠ 0 := by exact_mod_cast hN.ne'
  funext j
  rw [Dataset.scoreInt_apply (Family.lawfulAdj _), Dataset.scoreInt_apply (Family.lawfulAdj _)]
  refine Finset.sum_congr rfl fun i _ => ?_
  rw [prop_totalWt, prop_linPred, prop_mean hN, dNatParam_real, dNatParam_real]
  change N * totalWt d i * 1 * (d.y i / N - _) * d.x i j = _
  field_simp

theorem prop_fisherInt (γ : Vec ℝ (ncols b p)) :
    (proportions N d).fisherInt gL γ = d.fisherInt gB γ := by
  funext j k
  rw [Dataset.fisherInt_apply (Family.lawfulAdj _), Dataset.fisherInt_apply (Family.lawfulAdj _)]
  refine Finset.sum_congr rfl fun i _ => ?_
  rw [prop_totalWt, prop_linPred, ← prop_var hN, dNatParam_real, dNatParam_real]
  change N * totalWt d i * 1 ^ 2 * _ * d.x i j * d.x i k = _
  ring

theorem prop_logLike (γ : Vec ℝ (ncols b p)) :
    (gL).logLike (proportions N d) γ = (gB).logLike d γ := by
  rw [Dataset.logLike_apply, Dataset.logLike_apply]
  refine Finset.sum_congr rfl fun i _ => ?_
  rw [prop_totalWt, prop_linPred, ← prop_like hN, natParam_real, natParam_real]
  change N * totalWt d i * (gL).logLikeNatural (d.y i / N) _ = _
  ring

theorem prop_irls (γ : Vec ℝ (ncols b p)) :
    Irls.irlsMatVec 0 gL (proportions N d) γ = Irls.irlsMatVec 0 gB d γ := by
  have h1 : (Irls.irlsMatVec 0 gL (proportions N d) γ).1 = (Irls.irlsMatVec 0 gB d γ).1 := by
    have a := irlsMat_real (d := proportions N d) (Family.lawfulAdj .logisticLogit) 0 γ
    have c := irlsMat_real (d := d) (Family.lawfulAdj (.binomial N)) 0 γ
    rw [zero_smul, add_zero] at a c
    exact Matrix.of.injective (a.trans ((congrArg _ (prop_fisherInt hN d γ)).trans c.symm))
  refine Prod.ext h1 ?_
  rw [irlsVec_real (Family.lawfulAdj .logisticLogit), irlsVec_real (Family.lawfulAdj (.binomial N)),
    h1, prop_scoreInt hN]

omit hN in
theorem dotM_gramInt : Matrix.of (d.xConj.dotM d.x) = d.gramInt := by
  ext j k
  simp only [of_apply, Mat.dotM, vdotBy_real, Dataset.xConj_real, Dataset.gramInt]

theorem prop_initGuess {env : Env ℝ} (he : env.Exact) (hu : IsUnit d.gramInt.det) :
    (gL).initGuess env (proportions N d) = (gB).initGuess env d := by
  have hN' : (N : ℝ) ≠ 0 := by exact_mod_cast hN.ne'
  have hbar : (vmean? (proportions N d).y).getD 0 = (vmean? d.y).getD 0 / N := by
    unfold vmean?
    split
    · simp
    · simp only [Option.getD_some, vsum_real]
      change (∑ i, d.y i / N) / _ = _
      rw [← Finset.sum_div, div_right_comm]
  have hmu : ∀ i, (half : ℝ) * ((proportions N d).y i + (vmean? (proportions N d).y).getD 0)
      = half * (d.y i + (vmean? d.y).getD 0) / N := by
    intro i
    rw [hbar]
    change half * (d.y i / N + _) = _
    ring
  have hm : Matrix.of ((proportions N d).xConj.dotM (proportions N d).x) = (N : ℝ) • d.gramInt := by
    rw [dotM_gramInt]
    ext j k
    simp only [Dataset.gramInt, prop_totalWt, Matrix.smul_apply, smul_eq_mul, Finset.mul_sum]
    exact Finset.sum_congr rfl fun i _ => by
      change N * totalWt d i * d.x i j * d.x i k = _; ring
  have hv : ∀ v : Vec ℝ n, (proportions N d).xConj.dotV v = (N : ℝ) • d.xConj.dotV v :=
    fun v => scaleWeights_xConj_dotV d (c := N) v
  have hsym : (Matrix.of (d.xConj.dotM d.x)).IsSymm := by rw [dotM_gramInt]; exact gramInt_symm
  have key : ∀ v : Vec ℝ n,
      env.solveh ((proportions N d).xConj.dotM (proportions N d).x) ((proportions N d).xConj.dotV v)
        = env.solveh (d.xConj.dotM d.x) (d.xConj.dotV v) := by
    intro v
    obtain ⟨x, hx⟩ := he.solveh_complete (d.xConj.dotV v) hsym (by rw [dotM_gramInt]; exact hu)
    rw [hx]
    refine he.solveh_eq ?_ ?_ ?_
    · rw [hm]; exact gramInt_symm.smul _
    · rw [hm, det_smul]
      exact ((isUnit_iff_ne_zero.mpr hN').pow _).mul hu
    · rw [hm, hv, smul_mulVec, ← dotM_gramInt, he.solveh_sound hsym hx]
  unfold Glm.initGuess
  dsimp only
  simp only [hmu, prop_func hN, key]
  rfl

/-- The whole run on proportions is the run on counts. -/
theorem prop_core {env : Env ℝ} (he : env.Exact) (h0 : env.eps = 0) (o : FitOptions ℝ (ncols b p))
    (hu : o.initGuess = none → IsUnit d.gramInt.det) :
    regressionCore env gL (proportions N d) o = regressionCore env gB d o := by
  refine regressionCore_congr (fun γ => ?_) (prop_logLike hN d) rfl rfl rfl rfl rfl ?_
  · rw [h0]; exact prop_irls hN d γ
  · unfold initialGuess
    cases hi : o.initGuess with
    | none => exact prop_initGuess hN d he (hu hi)
    | some β => cases b <;> rfl

omit hN in
theorem prop_finalize (hN : 0 < N) {raw : Dataset ℝ n p false} {std : Bool} {d : Dataset ℝ n p b}
    (hd : raw.finalize std b = some d) :
    (proportions N raw).finalize std b = some (proportions N d) := by
  have h := C13_build (c := N) (by exact_mod_cast hN) hd
  have hy := Dataset.finalize_y hd
  have e : ∀ (e : Dataset ℝ n p false) (y : Vec ℝ n), Dataset.finalize { e with y := y } std b
      = (e.finalize std b).map fun d => { d with y := y } := by
    intro e y
    unfold Dataset.finalize
    cases std
    · rfl
    · have : Standardizer.fromDataset { e with y := y } b = Standardizer.fromDataset e b := rfl
      simp only [this, if_true, Option.map_map]
      rfl
  have := e (scaleWeights raw N) fun i => raw.y i / N
  rw [h] at this
  rw [show proportions N raw = { scaleWeights raw N with y := fun i => raw.y i / N } from rfl, this]
  simp only [Option.map_some, ← hy]
  rfl

theorem prop_fit (o : FitOptions ℝ (ncols b p)) (r : IrlsStep ℝ (ncols b p) × Irls ℝ (ncols b p)) :
    SameAsCounts N (Fit.new gB d o r.1 r.2) (Fit.new gL (proportions N d) o r.1 r.2) := by
  have hN' : (N : ℝ) ≠ 0 := by exact_mod_cast hN.ne'
  have hi : ∀ γ, (proportions N d).inverseTransformBeta γ = d.inverseTransformBeta γ := by
    intro γ; cases b <;> rfl
  have ht : ∀ γ, (proportions N d).transformBeta γ = d.transformBeta γ := by
    intro γ; cases b <;> rfl
  have hs : ∀ γ, (proportions N d).inverseTransformScore γ = d.inverseTransformScore γ := by
    intro γ; cases b <;> rfl
  have hF : ∀ γ, (proportions N d).inverseTransformFisher γ = d.inverseTransformFisher γ := by
    intro γ; cases b <;> rfl
  set f := Fit.new gB d o r.1 r.2 with hf
  set f' := Fit.new gL (proportions N d) o r.1 r.2 with hf'
  have hfd : ∀ γ, f'.fisherDataStd γ = f.fisherDataStd γ := prop_fisherInt hN d
  have hfs : ∀ γ, f'.fisherStd γ = f.fisherStd γ := fun γ => by
    simp only [Fit.fisherStd, hfd]; rfl
  have hres : f'.result = f.result := hi _
  have hfi : f'.fisher = f.fisher := by
    funext β
    simp only [Fit.fisher]
    rw [show f'.data.transformBeta β = f.data.transformBeta β from ht β, hfs]
    exact hF _
  have hcov : ∀ env, f'.covariance env = f.covariance env := by
    intro env
    simp only [Fit.covariance, Fit.fisherInv, hfi, hres]
    rw [show f'.resultStd = f.resultStd from rfl, hfd,
      show ∀ γ, f'.data.inverseTransformFisher γ = f.data.inverseTransformFisher γ from hF]
    rfl
  have hyh : ∀ i, f'.yHat i = f.yHat i / N := fun i => prop_mean hN _
  have hvar : ∀ i, N * (gL).variance (f'.yHat i) = (gB).variance (f.yHat i) := fun i => prop_var hN _
  have hxc : ∀ j i, f'.data.xConj j i = N * f.data.xConj j i :=
    scaleWeights_xConj d (c := N)
  have hlev : ∀ env, f'.leverage env = f.leverage env := by
    intro env
    unfold Fit.leverage Fit.hat Fit.fisherStdInv
    rw [hfs, show f'.resultStd = f.resultStd from rfl]
    cases env.inv (f.fisherStd f.resultStd) with
    | error e => rfl
    | ok A =>
      refine congrArg Except.ok ?_
      funext i
      simp only [Mat.diag, Mat.dotM, vdotBy_real]
      refine Finset.sum_congr rfl fun j _ => ?_
      rw [Finset.mul_sum, Finset.mul_sum]
      refine Finset.sum_congr rfl fun k _ => ?_
      rw [hxc]
      have h1 : f.g.variance (f.yHat i) = N * f'.g.variance (f'.yHat i) := (hvar i).symm
      have h2 : f'.g.link.dNatParam (f'.xLinPred i) = 1 := dNatParam_real _ _
      have h3 : f.g.link.dNatParam (f.xLinPred i) = 1 := dNatParam_real _ _
      rw [h1, h2, h3, show f'.data.x i j = f.data.x i j from rfl]
      ring
  have hpear : f'.residPear = f.residPear := by
    funext i
    unfold Fit.residPear
    rw [Dataset.applyVarWeights_real, Dataset.applyVarWeights_real, recip_real, recip_real]
    have h1 : f.g.variance (f.yHat i) = N * f'.g.variance (f'.yHat i) := (hvar i).symm
    have h2 : varWt f'.data i = N * varWt f.data i := rfl
    have h3 : f.residResp i = N * f'.residResp i := by
      change d.y i - f.yHat i = N * (d.y i / N - f'.yHat i)
      rw [hyh]; field_simp
    rw [h1, h2, h3, sqrt_real, sqrt_real]
    have h4 : N * varWt f.data i * (1 / f'.g.variance (f'.yHat i))
        = (N : ℝ) ^ 2 * (varWt f.data i * (1 / (N * f'.g.variance (f'.yHat i)))) := by
      by_cases hz : f'.g.variance (f'.yHat i) = 0
      · rw [hz]; simp
      · field_simp
    rw [h4, Real.sqrt_mul (sq_nonneg _), Real.sqrt_sq (Nat.cast_nonneg _)]
    ring
  have hdt : (∀ i, 0 ≤ d.y i ∧ d.y i ≤ N) → f'.devianceTerms = f.devianceTerms := by
    intro hy
    funext i
    unfold Fit.devianceTerms
    dsimp only
    rw [Dataset.applyVarWeights_real, Dataset.applyVarWeights_real]
    have h1 : f.g.logLikeSat (f.data.y i) = N * f'.g.logLikeSat (f'.data.y i) :=
      (prop_sat hN (hy i).1 (hy i).2).symm
    have h2 : f.g.logLikeTerms f.data f.resultStd i = N * f'.g.logLikeTerms f'.data f'.resultStd i :=
      (prop_like hN _ _).symm
    rw [h1, h2, show varWt f'.data i = N * varWt f.data i from rfl]
    ring
  refine
    { result := hres
      history := ?_
      nIter := rfl
      modelLike := rfl
      yHat := hyh
      predict := fun x off i => ?_
      dispersion := ⟨rfl, rfl⟩
      score := ?_
      fisher := hfi
      covariance := hcov
      waldZ := fun env => by simp only [Fit.waldZ, hcov, hres]
      leverage := hlev
      residPear := hpear
      cooks := fun env => by simp only [Fit.cooks, hlev, hpear]; rfl
      deviance := fun hy => ?_
      residDev := fun hy => ?_ }
  · change (r.2.history.map fun st => _) = r.2.history.map fun st => _
    exact List.map_congr_left fun st _ => by rw [hi]
  · simp only [Fit.predict, hres]
    exact prop_mean hN _
  · funext β
    have h1 : f'.score β = (proportions N d).inverseTransformScore
      (r.2.reg.gradient ((proportions N d).scoreInt gL ((proportions N d).transformBeta β))
        ((proportions N d).transformBeta β)) := rfl
    have h2 : f.score β = d.inverseTransformScore
      (r.2.reg.gradient (d.scoreInt gB (d.transformBeta β)) (d.transformBeta β)) := rfl
    rw [h1, h2, hs, ht, prop_scoreInt hN]
  · unfold Fit.deviance
    rw [hdt hy]
    rfl
  · funext i
    unfold Fit.residDev
    rw [hdt hy]
    congr 1
    have h3 : f.residResp i = N * f'.residResp i := by
      change d.y i - f.yHat i = N * (d.y i / N - f'.yHat i)
      rw [hyh]; field_simp
    have hp : (0 : ℝ) < N := by exact_mod_cast hN
    rw [h3, signum_real, signum_real]
    simp only [mul_neg_iff, hp, true_and, hp.not_gt, false_and, or_false]

/-- C68, binomial and logistic: fitting counts out of `N` with the binomial family is fitting the
proportions with the logistic family, each observation with `N` times the variance weight, for every
data set, penalty, tolerance and budget, in exact arithmetic.  Both builds succeed or fail alike. -/
theorem C68_binomial_is_logistic {env : Env ℝ} (he : env.Exact) (h0 : env.eps = 0)
    {raw : Dataset ℝ n p false} {std : Bool} {d : Dataset ℝ n p b}
    (hd : raw.finalize std b = some d) :
    ∃ d', (proportions N raw).finalize std b = some d' ∧
      ∀ o : FitOptions ℝ (ncols b p), (o.initGuess = none → IsUnit (gram raw b).det) →
        Related (· = ·) (SameAsCounts N) (regression env (Family.binomial N).glm d o)
          (regression env Family.logisticLogit.glm d' o) := by
  refine ⟨_, prop_finalize hN hd, fun o hu => ?_⟩
  have hu' : o.initGuess = none → IsUnit d.gramInt.det := by
    intro h
    have h1 := hu h
    rw [← Dataset.finalize_gram hd, det_mul] at h1
    exact isUnit_of_mul_isUnit_right (isUnit_of_mul_isUnit_left (by rwa [det_mul] at h1))
  unfold regression
  rw [prop_core hN d he h0 o hu']
  cases regressionCore env gB d o with
  | panic => exact .panic
  | diverge => exact .diverge
  | err e => exact .err rfl
  | ok r => exact .ok (prop_fit hN d o r)

end

/-- The hypotheses of `C68_binomial_is_logistic` hold for the example data, with counts out of five. -/
example : ∃ d d' : Dataset ℝ 3 1 true, (exRaw ![0, 1, 4]).finalize true true = some d ∧
    (proportions 5 (exRaw ![0, 1, 4])).finalize true true = some d' ∧
    Related (· = ·) (SameAsCounts 5)
      (regression (exactEnv 0 100) (Family.binomial 5).glm d (exOpts 0 (1 / 5) none 50))
      (regression (exactEnv 0 100) Family.logisticLogit.glm d' (exOpts 0 (1 / 5) none 50)) := by
  obtain ⟨d, hd⟩ := exRaw_finalize ![0, 1, 4] true true
  obtain ⟨d', hd', h⟩ := C68_binomial_is_logistic (N := 5) (by norm_num)
    (exactEnv_exact le_rfl 100) rfl hd
  exact ⟨d, d', hd, hd', h _ fun _ => exRaw_gram_det _⟩

end GLM
