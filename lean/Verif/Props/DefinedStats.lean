/-
  C62: when the statistics of a fit are numbers.  `f.strict fam.glm` is the same fit in the
  arithmetic where undefined operations give not-a-number.
-/
import Verif.Props.Defined
import Verif.Props.Deviance
import Verif.Props.Hat
import Verif.Lemmas.StrictFit

namespace GLM
open Set Spec Scalar NReal
variable {n p : ℕ} {b std : Bool} {raw : Dataset ℝ n p false} {d : Dataset ℝ n p b}
  {fam : Family} {env : Env ℝ} {options : FitOptions ℝ (ncols b p)} {f : Fit ℝ n p b}

/-- A sum with a term that is not a number is not a number. -/
theorem vsum_nan {k : ℕ} {v : Vec NReal k} (i : Fin k) (h : v i = nan) : vsum v = nan :=
  SumTree.eval_absorb (Q := fun x : NReal => x = nan) (by rintro _ _ rfl; exact nan_add _)
    (by rintro _ _ rfl; exact add_nan _) (by rintro _ _ rfl; exact nan_add _) h
    (fun a => by rw [h]; exact add_nan _) _ (SumOrder.mem_terms _ i)

/-- An inner product with a term that is not a number is not a number. -/
theorem vdotBy_nan {k : ℕ} {site : SumSite} {u v : Vec NReal k} (i : Fin k) (h : u i * v i = nan) :
    vdotBy site u v = nan :=
  SumTree.eval_absorb (Q := fun x : NReal => x = nan) (by rintro _ _ rfl; exact nan_add _)
    (by rintro _ _ rfl; exact add_nan _) (fun j _ ha => by rw [ha]; exact add_nan (u j * v j)) h
    (fun a => by change u i * v i + a = nan; rw [h]; exact nan_add _) _ (SumOrder.mem_terms _ i)

section
variable (hv : ValidFamily fam) (hd : raw.finalize std b = some d)
  (h : regression env fam.glm d options = .ok f) (ha : Admissible fam raw b f.result)
include hv hd h ha

theorem regular_of_fit : f.Regular (fam.glm (F := NReal)) (predDom fam) := by
  have hc := regression_coherent h
  obtain ⟨hg, rfl, rfl, hf⟩ := regression_ofRaw hd h
  refine ⟨?_, hc.2.2.2.xLinPred, hc.2.2.2.yHat, ?_, hf.resultStd.symm, ?_⟩
  · rw [hg]; exact tracks fam hv
  · intro i; rw [hf.lin]; exact ha i
  · intro s hs j
    exact ((Dataset.finalize_wf hd).scales_pos s hs j).ne'

omit ha in
theorem sat_of_fit (hy : ∀ i, raw.y i ∈ yDom fam) (i : Fin n) :
    (fam.glm (F := NReal)).logLikeSat (val (f.data.y i)) = val (f.g.logLikeSat (f.data.y i)) := by
  obtain ⟨hg, rfl, rfl, hf⟩ := regression_ofRaw hd h
  rw [hf.y, hg]
  obtain ⟨s, hs, hl⟩ := C60_saturated fam hv (hy i)
  have hl' := logLikeSat_isLUB fam hv (hy i)
  have h2 : (fam.glm (F := ℝ)).logLikeNatural (raw.y i) = fun η => raw.y i * η - cumulant fam η :=
    funext fun η => logLikeNatural_real fam _ η
  rw [h2] at hl'
  rw [hs, hl.unique hl']

theorem var_pos_of_fit (i : Fin n) : 0 < f.g.variance (f.yHat i) := by
  obtain ⟨hg, rfl, rfl, hf⟩ := regression_ofRaw hd h
  rw [hf.mean, hg, variance_real]
  exact varianceFn_pos fam hv (funcInv_mem fam hv (ha i))

/-- **C62**: the deviance, the sum of squares, and the tests, scores and informations at every
admissible alternative are numbers. -/
theorem C62_statistics (hy : ∀ i, raw.y i ∈ yDom fam) :
    (f.strict fam.glm).deviance = val f.deviance ∧
    (f.strict fam.glm).rss = val f.rss ∧
    ∀ β, Admissible fam raw b β →
      (f.strict fam.glm).lrTestAgainst (Vec.strict β) = val (f.lrTestAgainst β) ∧
      (f.strict fam.glm).waldTestAgainst (Vec.strict β) = val (f.waldTestAgainst β) ∧
      (f.strict fam.glm).score (Vec.strict β) = Vec.strict (f.score β) ∧
      (f.strict fam.glm).fisher (Vec.strict β) = Mat.strict (f.fisher β) ∧
      (f.strict fam.glm).scoreTestAgainst env.strict (Vec.strict β)
        = (f.scoreTestAgainst env β).map val := by
  have hr := regular_of_fit hv hd h ha
  have hs := sat_of_fit hv hd h hy
  refine ⟨hr.deviance hs, Fit.strict_rss, fun β hβ => ?_⟩
  have hβ' : ∀ i, f.data.linearPredictorStd (f.data.transformBeta β) i ∈ predDom fam := by
    intro i
    obtain ⟨hg, rfl, rfl, hf⟩ := regression_ofRaw hd h
    rw [Dataset.finalize_linPred hd]
    exact hβ i
  exact ⟨hr.lrTestAgainst hβ', hr.waldTestAgainst hβ', hr.score hβ', hr.fisher hβ',
    hr.scoreTestAgainst env hβ'⟩

/-- **C62**: the information criteria are numbers if the variance weights (and, for `bic`, the number
of observations) are positive. -/
theorem C62_criteria (hy : ∀ i, raw.y i ∈ yDom fam) (hw : ∀ i, 0 < varWt raw i) :
    (f.strict fam.glm).aic = val f.aic ∧
    (0 < obsCount raw → (f.strict fam.glm).bic = val f.bic) := by
  have hr := regular_of_fit hv hd h ha
  have hs := sat_of_fit hv hd h hy
  obtain ⟨hg, rfl, rfl, hf⟩ := regression_ofRaw hd h
  have hw' : ∀ i, 0 < f.data.getVarianceWeights i := by
    intro i
    rw [Dataset.getVarianceWeights_real, Dataset.finalize_varWt hd]
    exact hw i
  exact ⟨hr.aic hs hw', fun hN => Fit.strict_bic hw' (by rwa [hf.nObs])⟩

omit hv ha in
/-- A zero variance weight makes both criteria undefined. -/
theorem C62_criteria_zero_weight (i : Fin n) (hw : varWt raw i = 0) :
    (f.strict fam.glm).aic = nan ∧ (f.strict fam.glm).bic = nan := by
  obtain ⟨hg, rfl, rfl, hf⟩ := regression_ofRaw hd h
  have h0 : f.data.getVarianceWeights i = 0 := by
    rw [Dataset.getVarianceWeights_real, Dataset.finalize_varWt hd, hw]
  have e : (f.strict fam.glm).sumLogWeights = nan := by
    have h1 : (f.strict fam.glm).data = f.data.strict := rfl
    unfold Fit.sumLogWeights Dataset.freqSum
    rw [h1, Dataset.strict_getVarianceWeights]
    refine vsum_nan i ?_
    have hl : ln (Vec.strict f.data.getVarianceWeights i) = nan := by
      simp only [Vec.strict, h0]
      exact ln_nonpos le_rfl
    unfold Dataset.applyFreqWeights
    cases f.data.strict.freqs with
    | none => exact hl
    | some fr => simp only [vmul, hl, mul_nan]
  simp only [Fit.aic, Fit.bic, e, mul_nan, sub_nan, and_self]

/-- **C62**: the dispersion is a number if it is fixed or if the effective number of observations
exceeds the number of coefficients; a free dispersion is not a number otherwise. -/
theorem C62_dispersion (hy : ∀ i, raw.y i ∈ yDom fam)
    (hw : ∑ i, freq raw i * varWt raw i ^ 2 ≠ 0) (hS : weightSum raw ≠ 0) :
    ((freeDispersion fam = true → (ncols b p : ℝ) < effCount raw) →
      (f.strict fam.glm).dispersion = val f.dispersion) ∧
    (freeDispersion fam = true → effCount raw ≤ (ncols b p : ℝ) →
      (f.strict fam.glm).dispersion = nan) := by
  have hr := regular_of_fit hv hd h ha
  have hs := sat_of_fit hv hd h hy
  obtain ⟨hg, rfl, rfl, hf⟩ := regression_ofRaw hd h
  have hfree : f.g.dispersed = .free ↔ freeDispersion fam = true := by
    rw [hg]
    cases fam <;> simp [freeDispersion, Family.glm, linearGlm, logisticGlm, poissonGlm, binomialGlm,
      exponentialGlm, gammaGlm, invGaussGlm]
  have hw2 : ∀ w, f.data.weights = some w → f.data.freqSum (vmul w w) ≠ 0 := by
    intro w hwt
    rw [Dataset.freqSum_real, Dataset.finalize_freq hd]
    have e : ∀ i, vmul w w i = varWt raw i ^ 2 := by
      intro i
      rw [← Dataset.finalize_varWt hd]
      simp [vmul, varWt, hwt, sq]
    simpa only [e] using hw
  have hrank : f.rank = ncols b p := rfl
  refine ⟨fun hK => hr.dispersion hs hw2 (fun hd' => ?_) ?_, fun hf' hK => ?_⟩
  · rw [hrank, finalize_nEff hd]; exact hK (hfree.mp hd')
  · rwa [hf.sumWeights]
  · exact hr.dispersion_nan hw2 (hfree.mpr hf') (by rw [hrank, finalize_nEff hd]; exact hK)

/-- **C62**: Pearson, deviance, working and partial residuals are numbers. -/
theorem C62_residuals (hy : ∀ i, raw.y i ∈ yDom fam) (hw : ∀ i, 0 ≤ varWt raw i) :
    (f.strict fam.glm).residPear = Vec.strict f.residPear ∧
    (f.strict fam.glm).residDev = Vec.strict f.residDev ∧
    (f.strict fam.glm).residWork = Vec.strict f.residWork ∧
    ((b = true → weightSum raw ≠ 0) → (f.strict fam.glm).residPart = Mat.strict f.residPart) := by
  have hr := regular_of_fit hv hd h ha
  have hs := sat_of_fit hv hd h hy
  have hV := var_pos_of_fit hv hd h ha
  have hdt := devianceTerms_nonneg hd h hv hy hw ha
  obtain ⟨hg, rfl, rfl, hf⟩ := regression_ofRaw hd h
  have hA : ∀ i, (f.g.link.adjustErrorsVariance (f.residResp i) (f.g.variance (f.yHat i))
      (f.xLinPred i)).2 ≠ 0 := by
    intro i
    have hadj := Family.lawfulAdj fam
    have h1 := dNatParam_pos fam (f.xLinPred i)
    have h2 := hV i
    rw [hg] at h2 ⊢
    simp only [hadj.both, hadj.variance]
    positivity
  refine ⟨hr.residPear hV (by rwa [Dataset.finalize_varWt hd]), hr.residDev hs hdt, hr.residWork hA,
    fun hS => hr.residPart hA fun hb => ?_⟩
  have e : vsum (f.data.applyTotalWeights (vfill 1)) = weightSum raw := by
    rw [vsum_real, weightSum]
    refine Finset.sum_congr rfl fun i _ => ?_
    rw [Dataset.applyTotalWeights_real, Dataset.finalize_totalWt hd]; simp [vfill]
  rw [e]
  exact hS hb

/-- **C62**: the hat matrix, leverages and influences are numbers unless a leverage is 1. -/
theorem C62_leverage :
    (f.strict fam.glm).hat env.strict = (f.hat env).map Mat.strict ∧
    (f.strict fam.glm).leverage env.strict = (f.leverage env).map Vec.strict ∧
    ((∀ l, f.leverage env = .ok l → ∀ i, l i ≠ 1) →
      (f.strict fam.glm).inflCoef env.strict = (f.inflCoef env).map Mat.strict) := by
  have hr := regular_of_fit hv hd h ha
  exact ⟨hr.hatMat env, hr.leverage env, hr.inflCoef env⟩

/-- **C62**: the covariance is a number if the dispersion is, and with positive variances so are the Wald
`z` statistics. -/
theorem C62_covariance (hphi : (f.strict fam.glm).dispersion = val f.dispersion) :
    (f.strict fam.glm).covariance env.strict = (f.covariance env).map Mat.strict ∧
    ((∀ c, f.covariance env = .ok c → ∀ j, 0 < c j j) →
      (f.strict fam.glm).waldZ env.strict = (f.waldZ env).map Vec.strict) := by
  have hr := regular_of_fit hv hd h ha
  exact ⟨hr.covariance env hphi, hr.waldZ env hphi⟩

/-- **C62**: standardized residuals and Cook's distances are numbers if the dispersion is positive and
all leverages are below 1. -/
theorem C62_standardized (hy : ∀ i, raw.y i ∈ yDom fam) (hw : ∀ i, 0 ≤ varWt raw i)
    (hphi : (f.strict fam.glm).dispersion = val f.dispersion) (hpos : 0 < f.dispersion)
    (hl : ∀ l, f.leverage env = .ok l → ∀ i, l i < 1) :
    (f.strict fam.glm).residPearStd env.strict = (f.residPearStd env).map Vec.strict ∧
    (f.strict fam.glm).residDevStd env.strict = (f.residDevStd env).map Vec.strict ∧
    (f.strict fam.glm).devianceTermsLoo env.strict = (f.devianceTermsLoo env).map Vec.strict ∧
    (ncols b p ≠ 0 →
      (f.strict fam.glm).cooks env.strict = (f.cooks env).map Vec.strict) := by
  have hr := regular_of_fit hv hd h ha
  have hs := sat_of_fit hv hd h hy
  have hV := var_pos_of_fit hv hd h ha
  have hdt := devianceTerms_nonneg hd h hv hy hw ha
  obtain ⟨hg, rfl, rfl, hf⟩ := regression_ofRaw hd h
  have hw' : ∀ i, 0 ≤ varWt f.data i := by rwa [Dataset.finalize_varWt hd]
  have h0 : ∀ l, f.leverage env = .ok l → ∀ i, 0 < (-(l i) + 1) * f.dispersion :=
    fun l h i => mul_pos (by linarith [hl l h i]) hpos
  have hl' : ∀ l, f.leverage env = .ok l → ∀ i, l i ≠ 1 := fun l h i => (hl l h i).ne
  refine ⟨hr.residPearStd env hV hw' hphi h0, hr.residDevStd env hs hdt hphi h0,
    hr.devianceTermsLoo env hs hV hw' hl', fun hK => hr.cooks env hV hw' hphi ?_ hl'⟩
  have hrank : f.rank = (ncols b p : ℝ) := rfl
  rw [hrank]
  exact mul_ne_zero (Nat.cast_ne_zero.mpr hK) hpos.ne'

/-- **C62**: predictions for new features are numbers when the new predictors are admissible (always,
for links accepting all predictors). -/
theorem C62_predict {m : ℕ} (x : Mat ℝ m p) (off : Option (Vec ℝ m))
    (hx : ∀ i : Fin m, (∑ j, design b x i j * f.result j) + off.elim 0 (· i) ∈ predDom fam) :
    (f.strict fam.glm).predict (Mat.strict x) (off.map Vec.strict) = Vec.strict (f.predict x off) := by
  have hr := regular_of_fit hv hd h ha
  refine hr.predict x off fun i => ?_
  have e : Mat.dotV (Dataset.padded b x) f.result i = ∑ j, design b x i j * f.result j := by
    cases b <;> rw [dotV_real] <;> rfl
  have := hx i
  cases off with
  | none => simpa [e] using this
  | some off => simpa [e, vadd] using this

end

/-- The hypotheses are met by the least squares fit of three points: the dispersion is a number, and
positive. -/
example (std : Bool) : ∃ d f, (exRaw ![0, 1, 4]).finalize std true = some d ∧
    regression (exactEnv 0 0) Family.linear.glm d (exOpts 0 0 none 1) = .ok f ∧
    Admissible .linear (exRaw ![0, 1, 4]) true f.result ∧
    (∀ i, (exRaw ![0, 1, 4]).y i ∈ yDom .linear) ∧
    (∀ i, 0 < varWt (exRaw ![0, 1, 4]) i) ∧ weightSum (exRaw ![0, 1, 4]) ≠ 0 ∧
    ((ncols true 1 : ℕ) : ℝ) < effCount (exRaw ![0, 1, 4]) := by
  obtain ⟨d, f, hd, h, -⟩ := exLinFit std
  refine ⟨d, f, hd, h, fun _ => mem_univ _, fun _ => mem_univ _, ?_, ?_, ?_⟩
  · intro i; simp [varWt, exRaw]
  · simp only [weightSum, exRaw_totalWt, Fin.sum_univ_three]; simp; norm_num
  · simp only [effCount, freq, varWt, exRaw, Fin.sum_univ_three]; simp; norm_num

end GLM
