/-
  C36, C42, C45, C47, C51, C54: deviance, dispersion, residuals and information criteria.
-/
import Verif.Lemmas.Stats
import Verif.Props.Optimum

namespace GLM
open Spec Matrix
variable {n p : ℕ} {b : Bool} {env : Env ℝ} {g : Glm ℝ} {raw : Dataset ℝ n p false} {std : Bool}
  {d : Dataset ℝ n p b} {options : FitOptions ℝ (ncols b p)} {f : Fit ℝ n p b}

/-! ### C36 -/

section
variable (hd : raw.finalize std b = some d) (h : regression env g d options = .ok f)
include hd h

/-- **C36**: `deviance()` is twice the log-likelihood that the reported coefficients lack compared to
the saturated model, in terms of the user's data. -/
theorem C36_deviance : f.deviance = 2 * (satLik g raw - logLik g raw b f.result) := by
  obtain ⟨rfl, rfl, rfl, hf⟩ := regression_ofRaw hd h
  exact hf.deviance

/-- **C36**: the likelihood ratio against the fit itself is zero, with any regularization. -/
theorem C36_lr_self : f.lrTestAgainst f.result = 0 := by
  obtain ⟨rfl, rfl, rfl, hf⟩ := regression_ofRaw hd h
  simp only [Fit.lrTestAgainst, hf.like, hf.same.likelihood, objective_ext hd,
    (Dataset.finalize_wf hd).inverseTransformBeta_transformBeta, sub_self, mul_zero]

/-- `lr_test_against` is twice the difference of the objectives, with any regularization (including
L1). -/
theorem C36_lr (β : Vec ℝ (ncols b p)) : f.lrTestAgainst β
    = 2 * (penLogLik g raw b options.l1 options.l2 (scale d) f.result
      - penLogLik g raw b options.l1 options.l2 (scale d) β) := by
  obtain ⟨rfl, rfl, rfl, hf⟩ := regression_ofRaw hd h
  simp only [Fit.lrTestAgainst, hf.like, hf.same.likelihood, objective_ext hd,
    (Dataset.finalize_wf hd).inverseTransformBeta_transformBeta, two_real]

end

section
variable {fam : Family} (hd : raw.finalize std b = some d)
  (h : regression env fam.glm d options = .ok f)
include hd h

/-- The deviance contributions are non-negative. -/
theorem devianceTerms_nonneg (hv : ValidFamily fam) (hy : ∀ i, raw.y i ∈ yDom fam)
    (hw : ∀ i, 0 ≤ varWt raw i) (ha : Admissible fam raw b f.result) (i : Fin n) :
    0 ≤ f.devianceTerms i := by
  obtain ⟨hg, rfl, rfl, hf⟩ := regression_ofRaw hd h
  rw [hf.devianceTerms, hg]
  have := logLikeNatural_le_sat fam hv (hy i) (natParam_mem fam (ha i))
  refine mul_nonneg (hw i) (mul_nonneg two_pos.le (sub_nonneg.mpr this))

/-- **C36**: for every family of the crate, responses in its domain and admissible means: the squared
deviance residuals, summed with frequencies, are the deviance; each deviance residual has the sign of
the response residual. -/
theorem C36_resid_dev (hv : ValidFamily fam) (hy : ∀ i, raw.y i ∈ yDom fam)
    (hw : ∀ i, 0 ≤ varWt raw i) (ha : Admissible fam raw b f.result) :
    ∑ i, freq raw i * f.residDev i ^ 2 = f.deviance ∧
    ∀ i, 0 ≤ f.residDev i * (raw.y i - meanAt fam.glm raw b f.result i) := by
  have hterm := devianceTerms_nonneg hd h hv hy hw ha
  obtain ⟨hg, rfl, rfl, hf⟩ := regression_ofRaw hd h
  constructor
  · rw [Fit.deviance, Dataset.freqSum_real, Dataset.finalize_freq hd]
    refine Finset.sum_congr rfl fun i _ => ?_
    congr 1
    rw [Fit.residDev, mul_pow, sqrt_real, Real.sq_sqrt (hterm i), signum_real]
    split <;> ring
  · intro i
    rw [Fit.residDev, ← hg, ← hf.residResp, sqrt_real, signum_real]
    have := Real.sqrt_nonneg (f.devianceTerms i)
    split
    · rename_i hlt
      nlinarith [mul_nonneg this (neg_nonneg.mpr hlt.le)]
    · rename_i hge
      rw [one_mul]
      exact mul_nonneg this (not_lt.mp hge)

/-- The deviance is non-negative. -/
theorem C36_nonneg (hv : ValidFamily fam) (hy : ∀ i, raw.y i ∈ yDom fam)
    (hf : ∀ i, 0 ≤ freq raw i) (hw : ∀ i, 0 ≤ varWt raw i)
    (ha : Admissible fam raw b f.result) : 0 ≤ f.deviance := by
  rw [← (C36_resid_dev hd h hv hy hw ha).1]
  exact Finset.sum_nonneg fun i _ => mul_nonneg (hf i) (sq_nonneg _)

/-- The deviance of an interior response vanishes only at the saturated mean: if all weights are
positive, the deviance is zero exactly when every fitted mean equals its response. -/
theorem C36_zero_iff (hv : ValidFamily fam) (hy : ∀ i, raw.y i ∈ meanDom fam)
    (hf : ∀ i, 0 < freq raw i) (hw : ∀ i, 0 < varWt raw i)
    (ha : Admissible fam raw b f.result) :
    f.deviance = 0 ↔ ∀ i, meanAt fam.glm raw b f.result i = raw.y i := by
  obtain ⟨hg, rfl, rfl, hof⟩ := regression_ofRaw hd h
  have key : ∀ i, 0 ≤ f.devianceTerms i ∧
      (f.devianceTerms i = 0 ↔ meanAt fam.glm raw b f.result i = raw.y i) := by
    intro i
    rw [hof.devianceTerms, hg, logLikAt, logLikeSat_eq fam (hy i)]
    set η := (fam.glm (F := ℝ)).link.natParam (linPred raw b f.result i) with hη
    have hηm : η ∈ natDom fam := natParam_mem fam (ha i)
    have hm : meanOfNat fam η = meanAt fam.glm raw b f.result i := meanOfNat_natParam fam hv (ha i)
    have hc := canonicalLink_mem fam (hy i)
    have hyc := meanOfNat_canonicalLink fam (hy i)
    simp only [logLikeNatural_real]
    by_cases he : η = canonicalLink fam (raw.y i)
    · rw [he]
      refine ⟨by simp, iff_of_true (by simp) ?_⟩
      rw [← hm, he, hyc]
    · have hlt := cumulant_tangent_lt fam hv hηm hc he
      rw [hyc] at hlt
      have hpos : 0 < varWt raw i * (2 * (raw.y i * canonicalLink fam (raw.y i)
          - cumulant fam (canonicalLink fam (raw.y i)) - (raw.y i * η - cumulant fam η))) :=
        mul_pos (hw i) (by linarith)
      refine ⟨hpos.le, iff_of_false hpos.ne' ?_⟩
      intro h2
      exact he ((meanOfNat_strictMonoOn fam hv).injOn hηm hc (by rw [hm, h2, hyc]))
  rw [Fit.deviance, Dataset.freqSum_real, Dataset.finalize_freq hd,
    Finset.sum_eq_zero_iff_of_nonneg fun i _ => mul_nonneg (hf i).le (key i).1]
  refine ⟨fun h i => (key i).2.mp ?_, fun h i _ => ?_⟩
  · exact (mul_eq_zero.mp (h i (Finset.mem_univ _))).resolve_left (hf i).ne'
  · rw [(key i).2.mpr (h i), mul_zero]

end

/-- **C36**: for linear regression the deviance is the residual sum of squares, the weighted sum of
squared errors of the reported coefficients. -/
theorem C36_linear (hd : raw.finalize std b = some d)
    (h : regression env Family.linear.glm d options = .ok f) :
    f.deviance = f.rss ∧ f.rss = ∑ i, totalWt raw i * (raw.y i - linPred raw b f.result i) ^ 2 := by
  have h1 := C36_deviance hd h
  obtain ⟨hg, rfl, rfl, hf⟩ := regression_ofRaw hd h
  have h2 : f.rss = sse raw b f.result := by
    simp only [hf.rss, hg, meanAt, sse]
    simp only [funcInv_real]
  refine ⟨?_, h2⟩
  have h3 : logLik Family.linear.glm raw b f.result = _ := lin_logLik (raw := raw) (b := b) f.result
  rw [h1, h2, h3, satLik]
  simp only [logLikeSat_real, Finset.sum_div]
  rw [← sub_add, ← Finset.sum_sub_distrib]
  have : ∑ i, (totalWt raw i * (raw.y i ^ 2 / 2) - totalWt raw i * raw.y i ^ 2 / 2) = 0 :=
    Finset.sum_eq_zero fun i _ => by ring
  rw [this]; ring

/-- The example: deviance 1 (residuals 1/2, -1/2, 1/2 with frequencies 1, 2, 1). -/
example (std : Bool) : ∃ d f, (exRaw ![0, 1, 4]).finalize std true = some d ∧
    regression (exactEnv 0 0) Family.linear.glm d (exOpts 0 0 none 1) = .ok f ∧
    f.deviance = 1 ∧ Admissible .linear (exRaw ![0, 1, 4]) true f.result ∧
    (∀ i, (exRaw ![0, 1, 4]).y i ∈ yDom .linear) ∧ ∀ i, 0 ≤ varWt (exRaw ![0, 1, 4]) i := by
  obtain ⟨d, f, hd, hf, hr⟩ := exLinFit std
  refine ⟨d, f, hd, hf, ?_, fun i => Set.mem_univ _, fun i => Set.mem_univ _, fun i => ?_⟩
  · obtain ⟨h1, h2⟩ := C36_linear hd hf
    rw [h1, h2, hr]
    simp only [exRaw_totalWt, exRaw_linPred, Fin.sum_univ_three]
    simp [exRaw]; norm_num
  · simp [varWt, exRaw]

/-! ### C42 -/

theorem nEff_effCount (d : Dataset ℝ n p false) : d.nEff = effCount d := by
  unfold Dataset.nEff effCount
  cases hw : d.weights with
  | none =>
    simp only [Dataset.nObs_real, varWt, hw, mul_one, one_pow]
    by_cases h0 : ∑ i, freq d i = 0
    · rw [h0]; simp
    · field_simp
  | some w =>
    simp only [Dataset.freqSum_real, varWt, hw, vmul, sq]

theorem finalize_nEff (hd : raw.finalize std b = some d) : d.nEff = effCount raw := by
  rw [← nEff_effCount]
  obtain ⟨-, -, hw, hfr, -⟩ := Dataset.finalize_cases hd
  unfold Dataset.nEff Dataset.nObs Dataset.freqSum Dataset.applyFreqWeights
  rw [hw, hfr]

section
variable {fam : Family} (hd : raw.finalize std b = some d)
  (h : regression env fam.glm d options = .ok f)
include hd h

/-- **C42**: families with fixed dispersion report 1. -/
theorem C42_fixed (hfam : freeDispersion fam = false) : f.dispersion = 1 := by
  obtain ⟨hg, rfl, rfl, hf⟩ := regression_ofRaw hd h
  unfold Fit.dispersion
  rw [hg]
  cases fam <;> first | rfl | simp [freeDispersion] at hfam

/-- **C42**: the other families report `D / ((1 - K/n_eff) Σ w)` when `K < n_eff`. -/
theorem C42_free (hfam : freeDispersion fam = true) (hK : (ncols b p : ℝ) < effCount raw) :
    f.dispersion
      = devianceOf fam.glm raw b f.result / ((1 - ncols b p / effCount raw) * weightSum raw) := by
  obtain ⟨hg, rfl, rfl, hf⟩ := regression_ofRaw hd h
  have hle : Scalar.le (effCount raw) (ncols b p : ℝ) = false := by
    rw [Bool.eq_false_iff, ne_eq, le_real]
    exact not_le.mpr hK
  have hdisp : f.g.dispersed = .free := by
    rw [hg]
    cases fam <;> first | rfl | simp [freeDispersion] at hfam
  rw [Fit.dispersion, hdisp]
  simp only [hle, hf.deviance, hg, finalize_nEff hd, hf.sumWeights, Fit.rank, ofNat_real,
    Bool.false_eq_true, if_false]

omit hd h in
/-- **C42**: in any arithmetic, a free dispersion with no degrees of freedom left is the deviance
divided by zero (and not a number of the wrong sign, as the formula would give); see `C62_dispersion`
for what that is. -/
theorem C42_underdetermined {F : Type} [Scalar F] {f : Fit F n p b} (hfree : f.g.dispersed = .free)
    (hK : Scalar.le f.data.nEff f.rank = true) : f.dispersion = f.deviance / 0 := by
  unfold Fit.dispersion
  rw [hfree]
  simp only [hK, if_true]

/-- **C42**: without variance weights this is `D / (N - K)`. -/
theorem C42_no_weights (hfam : freeDispersion fam = true) (hw : raw.weights = none)
    (hK : (ncols b p : ℝ) < obsCount raw) :
    f.dispersion = devianceOf fam.glm raw b f.result / (obsCount raw - ncols b p) := by
  have hvw : ∀ i, varWt raw i = 1 := fun i => by simp [varWt, hw]
  have hN : 0 < obsCount raw := lt_of_le_of_lt (Nat.cast_nonneg _) hK
  have hws : weightSum raw = obsCount raw := by simp [weightSum, obsCount, totalWt, hvw]
  have heff : effCount raw = obsCount raw := by
    simp only [effCount, hvw, mul_one, one_pow, obsCount] at hN ⊢
    field_simp
  rw [C42_free hd h hfam (by rwa [heff]), hws, heff, sub_mul, one_mul, div_mul_cancel₀ _ hN.ne']

/-- The dispersion estimate is non-negative. -/
theorem C42_nonneg (hv : ValidFamily fam) (hy : ∀ i, raw.y i ∈ yDom fam)
    (hfr : ∀ i, 0 ≤ freq raw i) (hw : ∀ i, 0 ≤ varWt raw i)
    (ha : Admissible fam raw b f.result) (hK : (ncols b p : ℝ) < effCount raw) :
    0 ≤ f.dispersion := by
  cases hfam : freeDispersion fam with
  | false => rw [C42_fixed hd h hfam]; exact zero_le_one
  | true =>
    have hN : 0 < effCount raw := lt_of_le_of_lt (Nat.cast_nonneg _) hK
    have h0 := C36_nonneg hd h hv hy hfr hw ha
    rw [C36_deviance hd h] at h0
    rw [C42_free hd h hfam hK]
    refine div_nonneg h0 (mul_nonneg ?_ ?_)
    · rw [sub_nonneg, div_le_one hN]; exact hK.le
    · exact Finset.sum_nonneg fun i _ => mul_nonneg (hfr i) (hw i)

end

/-- The example: `D/(N - K) = 1/(4 - 2)`. -/
theorem exLinFit_dispersion (std : Bool) : ∃ d f, (exRaw ![0, 1, 4]).finalize std true = some d ∧
    regression (exactEnv 0 0) Family.linear.glm d (exOpts 0 0 none 1) = .ok f ∧
    f.dispersion = 1 / 2 := by
  obtain ⟨d, f, hd, hf, hr⟩ := exLinFit std
  refine ⟨d, f, hd, hf, ?_⟩
  have hN : obsCount (exRaw ![0, 1, 4]) = 4 := by
    simp [obsCount, freq, exRaw, Fin.sum_univ_three]; norm_num
  rw [C42_no_weights hd hf rfl rfl (by rw [hN]; norm_num), hN]
  obtain ⟨h1, h2⟩ := C36_linear hd hf
  rw [devianceOf, ← C36_deviance hd hf, h1, h2, hr]
  simp only [exRaw_totalWt, exRaw_linPred, Fin.sum_univ_three]
  simp [exRaw]; norm_num

/-! ### C47 -/

/-- **C47**: degrees of freedom. -/
theorem C47_ndf (hd : raw.finalize std b = some d) (h : regression env g d options = .ok f) :
    f.rank = p + (if b then 1 else 0) ∧ f.testNdf = p ∧
      f.ndf = obsCount raw - (p + (if b then 1 else 0)) := by
  obtain ⟨rfl, rfl, rfl, hf⟩ := regression_ofRaw hd h
  have hrk : f.rank = p + (if b then 1 else 0) := by
    cases b <;> simp [Fit.rank]
  refine ⟨hrk, ?_, by rw [Fit.ndf, hrk, hf.nObs]⟩
  cases b <;> simp [Fit.testNdf]

/-! ### C51 -/

section
variable {fam : Family} (hd : raw.finalize std b = some d)
  (h : regression env fam.glm d options = .ok f)
include hd h

/-- **C51**: Pearson residuals are `√(w / V(μ)) (y - μ)`. -/
theorem C51_pearson (i : Fin n) : f.residPear i
    = √(varWt raw i / varianceFn fam (meanAt fam.glm raw b f.result i))
      * (raw.y i - meanAt fam.glm raw b f.result i) := by
  obtain ⟨hg, rfl, rfl, hf⟩ := regression_ofRaw hd h
  simp only [Fit.residPear, Dataset.applyVarWeights_real, Dataset.finalize_varWt hd, hf.residResp,
    hf.mean, hg, sqrt_real, recip_real, variance_real, mul_one_div]

/-- **C51**: the working residual is the response residual times the derivative of the link at the
fitted mean, for canonical and other links. -/
theorem C51_working (hv : ValidFamily fam) (i : Fin n)
    (ha : linPred raw b f.result i ∈ predDom fam) :
    f.residWork i = (raw.y i - meanAt fam.glm raw b f.result i)
      * deriv (linkFn fam) (meanAt fam.glm raw b f.result i) := by
  obtain ⟨hg, rfl, rfl, hf⟩ := regression_ofRaw hd h
  have hlf : linkFn fam = (fam.glm (F := ℝ)).link.func := by
    funext μ; rw [func_eq_linkFn]
  have hm := funcInv_mem fam hv ha
  have hder := (func_hasDerivAt fam hv hm).deriv
  rw [func_funcInv fam hv ha] at hder
  rw [hlf, meanAt, hder, Fit.residWork]
  have hadj := Family.lawfulAdj fam
  simp only [hf.residResp, hf.lin, hf.mean, hg, hadj.both, hadj.errors, hadj.variance, meanAt]
  have h1 := dNatParam_pos fam (linPred raw b f.result i)
  have h2 := varianceFn_pos fam hv hm
  rw [← variance_real] at h2
  field_simp

end

/-- **C51**: for linear regression Pearson and deviance residuals are both `√w (y - ŷ)` and working
residuals are response residuals. -/
theorem C51_linear (hd : raw.finalize std b = some d)
    (h : regression env Family.linear.glm d options = .ok f) (hw : ∀ i, 0 ≤ varWt raw i)
    (i : Fin n) :
    f.residResp i = raw.y i - linPred raw b f.result i ∧
    f.residWork i = f.residResp i ∧
    f.residPear i = √(varWt raw i) * f.residResp i ∧
    f.residDev i = √(varWt raw i) * f.residResp i := by
  have hp := C51_pearson hd h i
  obtain ⟨hg, rfl, rfl, hf⟩ := regression_ofRaw hd h
  have hmean : meanAt Family.linear.glm raw b f.result i = linPred raw b f.result i := by
    simp only [meanAt, funcInv_real]
  have hr : f.residResp i = raw.y i - linPred raw b f.result i := by
    rw [hf.residResp, hg, hmean]
  refine ⟨hr, ?_, ?_, ?_⟩
  · have hadj := Family.lawfulAdj Family.linear
    simp only [Fit.residWork, hg, hadj.both, hadj.errors, hadj.variance, dNatParam_real,
      variance_real, varianceFn]
    ring
  · rw [hp, hmean, hr, varianceFn, div_one]
  · have ht : f.devianceTerms i = varWt raw i * f.residResp i ^ 2 := by
      rw [hf.devianceTerms, hg, logLikAt, hr]
      simp only [logLikeSat_real, natParam_real, logLikeNatural_real, cumulant]
      ring
    rw [Fit.residDev, ht, sqrt_real, Real.sqrt_mul (hw i), Real.sqrt_sq_eq_abs, signum_real]
    split
    · rename_i hlt; rw [abs_of_neg hlt]; ring
    · rename_i hge; rw [abs_of_nonneg (not_lt.mp hge)]; ring

/-! ### C54 -/

section
variable (hd : raw.finalize std b = some d) (h : regression env g d options = .ok f)
include hd h

/-- **C54**: the information criteria in terms of the user's data. -/
theorem C54_formulas :
    f.aic = devianceOf g raw b f.result + 2 * ncols b p
        - 2 * ∑ i, freq raw i * Real.log (varWt raw i) ∧
    f.bic = ncols b p * Real.log (obsCount raw)
        - 2 * penLogLik g raw b options.l1 options.l2 (scale d) f.result
        - 2 * ∑ i, freq raw i * Real.log (varWt raw i) := by
  obtain ⟨rfl, rfl, rfl, hf⟩ := regression_ofRaw hd h
  have hs : f.sumLogWeights = ∑ i, freq raw i * Real.log (varWt raw i) := by
    simp only [Fit.sumLogWeights, Dataset.freqSum_real, Dataset.getVarianceWeights_real,
      Dataset.finalize_varWt hd, Dataset.finalize_freq hd, ln_real]
  constructor
  · rw [Fit.aic, hf.deviance, hs, Fit.rank, ofNat_real, two_real]
  · rw [Fit.bic, hf.nObs, hs, hf.like, Fit.rank, ofNat_real, two_real, ln_real]; ring

/-- **C54**: without variance weights the last term vanishes. -/
theorem C54_no_weights (hw : raw.weights = none) :
    f.aic = devianceOf g raw b f.result + 2 * ncols b p ∧
    f.bic = ncols b p * Real.log (obsCount raw)
        - 2 * penLogLik g raw b options.l1 options.l2 (scale d) f.result := by
  have hvw : ∀ i, varWt raw i = 1 := fun i => by simp [varWt, hw]
  obtain ⟨h1, h2⟩ := C54_formulas hd h
  simpa [hvw] using And.intro h1 h2

/-- **C54**: for unregularized fits, AIC and BIC differ by a function of the data alone plus
`K (ln N - 2)`: both rank models of the same size by likelihood. -/
theorem C54_bic_aic (hl1 : options.l1 ≤ 0) (hl2 : options.l2 ≤ 0) :
    f.bic - f.aic = ncols b p * (Real.log (obsCount raw) - 2) - 2 * satLik g raw := by
  obtain ⟨h1, h2⟩ := C54_formulas hd h
  rw [h1, h2, devianceOf, penLogLik, penalty, max_eq_right hl1, max_eq_right hl2]
  ring

end

/-- **C54**: without regularization the criteria do not depend on standardization. -/
theorem C54_standardization {std₁ std₂ : Bool} {d₁ d₂ : Dataset ℝ n p b}
    {options₁ options₂ : FitOptions ℝ (ncols b p)} {env₁ env₂ : Env ℝ}
    (hd₁ : raw.finalize std₁ b = some d₁) (hd₂ : raw.finalize std₂ b = some d₂)
    (h₁ : options₁.l1 ≤ 0 ∧ options₁.l2 ≤ 0) (h₂ : options₂.l1 ≤ 0 ∧ options₂.l2 ≤ 0)
    {f₁ f₂ : Fit ℝ n p b} (hf₁ : regression env₁ g d₁ options₁ = .ok f₁)
    (hf₂ : regression env₂ g d₂ options₂ = .ok f₂) (hr : f₁.result = f₂.result) :
    f₁.aic = f₂.aic ∧ f₁.bic = f₂.bic ∧ f₁.deviance = f₂.deviance := by
  obtain ⟨a1, a2⟩ := C54_formulas hd₁ hf₁
  obtain ⟨b1, b2⟩ := C54_formulas hd₂ hf₂
  have hl : ∀ (l1 l2 : ℝ) (σ : Fin p → ℝ) β, l1 ≤ 0 → l2 ≤ 0 →
      penLogLik g raw b l1 l2 σ β = logLik g raw b β := by
    intro l1 l2 σ β h1 h2
    simp [penLogLik, penalty, max_eq_right h1, max_eq_right h2]
  refine ⟨by rw [a1, b1, hr], ?_, by rw [C36_deviance hd₁ hf₁, C36_deviance hd₂ hf₂, hr]⟩
  rw [a2, b2, hl _ _ _ _ h₁.1 h₁.2, hl _ _ _ _ h₂.1 h₂.2, hr]

/-! ### C45 -/

/-- **C45**: with an intercept the weighted sum of each column of partial residuals is the weighted
sum of the working residuals. -/
theorem C45_sum {raw : Dataset ℝ n p false} {d : Dataset ℝ n p true} {f : Fit ℝ n p true}
    {options : FitOptions ℝ (ncols true p)} (hd : raw.finalize std true = some d)
    (h : regression env g d options = .ok f) (hW : weightSum raw ≠ 0) (j : Fin p) :
    ∑ i, totalWt raw i * f.residPart i j = ∑ i, totalWt raw i * f.residWork i := by
  obtain ⟨rfl, rfl, rfl, hf⟩ := regression_ofRaw hd h
  have hp : ∀ i, f.residPart i j = f.residWork i
      + (raw.x i j - (∑ k, raw.x k j * totalWt raw k) / weightSum raw) * f.featureCoef j := by
    intro i
    simp only [Fit.residPart, if_true, Dataset.finalize_xOrig hd, vsum_real,
      Dataset.applyTotalWeights_real, Dataset.finalize_totalWt hd, vfill, mul_one]
    rfl
  simp only [hp, mul_add, Finset.sum_add_distrib]
  have : ∑ i, totalWt raw i * ((raw.x i j - (∑ k, raw.x k j * totalWt raw k) / weightSum raw)
      * f.featureCoef j) = 0 := by
    have e : ∀ i, totalWt raw i * ((raw.x i j - (∑ k, raw.x k j * totalWt raw k) / weightSum raw)
        * f.featureCoef j) = (raw.x i j * totalWt raw i) * f.featureCoef j - totalWt raw i *
          ((∑ k, raw.x k j * totalWt raw k) / weightSum raw * f.featureCoef j) := fun i => by ring
    simp only [e, Finset.sum_sub_distrib, ← Finset.sum_mul]
    change _ - weightSum raw * _ = 0
    field_simp
    ring
  rw [this, add_zero]

/-- **C45**: for a linear fit at which the intercept's score vanishes, each column of partial
residuals sums to zero, as documented. -/
theorem C45_linear {raw : Dataset ℝ n p false} {d : Dataset ℝ n p true} {f : Fit ℝ n p true}
    {options : FitOptions ℝ (ncols true p)} (hd : raw.finalize std true = some d)
    (h : regression env Family.linear.glm d options = .ok f) (hW : weightSum raw ≠ 0)
    (hs : f.score f.result (0 : Fin (p + 1)) = 0) (j : Fin p) :
    ∑ i, totalWt raw i * f.residPart i j = 0 := by
  rw [C45_sum hd h hW]
  obtain ⟨hg, rfl, rfl, hf⟩ := regression_ofRaw hd h
  rw [Fit.score_ext hd (by rw [hg]; exact Family.lawfulAdj .linear) hf.same] at hs
  have hadj := Family.lawfulAdj Family.linear
  have e : ∀ i, f.residWork i = raw.y i - linPred raw true f.result i := by
    intro i
    simp only [Fit.residWork, hf.residResp, hg, hadj.both, hadj.errors, hadj.variance,
      dNatParam_real, variance_real, varianceFn, meanAt, funcInv_real]
    ring
  simp only [penScore, onSlopes, Fin.cons_zero, sub_zero, scoreVec, design, mul_one] at hs
  rw [← hs]
  refine Finset.sum_congr rfl fun i _ => ?_
  rw [e, hg]
  simp only [dNatParam_real, meanAt, funcInv_real, mul_one]

theorem exPoisson_means (i : Fin 3) : Real.exp (![0, 1, 2] i * Real.log 2) = ![1, 2, 4] i := by
  fin_cases i
  · simp
  · simp [Real.exp_log]
  · simp only [Fin.reduceFinMk, Matrix.cons_val]
    rw [two_mul, Real.exp_add, Real.exp_log two_pos]; norm_num

/-- Responses 2, 1, 5 with frequencies 1, 2, 1: the Poisson fit has means 1, 2, 4. -/
theorem exPoisson_stationary' (σ : Fin 1 → ℝ) :
    penScore Family.poisson.glm (exRaw ![2, 1, 5]) true 0 0 σ ![0, Real.log 2] = 0 := by
  funext j
  simp only [penScore, max_self, zero_mul, add_zero, onSlopes_zero, sub_zero, scoreVec, meanAt,
    dNatParam_real, funcInv_real, exRaw_linPred, exRaw_totalWt, Pi.zero_apply]
  have hz : (![0, Real.log 2] : Vec ℝ 2) 0 = 0 := rfl
  have ho : (![0, Real.log 2] : Vec ℝ 2) 1 = Real.log 2 := rfl
  simp only [hz, ho, zero_add, exPoisson_means, Fin.sum_univ_three]
  refine Fin.cases ?_ (fun j => ?_) (j : Fin 2)
  · simp [design, exRaw]; norm_num
  · fin_cases j
    simp [design, exRaw]; norm_num

/-- **C45**: the documented claim "partial residuals sum to zero" fails for other families: in an
exact Poisson fit with intercept (zero score) the weighted partial residuals sum to 1/4. -/
theorem C45_poisson_counterexample (std : Bool) :
    ∃ d f, (exRaw ![2, 1, 5]).finalize std true = some d ∧
      regression (exactEnv (1 / 1000) 7) Family.poisson.glm d
        (exOpts 0 0 (some ![0, Real.log 2]) 5) = .ok f ∧
      f.score f.result = 0 ∧
      ∑ i, totalWt (exRaw ![2, 1, 5]) i * f.residPart i 0 = 1 / 4 := by
  obtain ⟨d, hd⟩ := exRaw_finalize ![2, 1, 5] std true
  have hs := exPoisson_stationary' (scale d)
  generalize hβ : (![0, Real.log 2] : Vec ℝ (ncols true 1)) = β at hs
  obtain ⟨f, h1, -, -, h2⟩ := C22_stationary_start
    (options := exOpts 0 0 (some β) 5)
    (exactEnv_exact (by norm_num : (0 : ℝ) ≤ 1 / 1000) 7) (Family.lawfulAdj .poisson) hd le_rfl rfl
    (exPoisson_newton _ _ (by norm_num [exactEnv]) _) (by simpa only [exOpts] using hs)
  refine ⟨d, f, hd, h1, ?_, ?_⟩
  · obtain ⟨hg, rfl, ho, hf⟩ := regression_ofRaw hd h1
    rw [Fit.score_ext hd (by rw [hg]; exact Family.lawfulAdj .poisson) hf.same, hg, ho, h2]
    exact hs
  · have hW : weightSum (exRaw ![2, 1, 5]) ≠ 0 := by
      simp only [weightSum, exRaw_totalWt, Fin.sum_univ_three]; simp; norm_num
    rw [C45_sum hd h1 hW]
    have hw : ∀ i, f.residWork i = ((exRaw ![2, 1, 5]).y i - ![1, 2, 4] i) / ![1, 2, 4] i := by
      intro i
      rw [C51_working hd h1 trivial i (Set.mem_univ _), h2, ← hβ, meanAt, exRaw_linPred]
      have hz : (![0, Real.log 2] : Vec ℝ 2) 0 = 0 := rfl
      have ho : (![0, Real.log 2] : Vec ℝ 2) 1 = Real.log 2 := rfl
      simp only [hz, ho, zero_add, funcInv_real, linkFn, canonicalLink, exPoisson_means,
        Real.deriv_log]
      rw [div_eq_mul_inv]
    simp only [hw, exRaw_totalWt, Fin.sum_univ_three]
    simp [exRaw]; norm_num

end GLM
