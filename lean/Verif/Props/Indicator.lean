/-
  C114: an indicator of one observation takes it out of the fit.
-/
import Verif.Spec.Indicator
import Verif.Props.Partial
import Verif.Props.Influence
import Verif.Props.UnitDeviance

namespace GLM
open Spec Matrix
variable {n p : ℕ} {b : Bool} {env env' env₀ env₁ : Env ℝ} {fam : Family}
  {raw : Dataset ℝ n (p + 1) false} {j : Fin (p + 1)} {i : Fin n} {std std₀ std₁ : Bool}
  {d : Dataset ℝ n (p + 1) b} {d₀ d₁ : Dataset ℝ n p b}
  {o : FitOptions ℝ (ncols b (p + 1))} {o₀ o₁ : FitOptions ℝ (ncols b p)}
  {f : Fit ℝ n (p + 1) b} {g e : Fit ℝ n p b}

theorem indicator_linPred (hj : SinglesOut raw j i) (β : Vec ℝ (ncols b (p + 1))) (k : Fin n) :
    linPred raw b β k = linPred (dropFeature raw j) b (without b j β) k + if k = i then slope β j else 0 := by
  rw [linPred, linPred, sum_idx j, design_slope, ← slope_idx j β, hj k,
    show offset (dropFeature raw j) k = offset raw k from rfl]
  have : ∑ l, design b raw.x k (otherIdx b j l) * β (otherIdx b j l)
      = ∑ l, design b (dropFeature raw j).x k l * without b j β l :=
    Finset.sum_congr rfl fun l _ => by
      rw [design_other (x' := (dropFeature raw j).x) (fun _ _ => rfl), without_idx]
  rw [this]
  split <;> ring

/-- **C114**.  The observation that the feature singles out is fitted exactly, for every family and link. -/
theorem C114_exact (hf : PlainFit env fam raw std d o f) (hj : SinglesOut raw j i) (hw : totalWt raw i ≠ 0) :
    f.yHat i = raw.y i ∧ f.residResp i = 0 := by
  obtain ⟨g1, -, -, hF⟩ := regression_ofRaw hf.built hf.fit
  have h := congrFun hf.score_eq (slopeIdx b j)
  have hj : ∀ k, raw.x k j = if k = i then 1 else 0 := hj
  simp only [scoreVec, design_slope, hj, mul_ite, mul_one, mul_zero, Finset.sum_ite_eq', Finset.mem_univ,
    if_true, Pi.zero_apply] at h
  have h0 := (mul_eq_zero.mp h).resolve_left (mul_ne_zero hw (dNatParam_pos fam _).ne')
  rw [hF.residResp, hF.mean, g1]
  exact ⟨by linarith, h0⟩

/-- **C114**.  The other coefficients solve the score equation of the data without the feature and without the
observation, and the other observations have the fitted values of these coefficients. -/
theorem C114_others (hf : PlainFit env fam raw std d o f) (hj : SinglesOut raw j i) (hw : totalWt raw i ≠ 0) :
    scoreVec fam.glm (withoutObs (dropFeature raw j) i) b (without b j f.result) = 0 ∧
    ∀ k, k ≠ i → f.yHat k = meanAt fam.glm (dropFeature raw j) b (without b j f.result) k := by
  obtain ⟨g1, -, -, hF⟩ := regression_ofRaw hf.built hf.fit
  have hlin : ∀ k, k ≠ i → linPred raw b f.result k
      = linPred (dropFeature raw j) b (without b j f.result) k := fun k hk => by
    rw [indicator_linPred hj, if_neg hk, add_zero]
  refine ⟨?_, fun k hk => by rw [hF.mean, g1, meanAt, meanAt, hlin k hk]⟩
  have hi := (C114_exact hf hj hw).2
  rw [hF.residResp, g1] at hi
  funext l
  have h := congrFun hf.score_eq (otherIdx b j l)
  rw [Pi.zero_apply] at h ⊢
  rw [← h, scoreVec, scoreVec]
  refine Finset.sum_congr rfl fun k _ => ?_
  rw [withoutObs_totalWt, design_other (x' := (dropFeature raw j).x) (fun _ _ => rfl)]
  by_cases hk : k = i
  · subst hk
    rw [if_pos rfl, hi]; ring
  · rw [if_neg hk, meanAt, meanAt, hlin k hk]
    rfl

theorem unitDeviance_self (fam : Family) (y : ℝ) : unitDeviance fam y y = 0 := by
  have h : ∀ t : ℝ, Real.log (t / t) = 0 := fun t => by
    rcases eq_or_ne t 0 with rfl | ht
    · simp
    · rw [div_self ht, Real.log_one]
  cases fam <;> simp [unitDeviance, h]

/-- **C114**.  The deviance is that of the fit of the data without the feature and without the observation, which
has the same other coefficients if it has a unique optimum. -/
theorem C114_refit (hv : ValidFamily fam) (hf : PlainFit env fam raw std d o f) (hj : SinglesOut raw j i)
    (hw : totalWt raw i ≠ 0) (hy : ∀ k, raw.y k ∈ yDom fam) (ha : Admissible fam raw b f.result)
    (he : PlainFit env₁ fam (withoutObs (dropFeature raw j) i) std₁ d₁ o₁ e)
    (hc : Concave fam (withoutObs (dropFeature raw j) i))
    (hpd : (gram (withoutObs (dropFeature raw j) i) b).PosDef)
    (ha₁ : Admissible fam (withoutObs (dropFeature raw j) i) b e.result)
    (ha₂ : Admissible fam (withoutObs (dropFeature raw j) i) b (without b j f.result)) :
    e.result = without b j f.result ∧ f.deviance = e.deviance := by
  have hr : e.result = without b j f.result := by
    by_contra hne
    have hpen : ∀ β, scoreVec fam.glm (withoutObs (dropFeature raw j) i) b β = 0 →
        penScore fam.glm (withoutObs (dropFeature raw j) i) b 0 0 1 β = 0 := fun β h => by
      rw [← h]
      funext j
      simp only [penScore, max_self, zero_mul, add_zero, onSlopes_zero, sub_zero]
    have hpd' : (gram (withoutObs (dropFeature raw j) i) b + ridgeMat 0 1 b).PosDef := by
      rw [ridgeMat]; simpa [onSlopes_zero] using hpd
    have h1 := C29_unique_optimum (l1 := 0) (l2 := 0) (σ := 1) hc (fun _ => one_pos) hpd' ha₁
      (hpen _ he.score_eq) ha₂ (Ne.symm hne)
    have h2 := C29_unique_optimum (l1 := 0) (l2 := 0) (σ := 1) hc (fun _ => one_pos) hpd' ha₂
      (hpen _ (C114_others hf hj hw).1) ha₁ hne
    exact lt_asymm h1 h2
  refine ⟨hr, ?_⟩
  rw [C81_deviance hf.built hf.fit hv hy ha, C81_deviance he.built he.fit hv hy ha₁]
  refine Finset.sum_congr rfl fun k _ => ?_
  obtain ⟨g1, -, -, hE⟩ := regression_ofRaw he.built he.fit
  rw [withoutObs_totalWt]
  by_cases hk : k = i
  · subst hk
    rw [if_pos rfl, (C114_exact hf hj hw).1, unitDeviance_self]; ring
  · rw [if_neg hk, (C114_others hf hj hw).2 k hk, hE.mean, g1, hr]
    rfl

/-! ### The Linear family -/

/-- The other coefficients, from those of the fit without the feature. -/
theorem indicator_shift (hf : PlainFit env .linear raw std d o f) (hj : SinglesOut raw j i)
    (hg : PlainFit env₀ .linear (dropFeature raw j) std₀ d₀ o₀ g) (hu : IsUnit (gram (dropFeature raw j) b).det) :
    without b j f.result = g.result - (slope f.result j * totalWt raw i) •
      ((gram (dropFeature raw j) b)⁻¹ *ᵥ design b (dropFeature raw j).x i) := by
  set G := gram (dropFeature raw j) b with hG
  have h1 : scoreVec linG (dropFeature raw j) b (without b j f.result)
      = (slope f.result j * totalWt raw i) • design b (dropFeature raw j).x i := by
    funext l
    have h := congrFun hf.score_eq (otherIdx b j l)
    rw [lin_score, Pi.zero_apply] at h
    simp only [indicator_linPred hj, design_other (x' := (dropFeature raw j).x) (fun _ _ => rfl)] at h
    rw [lin_score]
    have : ∀ k, totalWt raw k * (raw.y k - (linPred (dropFeature raw j) b (without b j f.result) k
        + if k = i then slope f.result j else 0)) * design b (dropFeature raw j).x k l
        = totalWt (dropFeature raw j) k * ((dropFeature raw j).y k
          - linPred (dropFeature raw j) b (without b j f.result) k) * design b (dropFeature raw j).x k l
          - if k = i then slope f.result j * totalWt raw k * design b (dropFeature raw j).x k l else 0 := by
      intro k
      change _ = totalWt raw k * (raw.y k - _) * _ - _
      split <;> ring
    simp only [this, Finset.sum_sub_distrib, Finset.sum_ite_eq', Finset.mem_univ, if_true] at h
    rw [Pi.smul_apply, smul_eq_mul]
    linarith
  have h2 := lin_score_add (raw := dropFeature raw j) g.result (without b j f.result - g.result)
  rw [add_sub_cancel, h1, show scoreVec linG (dropFeature raw j) b g.result = 0 from hg.score_eq, zero_sub] at h2
  have h3 := congrArg (fun z => G⁻¹ *ᵥ z) h2
  simp only [mulVec_smul, mulVec_neg, ← hG, mulVec_mulVec, nonsing_inv_mul _ hu, one_mulVec] at h3
  rw [h3]; abel

/-- **C114** (Linear).  The coefficient of the indicator is the residual of the observation from the fit that
leaves it out, `r / (1 - h)` with the residual `r` and the leverage `h` of the fit without the indicator; its
variance is the dispersion over `w (1 - h)`. -/
theorem C114_linear (hf : PlainFit env .linear raw std d o f) (hj : SinglesOut raw j i)
    (hg : PlainFit env₀ .linear (dropFeature raw j) std₀ d₀ o₀ g) (he : env'.Exact) {lev : Vec ℝ n}
    (hlev : g.leverage env' = .ok lev) (hu : IsUnit (gram raw b).det) :
    lev i ≠ 1 ∧ slope f.result j = g.residResp i / (1 - lev i) ∧
    slope f.result j = raw.y i - linPred (dropFeature raw j) b (without b j f.result) i ∧
    ∃ cov, f.covariance env' = .ok cov ∧
      slope (fun k => cov k k) j = f.dispersion / (totalWt raw i * (1 - lev i)) ∧
      ∃ z, f.waldZ env' = .ok z ∧ slope z j = slope f.result j / √(f.dispersion / (totalWt raw i * (1 - lev i))) := by
  obtain ⟨hG, hl⟩ := leverage_eq (Family.lawfulAdj .linear) hg.built hg.fit he hlev
  have hfg : Matrix.of (g.fisher g.result) = gram (dropFeature raw j) b := hg.fisher_eq.trans (lin_fisher _)
  rw [hfg] at hG hl
  set G := gram (dropFeature raw j) b with hGdef
  set v := G⁻¹ *ᵥ design b (dropFeature raw j).x i with hv
  have hli : lev i = totalWt raw i * (design b (dropFeature raw j).x i ⬝ᵥ v) := by
    rw [hl i]
    simp only [dNatParam_real, variance_real, varianceFn, one_pow, mul_one]
    rfl
  have hfA : Matrix.of (f.fisher f.result) = gram raw b := hf.fisher_eq.trans (lin_fisher _)
  set A := gram raw b with hA
  have hdet : IsUnit (Matrix.of (f.fisher f.result)).det := by rw [hfA]; exact hu
  obtain ⟨cov, hcov⟩ : ∃ cov, f.covariance env' = .ok cov := by
    unfold Fit.covariance Fit.fisherInv
    rw [he.inv_eq hdet]
    exact ⟨_, rfl⟩
  obtain ⟨-, hc⟩ := covariance_eq (Family.lawfulAdj .linear) hf.built hf.fit he hcov
  rw [← hf.fisher_eq, nonsing_inv_mul _ hdet, Matrix.one_mul, hfA] at hc
  -- the column of the inverse
  set δ : Vec ℝ (ncols b (p + 1)) := fun k => A⁻¹ k (slopeIdx b j) with hδ
  have hAδ : ∀ k, (A *ᵥ δ) k = if k = slopeIdx b j then 1 else 0 := by
    intro k
    have := congrFun (congrFun (mul_nonsing_inv A hu) k) (slopeIdx b j)
    rw [one_apply] at this
    rw [← this]; rfl
  have hx : ∀ k, ∑ l, design b raw.x k l * δ l
      = ∑ l, design b (dropFeature raw j).x k l * without b j δ l + if k = i then slope δ j else 0 := by
    intro k
    have := indicator_linPred hj δ k
    rw [linPred, linPred, show offset (dropFeature raw j) k = offset raw k from rfl] at this
    linarith
  have hw : ∀ k, (A *ᵥ δ) k = ∑ m, totalWt raw m * design b raw.x m k * ∑ l, design b raw.x m l * δ l := by
    intro k
    simp only [mulVec, dotProduct, hA, gram, Finset.sum_mul, Finset.mul_sum]
    rw [Finset.sum_comm]
    exact Finset.sum_congr rfl fun i _ => Finset.sum_congr rfl fun l _ => by ring
  have r1 : totalWt raw i * (∑ l, design b (dropFeature raw j).x i l * without b j δ l + slope δ j) = 1 := by
    have := hAδ (slopeIdx b j)
    have hj' : ∀ k, raw.x k j = if k = i then 1 else 0 := hj
    rw [if_pos rfl, hw] at this
    simp only [design_slope, hj', hx, mul_ite, mul_one, mul_zero, ite_mul, zero_mul, Finset.sum_ite_eq',
      Finset.mem_univ, if_true] at this
    exact this
  have r2 : without b j δ = -((slope δ j * totalWt raw i) • v) := by
    have h1 : G *ᵥ without b j δ = -((slope δ j * totalWt raw i) • design b (dropFeature raw j).x i) := by
      funext l
      have h := hAδ (otherIdx b j l)
      rw [if_neg (otherIdx_ne j l), hw] at h
      simp only [design_other (x' := (dropFeature raw j).x) (fun _ _ => rfl), hx, mul_add, mul_ite, mul_zero,
        Finset.sum_add_distrib, Finset.sum_ite_eq', Finset.mem_univ, if_true] at h
      have e1 : (G *ᵥ without b j δ) l = ∑ m, totalWt raw m * design b (dropFeature raw j).x m l
          * ∑ l, design b (dropFeature raw j).x m l * without b j δ l := by
        simp only [mulVec, dotProduct, hGdef, gram, Finset.sum_mul, Finset.mul_sum]
        rw [Finset.sum_comm]
        refine Finset.sum_congr rfl fun i _ => Finset.sum_congr rfl fun l _ => ?_
        rw [show totalWt (dropFeature raw j) i = totalWt raw i from rfl]; ring
      rw [e1, Pi.neg_apply, Pi.smul_apply, smul_eq_mul]
      linarith
    have h3 := congrArg (fun z => G⁻¹ *ᵥ z) h1
    simpa only [mulVec_smul, mulVec_neg, mulVec_mulVec, nonsing_inv_mul _ hG, one_mulVec] using h3
  have key : totalWt raw i * (1 - lev i) * slope δ j = 1 := by
    refine Eq.trans ?_ r1
    rw [r2, hli]
    have : ∑ l, design b (dropFeature raw j).x i l * (-((slope δ j * totalWt raw i) • v)) l
        = -(slope δ j * totalWt raw i * (design b (dropFeature raw j).x i ⬝ᵥ v)) := by
      rw [dotProduct, Finset.mul_sum, ← Finset.sum_neg_distrib]
      exact Finset.sum_congr rfl fun l _ => by rw [Pi.neg_apply, Pi.smul_apply, smul_eq_mul]; ring
    rw [this]; ring
  have h0 : totalWt raw i * (1 - lev i) ≠ 0 := left_ne_zero_of_mul_eq_one key
  have hwi : totalWt raw i ≠ 0 := left_ne_zero_of_mul h0
  have h1 : 1 - lev i ≠ 0 := right_ne_zero_of_mul h0
  have hvar : slope (fun k => cov k k) j = f.dispersion / (totalWt raw i * (1 - lev i)) := by
    rw [slope_idx, eq_div_iff h0]
    have := congrFun (congrFun hc (slopeIdx b j)) (slopeIdx b j)
    rw [Matrix.smul_apply, smul_eq_mul] at this
    refine (congrArg (· * (totalWt raw i * (1 - lev i))) this).trans ?_
    rw [slope_idx] at key
    have e : A⁻¹ (slopeIdx b j) (slopeIdx b j) = δ (slopeIdx b j) := rfl
    rw [e, mul_assoc, mul_comm (δ _), key, mul_one]
  have hdel : slope f.result j = raw.y i - linPred (dropFeature raw j) b (without b j f.result) i := by
    obtain ⟨g1, -, -, hF⟩ := regression_ofRaw hf.built hf.fit
    have := (C114_exact hf hj hwi).1
    rw [hF.mean, g1, meanAt, linG_mean, indicator_linPred hj, if_pos rfl] at this
    linarith
  refine ⟨fun h => h1 (by rw [h, sub_self]), ?_, hdel, cov, hcov, hvar, fun k => f.result k / √(cov k k), ?_, ?_⟩
  · rw [eq_div_iff h1]
    obtain ⟨g1, -, -, hF⟩ := regression_ofRaw hg.built hg.fit
    rw [hF.residResp, g1, meanAt, linG_mean]
    have hs := indicator_shift hf hj hg hG
    have : linPred (dropFeature raw j) b (without b j f.result) i
        = linPred (dropFeature raw j) b g.result i - slope f.result j * lev i := by
      rw [hs, linPred, linPred, hli, dotProduct]
      simp only [Pi.sub_apply, Pi.smul_apply, smul_eq_mul, mul_sub, Finset.sum_sub_distrib]
      have : ∑ l, design b (dropFeature raw j).x i l * (slope f.result j * totalWt raw i
          * (G⁻¹ *ᵥ design b (dropFeature raw j).x i) l) = slope f.result j * (totalWt raw i
          * ∑ l, design b (dropFeature raw j).x i l * v l) := by
        rw [Finset.mul_sum, Finset.mul_sum]
        exact Finset.sum_congr rfl fun l _ => by rw [hv]; ring
      rw [this]; ring
    rw [this] at hdel
    change _ = raw.y i - _
    linarith
  · unfold Fit.waldZ
    rw [hcov]
    rfl
  · rw [← hvar]
    cases b <;> rfl

/-- **C114** (studentized residuals).  For a Linear fit without weights, the externally studentized residual of an
observation is the Wald statistic of its indicator divided by `√(1 - h)`. -/
theorem C114_studentized (hf : PlainFit env .linear raw std d o f) (hj : SinglesOut raw j i)
    (hg : PlainFit env₀ .linear (dropFeature raw j) std₀ d₀ o₀ g) (he : env'.Exact)
    (hw : raw.weights = none) (hfr : raw.freqs = none) (hn : ncols b (p + 1) < n) {lev : Vec ℝ n}
    (hlev : g.leverage env' = .ok lev) (hu : IsUnit (gram raw b).det) :
    lev i < 1 ∧ ∃ z t, f.waldZ env' = .ok z ∧ g.residStudent env' = .ok t ∧ slope z j = t i * √(1 - lev i) := by
  obtain ⟨hi, hs, hdel, cov, hcov, hvar, z, hz, hzj⟩ := C114_linear hf hj hg he hlev hu
  have w1 : ∀ k, totalWt raw k = 1 := fun k => by simp [totalWt, freq, varWt, hw, hfr]
  have hbd := C40_leverage (Family.lawfulAdj .linear) hg.built hg.fit he
    (fun k => by rw [show totalWt (dropFeature raw j) k = totalWt raw k from rfl, w1]; norm_num)
    (fun k => by rw [variance_real]; exact zero_le_one) hlev i
  have hlt : lev i < 1 := lt_of_le_of_ne hbd.2 hi
  obtain ⟨hG, -⟩ := leverage_eq (Family.lawfulAdj .linear) hg.built hg.fit he hlev
  obtain ⟨Δ, hΔ⟩ : ∃ Δ, g.inflCoef env' = .ok Δ := by
    obtain ⟨a, ha⟩ := he.inv_complete hG
    unfold Fit.inflCoef Fit.fisherInv
    rw [hlev, ha]
    exact ⟨_, rfl⟩
  obtain ⟨t, ht⟩ : ∃ t, g.residStudent env' = .ok t := by
    obtain ⟨g1, -, -, -⟩ := regression_ofRaw hg.built hg.fit
    unfold Fit.residStudent Fit.devianceTermsLoo Fit.dispersionLoo
    rw [hlev, g1]
    cases g.data.weights <;> cases g.data.freqs <;> exact ⟨_, rfl⟩
  refine ⟨hlt, z, t, hz, ht, ?_⟩
  have wi : ∀ k, totalWt (withoutObs (dropFeature raw j) i) k = if k = i then 0 else 1 := fun k => by
    rw [withoutObs_totalWt, show totalWt (dropFeature raw j) k = totalWt raw k from rfl, w1]
  have v1 : ∀ k, varWt raw k = 1 := fun k => by simp [varWt, hw]
  have hcard : ∑ k : Fin n, (if k = i then (0 : ℝ) else 1) = n - 1 := by
    have : ∀ k : Fin n, (if k = i then (0 : ℝ) else 1) = 1 - if k = i then 1 else 0 := fun k => by
      split <;> norm_num
    simp only [this, Finset.sum_sub_distrib, Finset.sum_ite_eq', Finset.mem_univ, if_true, Finset.sum_const,
      Finset.card_univ, Fintype.card_fin, nsmul_eq_mul, mul_one]
  have hK : (ncols b (p + 1) : ℝ) = ncols b p + 1 := by cases b <;> simp [ncols]
  have hn' : (ncols b p : ℝ) + 1 < n := by rw [← hK]; exact_mod_cast hn
  have hn1 : (n : ℝ) - 1 ≠ 0 := by
    have : (0 : ℝ) ≤ ncols b p := Nat.cast_nonneg _
    intro h; linarith
  have hW : weightSum (withoutObs (dropFeature raw j) i) = n - 1 := by
    rw [weightSum]; simp only [wi, hcard]
  have hE : effCount (withoutObs (dropFeature raw j) i) = n - 1 := by
    have hfq : ∀ k, freq (withoutObs (dropFeature raw j) i) k = if k = i then 0 else 1 := fun k => by
      simp [freq, withoutObs, dropFeature, hfr]
    have hvq : ∀ k, varWt (withoutObs (dropFeature raw j) i) k = 1 := v1
    simp only [effCount, hfq, hvq, mul_one, one_pow, hcard]
    field_simp
  have hst := C43_studentized hg.built hg.fit he hg.l1 hg.l2 hg.score hlev hΔ hi (by rw [hW]; exact hn1)
    (fun k => by rw [show varWt (dropFeature raw j) k = varWt raw k from rfl, v1]; norm_num) ht
  have hr0 : g.residResp i = raw.y i - linPred (dropFeature raw j) b g.result i := by
    obtain ⟨g1, -, -, hF⟩ := regression_ofRaw hg.built hg.fit
    rw [hF.residResp, g1, meanAt, linG_mean]; rfl
  have hdelta : g.result - Δ i = without b j f.result := by
    have hM : Matrix.of (g.fisher g.result) = gram (dropFeature raw j) b := hg.fisher_eq.trans (lin_fisher _)
    obtain ⟨lev', hlev', -, hrow⟩ := C43_formula (Family.lawfulAdj .linear) hg.built hg.fit he hΔ
    rw [hlev] at hlev'
    cases hlev'
    rw [indicator_shift hf hj hg (hM ▸ hG), hrow i, hM, hs, hr0, linG_dNat, mul_one]
    congr 2
    change totalWt raw i * _ / _ = _
    rw [meanAt, linG_mean]
    change totalWt raw i * (raw.y i - _) / _ = _
    ring
  have hsse : f.deviance = sse (withoutObs (dropFeature raw j) i) b (without b j f.result) := by
    rw [plain_deviance hf, sse, sse]
    refine Finset.sum_congr rfl fun k _ => ?_
    rw [wi, w1, indicator_linPred hj]
    by_cases hk : k = i
    · subst hk
      rw [if_pos rfl, if_pos rfl, hdel]; ring
    · rw [if_neg hk, if_neg hk, add_zero]; rfl
  have hφ : f.dispersion = f.deviance / ((1 - ncols b p / ((n : ℝ) - 1)) * (n - 1)) := by
    have hN : obsCount raw = n := by simp [obsCount, freq, hfr]
    rw [C42_no_weights hf.built hf.fit rfl hw (by rw [hN]; exact_mod_cast hn), hN, hK, devianceOf,
      ← C36_deviance hf.built hf.fit]
    congr 1
    field_simp
    ring
  rw [hdelta, hE, hW, ← hsse, ← hφ] at hst
  change t i = (if raw.y i - _ < 0 then -1 else 1) * √(varWt raw i * (raw.y i - _) ^ 2 / _) at hst
  rw [← hdel, v1, one_mul, ← hr0, Real.sqrt_div (sq_nonneg _), Real.sqrt_sq_eq_abs] at hst
  have h1 : 0 < 1 - lev i := by linarith
  have hsg : (if g.residResp i < 0 then -1 else 1) * |slope f.result j| = slope f.result j := by
    rw [hs, abs_div, abs_of_pos h1]
    split
    · rw [abs_of_neg ‹_›]; ring
    · rw [abs_of_nonneg (by linarith), one_mul]
  rw [hzj, w1, one_mul, Real.sqrt_div' _ h1.le, hst, ← mul_div_assoc, hsg]
  field_simp

/-- Four observations; the second feature singles out the first. -/
noncomputable def exOutlier : Dataset ℝ 4 2 false where
  y := ![6, 1, 3, 2]
  x := (![![0, 1], ![-1, 0], ![0, 0], ![1, 0]] : Fin 4 → Fin 2 → ℝ)
  linearOffset := none
  weights := none
  freqs := none
  standardizer := none

/-- `C114_refit`, `C114_linear`, `C114_studentized`: with the indicator of the first observation, the fit of the
three others, `2 + x/2`; the observation is 4 above it, with a Wald statistic of `4/√2` and a studentized residual
of `4/√(3/2)`. -/
theorem C114_example (m : ℕ) : ∃ d f d₀ g d₁ e,
    PlainFit (b := true) (exactEnv (1 / 1000) 7) .linear exOutlier false d
      (exOpts 0 0 (some (![2, 1 / 2, 4] : Fin 3 → ℝ)) m) f ∧
    PlainFit (b := true) (exactEnv (1 / 1000) 7) .linear (dropFeature exOutlier (1 : Fin 2)) false d₀
      (exOpts 0 0 (some (![3, 1 / 2] : Fin 2 → ℝ)) m) g ∧
    PlainFit (b := true) (exactEnv (1 / 1000) 7) .linear (withoutObs (dropFeature exOutlier (1 : Fin 2)) 0) false d₁
      (exOpts 0 0 (some (![2, 1 / 2] : Fin 2 → ℝ)) m) e ∧
    SinglesOut exOutlier (1 : Fin 2) 0 ∧ totalWt exOutlier 0 ≠ 0 ∧ IsUnit (gram exOutlier true).det ∧
    Concave .linear (withoutObs (dropFeature exOutlier (1 : Fin 2)) 0) ∧
    (gram (withoutObs (dropFeature exOutlier (1 : Fin 2)) 0) true).PosDef ∧
    slope f.result (1 : Fin 2) = 4 ∧ e.result = without true (1 : Fin 2) f.result ∧ f.deviance = e.deviance ∧
    f.deviance = 3 / 2 ∧ g.residResp 0 = 3 ∧
    ∃ lev z t, g.leverage (exactEnv 0 0) = .ok lev ∧ lev 0 = 1 / 4 ∧ f.waldZ (exactEnv 0 0) = .ok z ∧
      g.residStudent (exactEnv 0 0) = .ok t ∧ slope z (1 : Fin 2) = 4 / √2 ∧ t 0 = 4 / √(3 / 2) := by
  have w1 : ∀ i, totalWt exOutlier i = 1 := fun i => by simp [totalWt, freq, varWt, exOutlier]
  have w0 : ∀ i, totalWt (dropFeature exOutlier (1 : Fin 2)) i = 1 := w1
  have w2 : ∀ i, totalWt (withoutObs (dropFeature exOutlier (1 : Fin 2)) 0) i = (![0, 1, 1, 1] : Fin 4 → ℝ) i :=
    fun i => by
      rw [withoutObs_totalWt, w0]
      fin_cases i <;> simp
  have hw2 : ∀ i, 0 ≤ totalWt (withoutObs (dropFeature exOutlier (1 : Fin 2)) 0) i := fun i => by
    rw [w2]
    fin_cases i <;> simp
  have hx : (dropFeature exOutlier (1 : Fin 2)).x = fun i _ => (![0, -1, 0, 1] : Fin 4 → ℝ) i := by
    funext i k
    fin_cases i <;> fin_cases k <;> rfl
  have hx2 : (withoutObs (dropFeature exOutlier (1 : Fin 2)) 0).x = fun i _ => (![0, -1, 0, 1] : Fin 4 → ℝ) i := hx
  have hj : SinglesOut exOutlier (1 : Fin 2) 0 := fun k => by fin_cases k <;> simp [exOutlier]
  have g0 : IsUnit (gram (dropFeature exOutlier (1 : Fin 2)) true).det := by
    rw [isUnit_iff_ne_zero]
    refine (Matrix.det_fin_two _).trans_ne ?_
    simp only [gram, w0, Fin.sum_univ_four, hx]
    simp [design]; norm_num
  have g2 : IsUnit (gram (withoutObs (dropFeature exOutlier (1 : Fin 2)) 0) true).det := by
    rw [isUnit_iff_ne_zero]
    refine (Matrix.det_fin_two _).trans_ne ?_
    simp only [gram, w2, Fin.sum_univ_four, hx2]
    simp [design]; norm_num
  have g1 : IsUnit (gram exOutlier true).det := by
    rw [isUnit_iff_ne_zero]
    refine (Matrix.det_fin_three _).trans_ne ?_
    simp only [gram, w1, Fin.sum_univ_four]
    simp [design, exOutlier]
    norm_num
  have l0 : ∀ (i : Fin 4) (c : ℝ), linPred (dropFeature exOutlier (1 : Fin 2)) true (![c, 1 / 2] : Fin 2 → ℝ) i
      = (![c, c - 1 / 2, c, c + 1 / 2] : Fin 4 → ℝ) i := by
    intro i c
    refine (congrArg (· + offset (dropFeature exOutlier (1 : Fin 2)) i) (Fin.sum_univ_two _)).trans ?_
    rw [hx]
    fin_cases i <;> simp [design, offset, dropFeature, exOutlier]; ring
  have l2 : ∀ (i : Fin 4) (c : ℝ), linPred (withoutObs (dropFeature exOutlier (1 : Fin 2)) 0) true
      (![c, 1 / 2] : Fin 2 → ℝ) i = (![c, c - 1 / 2, c, c + 1 / 2] : Fin 4 → ℝ) i := l0
  have l1 : ∀ i : Fin 4, linPred exOutlier true (![2, 1 / 2, 4] : Fin 3 → ℝ) i
      = (![6, 3 / 2, 2, 5 / 2] : Fin 4 → ℝ) i := by
    intro i
    refine (congrArg (· + offset exOutlier i) (Fin.sum_univ_three _)).trans ?_
    fin_cases i <;> simp [design, exOutlier, offset] <;> norm_num
  obtain ⟨d, f, hf, rf⟩ := plain_exists (raw := exOutlier) (β := (![2, 1 / 2, 4] : Fin 3 → ℝ)) m
    (fun i => by rw [w1]; norm_num) (by
    funext k
    change Fin 3 at k
    rw [lin_score, Fin.sum_univ_four, l1, l1, l1, l1, w1, w1, w1, w1]
    fin_cases k <;> simp [design, exOutlier] <;> norm_num) g1
  obtain ⟨d₀, g, hg, rg⟩ := plain_exists (raw := dropFeature exOutlier (1 : Fin 2))
    (β := (![3, 1 / 2] : Fin 2 → ℝ)) m (fun i => by rw [w0]; norm_num) (by
    funext k
    change Fin 2 at k
    rw [lin_score, Fin.sum_univ_four, l0, l0, l0, l0, w0, w0, w0, w0, hx]
    fin_cases k <;> simp [design, dropFeature, exOutlier] <;> norm_num) g0
  obtain ⟨d₁, e, he, re⟩ := plain_exists (raw := withoutObs (dropFeature exOutlier (1 : Fin 2)) 0)
    (β := (![2, 1 / 2] : Fin 2 → ℝ)) m hw2 (by
    funext k
    change Fin 2 at k
    rw [lin_score, Fin.sum_univ_four, l2, l2, l2, l2, w2, w2, w2, w2, hx2]
    fin_cases k <;> simp [design, withoutObs, dropFeature, exOutlier] <;> norm_num) g2
  have hcc : Concave .linear (withoutObs (dropFeature exOutlier (1 : Fin 2)) 0) :=
    ⟨trivial, trivial, Or.inl trivial, hw2⟩
  have hpd : (gram (withoutObs (dropFeature exOutlier (1 : Fin 2)) 0) true).PosDef := by
    refine PosDef.of_dotProduct_mulVec_pos (isHermitian_of_symm gram_symm) fun x hx => ?_
    rw [show star x = x from by ext; simp]
    exact gram_pos hw2 g2 hx
  have hex := exactEnv_exact (le_refl (0 : ℝ)) 0
  obtain ⟨H, -, hlev⟩ := C40_available hg.built hg.fit hex (by rw [hg.fisher_eq, lin_fisher]; exact g0)
  have hw : totalWt exOutlier 0 ≠ 0 := by rw [w1]; norm_num
  obtain ⟨hr, hD⟩ := C114_refit (fam := .linear) trivial hf hj hw (fun _ => trivial) (fun _ => trivial) he hcc hpd (fun _ => trivial)
    (fun _ => trivial)
  have hDf : f.deviance = 3 / 2 := by
    rw [plain_deviance hf, rf, sse, Fin.sum_univ_four, l1, l1, l1, l1, w1, w1, w1, w1]
    simp [exOutlier]; norm_num
  have hs : slope f.result (1 : Fin 2) = 4 := by rw [rf]; rfl
  have hres : g.residResp 0 = 3 := by
    obtain ⟨g1, -, -, hF⟩ := regression_ofRaw hg.built hg.fit
    rw [hF.residResp, g1, meanAt, linG_mean, rg, l0]
    simp [dropFeature, exOutlier]; norm_num
  obtain ⟨hi, hsl, -, cov, hcov, hvar, z, hz, hzj⟩ := C114_linear hf hj hg hex hlev g1
  obtain ⟨hlt, z', t, hz', ht, hzt⟩ := C114_studentized hf hj hg hex rfl rfl (by norm_num [ncols]) hlev g1
  rw [hz] at hz'
  cases hz'
  have hphi : f.dispersion = 3 / 2 := by
    have hN : obsCount exOutlier = 4 := by simp [obsCount, freq, exOutlier]
    have hK : (ncols true 2 : ℝ) = 3 := by norm_num [ncols]
    rw [C42_no_weights hf.built hf.fit rfl rfl (by rw [hN, hK]; norm_num), hN, hK, devianceOf,
      ← C36_deviance hf.built hf.fit, hDf]
    norm_num
  set h := H 0 0 with hh
  have h4 : h = 1 / 4 := by
    have h1 : 1 - h ≠ 0 := sub_ne_zero.mpr (Ne.symm hi)
    rw [hs, hres, eq_div_iff h1] at hsl
    linarith
  refine ⟨d, f, d₀, g, d₁, e, hf, hg, he, hj, hw, g1, hcc, hpd, hs, hr, hD, hDf, hres, _, z, t, hlev, h4, hz, ht, ?_⟩
  have e1 : slope z (1 : Fin 2) = 4 / √2 := by
    rw [hzj, hs, hphi, w1, one_mul]
    congr 2
    rw [h4]; norm_num
  refine ⟨e1, ?_⟩
  have e2 : 1 - h = 3 / 4 := by rw [h4]; norm_num
  change _ = t 0 * √(1 - h) at hzt
  rw [e1, e2] at hzt
  have e3 : √(2 : ℝ) * √(3 / 4) = √(3 / 2) := by
    rw [← Real.sqrt_mul (by norm_num)]; norm_num
  have : 0 < √(3 / 4 : ℝ) := Real.sqrt_pos.mpr (by norm_num)
  rw [← e3, ← div_div, hzt, mul_div_assoc, div_self this.ne', mul_one]

end GLM
