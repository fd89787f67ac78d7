/-
  C109: with one feature the Linear family gives the textbook formulas of simple linear regression.
-/
import Verif.Spec.OneFeature
import Verif.Props.TwoArms
import Verif.Props.Units
import Verif.Props.Standardize

namespace GLM
open Spec Matrix
variable {n : ℕ} {env env' : Env ℝ} {raw : Dataset ℝ n 1 false} {std : Bool}
  {d : Dataset ℝ n 1 true} {o : FitOptions ℝ (ncols true 1)} {f : Fit ℝ n 1 true}

/-! ### Centred sums -/

theorem line_sum_x (hW : weightSum raw ≠ 0) :
    ∑ i, totalWt raw i * (raw.x i 0 - wMean raw 0) = 0 := by
  have e : wMean raw 0 * weightSum raw = ∑ i, totalWt raw i * raw.x i 0 := div_mul_cancel₀ _ hW
  simp only [mul_sub, Finset.sum_sub_distrib, ← Finset.sum_mul]
  rw [← e, weightSum]
  ring

theorem line_sum_y (hW : weightSum raw ≠ 0) : ∑ i, totalWt raw i * (raw.y i - meanY raw) = 0 := by
  have e : meanY raw * weightSum raw = ∑ i, totalWt raw i * raw.y i := div_mul_cancel₀ _ hW
  simp only [mul_sub, Finset.sum_sub_distrib, ← Finset.sum_mul]
  rw [← e, weightSum]
  ring

theorem linPred_line (ho : raw.linearOffset = none) (β : Vec ℝ (ncols true 1)) (i : Fin n) :
    linPred raw true β i = icpt β + raw.x i 0 * diff β :=
  linPred_arm ho β (mem_arm.mpr rfl)

theorem line_score_zero (hW : weightSum raw ≠ 0) (ho : raw.linearOffset = none) (β : Vec ℝ (ncols true 1)) :
    scoreVec Family.linear.glm raw true β (0 : Fin 2)
      = weightSum raw * (meanY raw - (icpt β + wMean raw 0 * diff β)) := by
  have e : ∀ i, totalWt raw i * (raw.y i - (icpt β + raw.x i 0 * diff β))
      = totalWt raw i * (raw.y i - meanY raw) - diff β * (totalWt raw i * (raw.x i 0 - wMean raw 0))
        + totalWt raw i * (meanY raw - (icpt β + wMean raw 0 * diff β)) := fun i => by ring
  have : scoreVec Family.linear.glm raw true β (0 : Fin 2)
      = ∑ i, totalWt raw i * (raw.y i - (icpt β + raw.x i 0 * diff β)) := by
    refine Finset.sum_congr rfl fun i _ => ?_
    rw [meanAt, linG_mean, linG_dNat, linPred_line ho, mul_one]
    exact mul_one _
  rw [this, Finset.sum_congr rfl fun i _ => e i, Finset.sum_add_distrib, Finset.sum_sub_distrib,
    ← Finset.mul_sum, line_sum_x hW, line_sum_y hW, ← Finset.sum_mul, weightSum]
  ring

theorem line_score_one (hW : weightSum raw ≠ 0) (ho : raw.linearOffset = none) (β : Vec ℝ (ncols true 1)) :
    scoreVec Family.linear.glm raw true β (1 : Fin 2) = sxy raw - diff β * sxx raw
      + wMean raw 0 * (weightSum raw * (meanY raw - (icpt β + wMean raw 0 * diff β))) := by
  have e : ∀ i, totalWt raw i * (raw.y i - (icpt β + raw.x i 0 * diff β)) * raw.x i 0
      = totalWt raw i * (raw.x i 0 - wMean raw 0) * (raw.y i - meanY raw)
        - diff β * (totalWt raw i * (raw.x i 0 - wMean raw 0) ^ 2)
        + (meanY raw - (icpt β + wMean raw 0 * diff β) - wMean raw 0 * diff β)
          * (totalWt raw i * (raw.x i 0 - wMean raw 0))
        + wMean raw 0 * (totalWt raw i * (raw.y i - meanY raw))
        + totalWt raw i * (wMean raw 0 * (meanY raw - (icpt β + wMean raw 0 * diff β))) := fun i => by ring
  have : scoreVec Family.linear.glm raw true β (1 : Fin 2)
      = ∑ i, totalWt raw i * (raw.y i - (icpt β + raw.x i 0 * diff β)) * raw.x i 0 := by
    refine Finset.sum_congr rfl fun i _ => ?_
    rw [meanAt, linG_mean, linG_dNat, linPred_line ho, mul_one]
    rfl
  rw [this, Finset.sum_congr rfl fun i _ => e i, Finset.sum_add_distrib, Finset.sum_add_distrib,
    Finset.sum_add_distrib, Finset.sum_sub_distrib, ← Finset.mul_sum, ← Finset.mul_sum, ← Finset.mul_sum,
    line_sum_x hW, line_sum_y hW, ← Finset.sum_mul, weightSum, sxy, sxx]
  ring

theorem line_sum_sq (hW : weightSum raw ≠ 0) : ∑ i, totalWt raw i * raw.x i 0 * raw.x i 0
    = sxx raw + weightSum raw * wMean raw 0 ^ 2 := by
  have e : ∀ i, totalWt raw i * raw.x i 0 * raw.x i 0 = totalWt raw i * (raw.x i 0 - wMean raw 0) ^ 2
      + 2 * wMean raw 0 * (totalWt raw i * (raw.x i 0 - wMean raw 0))
      + totalWt raw i * wMean raw 0 ^ 2 := fun i => by ring
  rw [Finset.sum_congr rfl fun i _ => e i, Finset.sum_add_distrib, Finset.sum_add_distrib, ← Finset.mul_sum,
    line_sum_x hW, ← Finset.sum_mul, sxx, weightSum]
  ring

theorem line_gram (hW : weightSum raw ≠ 0) (β : Vec ℝ (ncols true 1)) :
    fisherMat Family.linear.glm raw true β
      = (!![weightSum raw, weightSum raw * wMean raw 0; weightSum raw * wMean raw 0,
          sxx raw + weightSum raw * wMean raw 0 ^ 2] : Matrix (Fin 2) (Fin 2) ℝ) := by
  have hx : ∑ i, totalWt raw i * raw.x i 0 = weightSum raw * wMean raw 0 := by
    rw [mul_comm]; exact (div_mul_cancel₀ _ hW).symm
  have hF : ∀ j k : Fin 2, fisherMat Family.linear.glm raw true β j k
      = ∑ i, totalWt raw i * design true raw.x i j * design true raw.x i k := by
    intro j k
    refine Finset.sum_congr rfl fun i _ => ?_
    rw [linG_dNat, linG_var, one_pow, mul_one, mul_one]
  ext j k
  change Fin 2 at j k
  rw [hF]
  fin_cases j <;> fin_cases k
  · exact Finset.sum_congr rfl fun i _ => (mul_one _).trans (mul_one _)
  · refine Eq.trans (Finset.sum_congr rfl fun i _ => ?_) hx
    exact congrArg (· * _) (mul_one (totalWt raw i))
  · refine Eq.trans (Finset.sum_congr rfl fun i _ => ?_) hx
    exact mul_one (totalWt raw i * raw.x i 0)
  · exact line_sum_sq hW

/-- The inverse of the information matrix of a line. -/
theorem line_inv {W m s : ℝ} (h0 : W ≠ 0) (h1 : s ≠ 0) :
    IsUnit (!![W, W * m; W * m, s + W * m ^ 2] : Matrix (Fin 2) (Fin 2) ℝ).det ∧
    (!![W, W * m; W * m, s + W * m ^ 2] : Matrix (Fin 2) (Fin 2) ℝ)⁻¹
      = !![1 / W + m ^ 2 / s, -(m / s); -(m / s), 1 / s] := by
  have hm : (!![W, W * m; W * m, s + W * m ^ 2] : Matrix (Fin 2) (Fin 2) ℝ)
      * !![1 / W + m ^ 2 / s, -(m / s); -(m / s), 1 / s] = 1 := by
    ext i j
    fin_cases i <;> fin_cases j <;> simp [Matrix.mul_apply, Fin.sum_univ_two] <;> field_simp <;> ring
  exact ⟨(Matrix.isUnit_iff_isUnit_det _).mp (IsUnit.of_mul_eq_one _ hm), inv_eq_right_inv hm⟩

theorem line_sse (ho : raw.linearOffset = none) {β : Vec ℝ (ncols true 1)}
    (hβ : icpt β + wMean raw 0 * diff β = meanY raw) :
    sse raw true β = syy raw - 2 * diff β * sxy raw + diff β ^ 2 * sxx raw := by
  have e : ∀ i, totalWt raw i * (raw.y i - linPred raw true β i) ^ 2
      = totalWt raw i * (raw.y i - meanY raw) ^ 2
        - 2 * diff β * (totalWt raw i * (raw.x i 0 - wMean raw 0) * (raw.y i - meanY raw))
        + diff β ^ 2 * (totalWt raw i * (raw.x i 0 - wMean raw 0) ^ 2) := fun i => by
    rw [linPred_line ho, ← hβ]; ring
  rw [sse, Finset.sum_congr rfl fun i _ => e i, Finset.sum_add_distrib, Finset.sum_sub_distrib,
    ← Finset.mul_sum, ← Finset.mul_sum, syy, sxy, sxx]

theorem linear_deviance (β : Vec ℝ (ncols true 1)) :
    devianceOf Family.linear.glm raw true β = sse raw true β := by
  have hsat : satLik Family.linear.glm raw = (∑ i, totalWt raw i * raw.y i ^ 2) / 2 := by
    rw [satLik, Finset.sum_div]
    refine Finset.sum_congr rfl fun i _ => ?_
    rw [show (Family.linear.glm (F := ℝ)).logLikeSat (raw.y i) = raw.y i ^ 2 / 2 from ?_]
    · ring
    · rw [logLikeSat_real]
  rw [devianceOf, lin_logLik, hsat]
  ring

theorem line_scale_sq (hW : 0 < weightSum raw) (hx : 0 < sxx raw) (hd : raw.finalize true true = some d) :
    scale d 0 ^ 2 = sxx raw / weightSum raw * (effCount raw / (effCount raw - 1)) ∧
    0 < sxx raw / weightSum raw * (effCount raw / (effCount raw - 1)) := by
  simp only [Dataset.finalize, if_true, Option.map_eq_some_iff] at hd
  obtain ⟨s, hs, he⟩ := hd
  have hpos := wVar_pos hW (hx : Varies raw 0) hs
  have hsc : scale d 0 ^ 2 = wVar raw 0 := by
    have : scale d 0 = s.scales 0 := by rw [← he]; rfl
    rw [this, (fromDataset_eq hW hs).2, if_pos hpos, Real.sq_sqrt hpos.le]
  have hv : wVar raw 0 = sxx raw / weightSum raw * (effCount raw / (effCount raw - 1)) := by
    rw [← nEff_eq_effCount]; rfl
  rw [hv] at hpos hsc
  exact ⟨hsc, hpos⟩

/-! ### The line -/

section
variable (h : LineFit env raw std d o f)
include h

/-- **C109** (least-squares line).  The line passes through the point of means, and its slope is `sxy / sxx`,
with an L2 penalty of strength `l2` `sxy / (sxx + l2 σ²)` where `σ` is 1 or, for standardized features, the
standard deviation of the feature. -/
theorem C109_line : diff f.result = sxy raw / (sxx raw + max o.l2 0 * scale d 0 ^ 2) ∧
    icpt f.result = meanY raw - diff f.result * wMean raw 0 ∧
    ∀ off, f.predict (fun (_ : Fin 1) _ => wMean raw 0) off
      = fun i => meanY raw + (match off with | none => 0 | some v => v i) := by
  have hW := h.weight.ne'
  have hs := h.score
  rw [(C10_external (Family.lawfulAdj .linear) h.built h.l1 h.fit).2.1] at hs
  have s0 : scoreVec Family.linear.glm raw true f.result (0 : Fin 2) - 0 = 0 := congrFun hs (0 : Fin 2)
  have s1 : scoreVec Family.linear.glm raw true f.result (1 : Fin 2)
      - (max o.l1 0 * (scale d 0 * SignType.sign (diff f.result))
        + max o.l2 0 * (scale d 0 ^ 2 * diff f.result)) = 0 := congrFun hs (1 : Fin 2)
  rw [line_score_zero hW h.offset, sub_zero, mul_eq_zero_iff_left hW] at s0
  rw [line_score_one hW h.offset, s0, max_eq_right h.l1] at s1
  have hp : 0 < sxx raw + max o.l2 0 * scale d 0 ^ 2 :=
    add_pos_of_pos_of_nonneg h.varies (mul_nonneg (le_max_right _ _) (sq_nonneg _))
  have hi : icpt f.result = meanY raw - diff f.result * wMean raw 0 := by linarith
  refine ⟨by rw [eq_div_iff hp.ne']; linarith, hi, fun off => ?_⟩
  obtain ⟨hg, -⟩ := regression_ofRaw h.built h.fit
  have hd : Mat.dotV (Dataset.padded true fun (_ : Fin 1) _ => wMean raw 0) f.result
      = fun _ => meanY raw := by
    funext i
    rw [Mat.dotV, vdotBy_real]
    refine (Fin.sum_univ_two _).trans ?_
    change 1 * icpt f.result + wMean raw 0 * diff f.result = _
    rw [hi]; ring
  unfold Fit.predict
  rw [hg, hd]
  funext i
  cases off with
  | none => exact (linG_mean _).trans (add_zero _).symm
  | some v => exact linG_mean _

/-- **C109** (ridge on standardized features).  With standardization an L2 penalty shrinks the least-squares
slope by a factor that depends on the weights only: with unit weights, `1 / (1 + l2 / (n - 1))`. -/
theorem C109_ridge (hstd : std = true) : diff f.result = sxy raw / sxx raw
    / (1 + max o.l2 0 * (effCount raw / (effCount raw - 1)) / weightSum raw) := by
  subst hstd
  obtain ⟨hsc, hpos⟩ := line_scale_sq h.weight h.varies h.built
  have hW := h.weight
  have hx := h.varies
  rw [(C109_line h).1, hsc]
  generalize effCount raw / (effCount raw - 1) = k at *
  have hk : 0 < k := (pos_iff_pos_of_mul_pos hpos).mp (div_pos hx hW)
  have : 0 ≤ max o.l2 0 := le_max_right _ _
  have h1 : 0 < 1 + max o.l2 0 * k / weightSum raw := by positivity
  have h2 : 0 < sxx raw + max o.l2 0 * (sxx raw / weightSum raw * k) := by positivity
  rw [div_div, div_eq_div_iff h2.ne' (by positivity)]
  field_simp

variable (hl2 : o.l2 ≤ 0)
include hl2

theorem line_slope : diff f.result = sxy raw / sxx raw := by
  rw [(C109_line h).1, max_eq_right hl2, zero_mul, add_zero]

theorem line_fisher : Matrix.of (f.fisher f.result) = fisherMat Family.linear.glm raw true f.result := by
  rw [(C10_external (Family.lawfulAdj .linear) h.built h.l1 h.fit).2.2.1, ridgeMat, max_eq_right hl2]
  simp [onSlopes_zero]

/-- **C109** (sums of squares).  The deviance is `syy - sxy² / sxx`. -/
theorem C109_deviance : f.deviance = syy raw - sxy raw ^ 2 / sxx raw := by
  have hx := h.varies
  have e : f.deviance = devianceOf Family.linear.glm raw true f.result := C36_deviance h.built h.fit
  rw [e, linear_deviance, line_sse h.offset (by rw [(C109_line h).2.1]; ring), line_slope h hl2]
  field_simp
  ring

/-- **C109** (covariance).  The variances of intercept and slope are `φ (1 / W + x̄² / sxx)` and `φ / sxx`,
their covariance `-φ x̄ / sxx`. -/
theorem C109_covariance (he : env'.Exact) : ∃ cov, f.covariance env' = .ok cov ∧
    cov (0 : Fin 2) (0 : Fin 2) = f.dispersion * (1 / weightSum raw + wMean raw 0 ^ 2 / sxx raw) ∧
    cov (0 : Fin 2) (1 : Fin 2) = -(f.dispersion * (wMean raw 0 / sxx raw)) ∧
    cov (1 : Fin 2) (1 : Fin 2) = f.dispersion * (1 / sxx raw) := by
  obtain ⟨hu, hi⟩ := line_inv (m := wMean raw 0) h.weight.ne' h.varies.ne'
  have hF := (line_fisher h hl2).trans (line_gram h.weight.ne' f.result)
  have hdet : IsUnit (Matrix.of (f.fisher f.result)).det := by rw [hF]; exact hu
  obtain ⟨cov, hcov⟩ : ∃ cov, f.covariance env' = .ok cov := by
    unfold Fit.covariance Fit.fisherInv
    rw [he.inv_eq hdet]
    exact ⟨_, rfl⟩
  obtain ⟨-, hc⟩ := covariance_eq (Family.lawfulAdj .linear) h.built h.fit he hcov
  rw [← line_fisher h hl2, nonsing_inv_mul _ hdet, one_mul, hF, hi] at hc
  have e : ∀ i j : Fin 2, cov i j = f.dispersion * (!![1 / weightSum raw + wMean raw 0 ^ 2 / sxx raw,
      -(wMean raw 0 / sxx raw); -(wMean raw 0 / sxx raw), 1 / sxx raw] : Matrix (Fin 2) (Fin 2) ℝ) i j :=
    fun i j => congrFun (congrFun hc i) j
  exact ⟨cov, hcov, e 0 0, (e 0 1).trans (mul_neg _ _), e 1 1⟩

/-- **C109** (leverages).  The leverage of an observation is its weight times `1 / W + (x - x̄)² / sxx`. -/
theorem C109_leverage (he : env'.Exact) : f.leverage env' = .ok fun i =>
    totalWt raw i * (1 / weightSum raw + (raw.x i 0 - wMean raw 0) ^ 2 / sxx raw) := by
  obtain ⟨hu, hi⟩ := line_inv (m := wMean raw 0) h.weight.ne' h.varies.ne'
  have hF := (line_fisher h hl2).trans (line_gram h.weight.ne' f.result)
  have hdet : IsUnit (Matrix.of (f.fisher f.result)).det := by rw [hF]; exact hu
  obtain ⟨H, hH, hL⟩ := C40_available h.built h.fit he hdet
  obtain ⟨-, hHe⟩ := hat_eq (Family.lawfulAdj .linear) h.built h.fit he hH
  rw [hL]
  refine congrArg Except.ok (funext fun i => ?_)
  have e : H i i = (∑ k : Fin 2, (∑ j : Fin 2, design true raw.x i j
      * (!![1 / weightSum raw + wMean raw 0 ^ 2 / sxx raw,
      -(wMean raw 0 / sxx raw); -(wMean raw 0 / sxx raw), 1 / sxx raw] : Matrix (Fin 2) (Fin 2) ℝ) j k)
      * design true raw.x i k) * totalWt raw i := by
    have := congrFun (congrFun hHe i) i
    rw [hF, hi] at this
    refine Eq.trans this ?_
    rw [mul_diagonal]
    simp only [linG_dNat, linG_var, mul_one, diagonal_one, Matrix.one_mul]
    rfl
  rw [e, Fin.sum_univ_two, Fin.sum_univ_two, Fin.sum_univ_two]
  have d0 : design true raw.x i (0 : Fin 2) = 1 := rfl
  have d1 : design true raw.x i (1 : Fin 2) = raw.x i 0 := rfl
  rw [d0, d1]
  simp only [of_apply, cons_val', cons_val_zero, cons_val_one, cons_val_fin_one]
  ring

/-- **C109** (explained variation).  `r_sq()` is the square of the correlation coefficient, and the
likelihood-ratio statistic the explained sum of squares `sxy² / sxx`. -/
theorem C109_explained (hy : 0 < syy raw) : f.rSq env' = .ok (corr raw ^ 2) ∧
    f.lrTest env' = .ok (sxy raw ^ 2 / sxx raw) := by
  have hW := h.weight.ne'
  have hx := h.varies
  have hn := (C37_intercept (env' := env') h.built h.fit h.offset hW).1
  have hnull : devianceOf Family.linear.glm raw true (interceptOnly (linkFn .linear (meanY raw))) = syy raw := by
    have hm : linkFn .linear (meanY raw) = meanY raw := rfl
    have e0 : diff (interceptOnly (meanY raw) : Vec ℝ (ncols true 1)) = 0 := rfl
    have e1 : icpt (interceptOnly (meanY raw) : Vec ℝ (ncols true 1)) = meanY raw := rfl
    rw [hm, linear_deviance, line_sse h.offset (by rw [e0, e1]; ring), e0]
    ring
  have hdev := C109_deviance h hl2
  constructor
  · rw [C39_rsq h.built h.fit (fun _ => hW) hn h.l1 hl2 (by rw [hnull]; exact hy.ne'), hnull, hdev, corr, div_pow,
      Real.sq_sqrt (mul_pos hx hy).le]
    congr 1
    field_simp
    ring
  · have hpen : ∀ β, penLogLik Family.linear.glm raw true o.l1 o.l2 (scale d) β
        = logLik Family.linear.glm raw true β := by
      intro β
      simp [penLogLik, penalty, max_eq_right h.l1, max_eq_right hl2]
    rw [(C38_lr_null h.built h.fit (fun _ => hW) hn).1, C36_lr h.built h.fit, hpen, hpen]
    have e : f.deviance = devianceOf Family.linear.glm raw true f.result := C36_deviance h.built h.fit
    rw [e] at hdev
    rw [devianceOf] at hdev hnull
    refine congrArg Outcome.ok ?_
    linarith

/-- **C109** (t test of the slope).  Without variance weights the z statistic of the slope is the textbook
`b / √(s² / sxx)` with `s²` the residual sum of squares over `n - 2`; this is the t statistic
`r √(n - 2) / √(1 - r²)` of the correlation coefficient `r`. -/
theorem C109_t_test (he : env'.Exact) (hw : raw.weights = none) (hN : 2 < obsCount raw) (hy : 0 < syy raw) :
    ∃ z, f.waldZ env' = .ok z ∧
    diff z = sxy raw / sxx raw
      / √((syy raw - sxy raw ^ 2 / sxx raw) / (obsCount raw - 2) / sxx raw) ∧
    diff z = corr raw * √(obsCount raw - 2) / √(1 - corr raw ^ 2) := by
  obtain ⟨cov, hc, -, -, e⟩ := C109_covariance h hl2 he
  have hx := h.varies
  have hz : diff (fun j => f.result j / √(cov j j) : Vec ℝ (ncols true 1)) = sxy raw / sxx raw
      / √((syy raw - sxy raw ^ 2 / sxx raw) / (obsCount raw - 2) / sxx raw) := by
    change diff f.result / √(cov (1 : Fin 2) (1 : Fin 2)) = _
    have hdev := C109_deviance h hl2
    rw [C36_deviance h.built h.fit] at hdev
    rw [e, line_slope h hl2, C42_no_weights h.built h.fit rfl hw (by exact_mod_cast hN), devianceOf, hdev,
      mul_one_div]
    norm_num [ncols]
  refine ⟨fun j => f.result j / √(cov j j), ?_, hz, ?_⟩
  · unfold Fit.waldZ
    rw [hc]
    rfl
  · rw [hz]
    have hN' : 0 < obsCount raw - 2 := by linarith
    have h1 : corr raw ^ 2 = sxy raw ^ 2 / (sxx raw * syy raw) := by
      rw [corr, div_pow, Real.sq_sqrt (mul_pos hx hy).le]
    have h2 : 1 - corr raw ^ 2 = (syy raw - sxy raw ^ 2 / sxx raw) / syy raw := by
      rw [h1]; field_simp
    rw [h2, corr, Real.sqrt_mul hx.le, Real.sqrt_div' _ hx.le, Real.sqrt_div' _ hN'.le, Real.sqrt_div' _ hy.le]
    have a1 := Real.sqrt_pos.mpr hx
    have a2 := Real.sqrt_pos.mpr hy
    have a3 := Real.sqrt_pos.mpr hN'
    by_cases hD : √(syy raw - sxy raw ^ 2 / sxx raw) = 0
    · rw [hD]; simp
    · have : sxx raw = √(sxx raw) * √(sxx raw) := (Real.mul_self_sqrt hx.le).symm
      rw [show sxy raw / sxx raw = sxy raw / (√(sxx raw) * √(sxx raw)) by rw [← this]]
      field_simp

end

/-! ### Cases that meet the hypotheses -/

/-- Four points near a line. -/
noncomputable def exLine : Dataset ℝ 4 1 false where
  y := ![1, 0, 2, 3]
  x := fun i _ => ![0, 1, 2, 3] i
  linearOffset := none
  weights := none
  freqs := none
  standardizer := none

theorem exLine_totalWt (i : Fin 4) : totalWt exLine i = 1 := by
  simp [totalWt, freq, varWt, exLine]

theorem exLine_weightSum : weightSum exLine = 4 := by
  simp [weightSum, exLine_totalWt]

theorem exLine_means : wMean exLine 0 = 3 / 2 ∧ meanY exLine = 3 / 2 := by
  rw [wMean, meanY, exLine_weightSum]
  simp only [exLine_totalWt, Fin.sum_univ_four]
  constructor <;> simp [exLine] <;> norm_num

theorem exLine_sums : sxx exLine = 5 ∧ sxy exLine = 4 ∧ syy exLine = 5 := by
  simp only [sxx, sxy, syy, exLine_means, exLine_totalWt, Fin.sum_univ_four]
  refine ⟨?_, ?_, ?_⟩ <;> simp [exLine] <;> norm_num

theorem exLine_counts : obsCount exLine = 4 ∧ effCount exLine = 4 := by
  constructor
  · simp [obsCount, freq, exLine]
  · simp [effCount, freq, varWt, exLine]; norm_num

theorem exLine_gram : IsUnit (gram exLine true).det := by
  rw [isUnit_iff_ne_zero]
  refine (Matrix.det_fin_two _).trans_ne ?_
  simp only [gram, exLine_totalWt, Fin.sum_univ_four]
  simp [design, exLine]
  norm_num

theorem exLine_finalize (std : Bool) : ∃ d, exLine.finalize std true = some d := by
  cases std
  · exact ⟨_, rfl⟩
  · have hn : Scalar.gt exLine.nEff 1 = true := by
      rw [gt_real, nEff_eq_effCount, exLine_counts.2]
      norm_num
    exact ⟨_, by simp only [Dataset.finalize, Standardizer.fromDataset, if_true, hn]; rfl⟩

theorem exLine_fit (std : Bool) (m : ℕ) {d : Dataset ℝ 4 1 true} (hd : exLine.finalize std true = some d)
    {a b l2 : ℝ} (ha : a + 3 / 2 * b = 3 / 2) (hb : 4 - b * 5 - max l2 0 * (scale d 0 ^ 2 * b) = 0) :
    ∃ f, LineFit (exactEnv (1 / 1000) 7) exLine std d (exOpts 0 l2 (some (![a, b] : Fin 2 → ℝ)) m) f := by
  have hW : weightSum exLine ≠ 0 := by rw [exLine_weightSum]; norm_num
  have hs : penScore Family.linear.glm exLine true 0 l2 (scale d) (![a, b] : Fin 2 → ℝ) = 0 := by
    have i0 : icpt (![a, b] : Fin 2 → ℝ) = a := rfl
    have i1 : diff (![a, b] : Fin 2 → ℝ) = b := rfl
    funext j
    change Fin 2 at j
    fin_cases j
    · change scoreVec Family.linear.glm exLine true (![a, b] : Fin 2 → ℝ) (0 : Fin 2) - 0 = 0
      rw [line_score_zero hW rfl, exLine_means.1, exLine_means.2, i0, i1, ha]
      norm_num
    · change scoreVec Family.linear.glm exLine true (![a, b] : Fin 2 → ℝ) (1 : Fin 2)
        - (max 0 0 * (scale d 0 * SignType.sign b) + max l2 0 * (scale d 0 ^ 2 * b)) = 0
      rw [line_score_one hW rfl, exLine_means.1, exLine_means.2, i0, i1, ha, exLine_sums.1, exLine_sums.2.1,
        max_self, zero_mul, zero_add, sub_self, mul_zero, mul_zero, add_zero]
      exact hb
  obtain ⟨f, hf, -, -, hr⟩ := C22_stationary_start
    (options := exOpts 0 l2 (some (![a, b] : Fin 2 → ℝ) : Option (Vec ℝ (ncols true 1))) m)
    (exactEnv_exact (by norm_num : (0 : ℝ) ≤ 1 / 1000) 7) (Family.lawfulAdj .linear) hd le_rfl rfl
    ((isUnit_iff_isUnit_det _).mp
      (C30_fullRank_posDef (by norm_num [exactEnv]) (fun i => by rw [exLine_totalWt]; norm_num)
      (fun _ => Family.variance_nonneg .linear trivial _) exLine_gram).isUnit) hs
  refine ⟨f, by rw [exLine_weightSum]; norm_num, by rw [exLine_sums.1]; norm_num, rfl, hd, le_rfl, hf, ?_⟩
  rw [(C10_external (Family.lawfulAdj .linear) hd le_rfl hf).2.1 f.result, hr]
  exact hs

/-- `C109_line`, `C109_deviance`, `C109_covariance`, `C109_leverage`, `C109_explained` and `C109_t_test`. -/
theorem C109_example (std : Bool) (m : ℕ) : ∃ d f,
    LineFit (exactEnv (1 / 1000) 7) exLine std d (exOpts 0 0 (some (![3 / 10, 4 / 5] : Fin 2 → ℝ)) m) f ∧
    diff f.result = 4 / 5 ∧ f.deviance = 9 / 5 ∧ f.rSq (exactEnv 0 0) = .ok (16 / 25) ∧
    f.lrTest (exactEnv 0 0) = .ok (16 / 5) ∧ (∃ lev, f.leverage (exactEnv 0 0) = .ok lev ∧ lev 0 = 7 / 10) ∧
    ∃ z, f.waldZ (exactEnv 0 0) = .ok z ∧ diff z = 4 / 5 / √(9 / 50) := by
  obtain ⟨d, hd⟩ := exLine_finalize std
  obtain ⟨f, h⟩ := exLine_fit std m hd (a := 3 / 10) (b := 4 / 5) (l2 := 0) (by norm_num) (by norm_num)
  obtain ⟨sx, sxy', sy⟩ := exLine_sums
  have he := exactEnv_exact (le_refl (0 : ℝ)) 0
  have hy : 0 < syy exLine := by rw [sy]; norm_num
  obtain ⟨e1, e2⟩ := C109_explained (env' := exactEnv 0 0) h le_rfl hy
  obtain ⟨z, hz, e3, -⟩ := C109_t_test h le_rfl he rfl (by rw [exLine_counts.1]; norm_num) hy
  refine ⟨d, f, h, ?_, ?_, ?_, ?_, ⟨_, C109_leverage h le_rfl he, ?_⟩, z, hz, ?_⟩
  · rw [line_slope h le_rfl, sx, sxy']
  · rw [C109_deviance h le_rfl, sx, sxy', sy]; norm_num
  · rw [e1, corr, sx, sxy', sy, div_pow, Real.sq_sqrt (by norm_num)]; norm_num
  · rw [e2, sx, sxy']; norm_num
  · rw [exLine_totalWt, exLine_weightSum, exLine_means.1, sx]
    simp [exLine]; norm_num
  · rw [e3, sx, sxy', sy, exLine_counts.1]; norm_num

/-- `C109_ridge`: four observations and penalty 3 halve the slope. -/
theorem C109_example_ridge (m : ℕ) : ∃ d f,
    LineFit (exactEnv (1 / 1000) 7) exLine true d (exOpts 0 3 (some (![9 / 10, 2 / 5] : Fin 2 → ℝ)) m) f ∧
    diff f.result = 2 / 5 := by
  obtain ⟨d, hd⟩ := exLine_finalize true
  obtain ⟨sx, sxy', sy⟩ := exLine_sums
  have hsc := (line_scale_sq (by rw [exLine_weightSum]; norm_num) (by rw [sx]; norm_num) hd).1
  rw [sx, exLine_weightSum, exLine_counts.2] at hsc
  obtain ⟨f, h⟩ := exLine_fit true m hd (a := 9 / 10) (b := 2 / 5) (l2 := 3) (by norm_num)
    (by rw [hsc]; norm_num)
  refine ⟨d, f, h, ?_⟩
  rw [C109_ridge h rfl, sx, sxy', exLine_weightSum, exLine_counts.2]
  norm_num [exOpts]

end GLM
