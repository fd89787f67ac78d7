/-
  C108: a yes/no feature gives the textbook comparisons of two groups.
-/
import Verif.Spec.TwoArms
import Verif.Props.Calibration
import Verif.Props.Hat
import Verif.Props.Effects
import Verif.Props.Defined

namespace GLM
open Spec Matrix
variable {n : ℕ} {env env' : Env ℝ} {fam : Family} {raw : Dataset ℝ n 1 false} {std : Bool}
  {d : Dataset ℝ n 1 true} {o : FitOptions ℝ (ncols true 1)} {f : Fit ℝ n 1 true}

theorem sum_arms (h : TwoArms raw) (G : Fin n → ℝ) :
    ∑ i, G i = ∑ i ∈ arm raw 0, G i + ∑ i ∈ arm raw 1, G i := by
  classical
  rw [← Finset.sum_filter_add_sum_filter_not Finset.univ (fun i => raw.x i 0 = 0)]
  congr 1
  refine Finset.sum_congr ?_ fun _ _ => rfl
  ext i
  simp only [arm, Finset.mem_filter, Finset.mem_univ, true_and]
  constructor
  · intro h0; exact (h i).resolve_left h0
  · intro h1 h0; rw [h1] at h0; exact one_ne_zero h0

theorem mem_arm {a : ℝ} {i : Fin n} : i ∈ arm raw a ↔ raw.x i 0 = a := by simp [arm]

theorem linPred_arm (ho : raw.linearOffset = none) (β : Vec ℝ (ncols true 1)) {a : ℝ} {i : Fin n}
    (hi : i ∈ arm raw a) : linPred raw true β i = icpt β + a * diff β := by
  rw [linPred]
  refine (congrArg (· + _) (Fin.sum_univ_two _)).trans ?_
  rw [offset_none ho]
  change 1 * β (0 : Fin 2) + raw.x i 0 * β (1 : Fin 2) + 0 = _
  rw [mem_arm.mp hi, one_mul, add_zero]
  rfl

/-- The score of arm `a`. -/
noncomputable def armScore (fam : Family) (raw : Dataset ℝ n 1 false) (β : Vec ℝ (ncols true 1)) (a : ℝ) : ℝ :=
  (fam.glm (F := ℝ)).link.dNatParam (icpt β + a * diff β)
    * (armSum raw a - (fam.glm (F := ℝ)).link.funcInv (icpt β + a * diff β) * armWt raw a)

theorem arm_score_sum (ho : raw.linearOffset = none) (β : Vec ℝ (ncols true 1)) (a : ℝ) :
    ∑ i ∈ arm raw a, totalWt raw i * (fam.glm (F := ℝ)).link.dNatParam (linPred raw true β i)
      * (raw.y i - meanAt fam.glm raw true β i) = armScore fam raw β a := by
  rw [armScore, armSum, armWt, Finset.mul_sum, ← Finset.sum_sub_distrib, Finset.mul_sum]
  refine Finset.sum_congr rfl fun i hi => ?_
  rw [meanAt, linPred_arm ho β hi]
  ring

theorem arm_info_sum (ho : raw.linearOffset = none) (β : Vec ℝ (ncols true 1)) (a : ℝ) :
    ∑ i ∈ arm raw a, totalWt raw i * (fam.glm (F := ℝ)).link.dNatParam (linPred raw true β i) ^ 2
      * (fam.glm (F := ℝ)).variance (meanAt fam.glm raw true β i) = armInfo fam raw β a := by
  rw [armInfo, armWt, Finset.mul_sum]
  refine Finset.sum_congr rfl fun i hi => ?_
  rw [meanAt, linPred_arm ho β hi, variance_real]
  ring

theorem scoreVec_arms (h : TwoArms raw) (ho : raw.linearOffset = none) (β : Vec ℝ (ncols true 1)) :
    scoreVec fam.glm raw true β = (![armScore fam raw β 0 + armScore fam raw β 1, armScore fam raw β 1] :
      Fin 2 → ℝ) := by
  funext j
  change Fin 2 at j
  rw [scoreVec, sum_arms h]
  have h0 : ∀ i ∈ arm raw 0, design true raw.x i (1 : Fin 2) = 0 := fun i hi => mem_arm.mp hi
  have h1 : ∀ i ∈ arm raw 1, design true raw.x i (1 : Fin 2) = 1 := fun i hi => mem_arm.mp hi
  rw [← arm_score_sum ho, ← arm_score_sum ho]
  fin_cases j
  · refine congrArg₂ (· + ·) (Finset.sum_congr rfl fun i hi => ?_) (Finset.sum_congr rfl fun i hi => ?_)
    · exact mul_one _
    · exact mul_one _
  · refine (congrArg₂ (· + ·) (Finset.sum_eq_zero fun i hi => ?_)
      (Finset.sum_congr rfl fun i hi => ?_)).trans (zero_add _)
    · exact (congrArg _ (h0 i hi)).trans (mul_zero _)
    · exact (congrArg _ (h1 i hi)).trans (mul_one _)

theorem fisherMat_arms (h : TwoArms raw) (ho : raw.linearOffset = none) (β : Vec ℝ (ncols true 1)) :
    fisherMat fam.glm raw true β = (!![armInfo fam raw β 0 + armInfo fam raw β 1, armInfo fam raw β 1;
      armInfo fam raw β 1, armInfo fam raw β 1] : Matrix (Fin 2) (Fin 2) ℝ) := by
  have h0 : ∀ i ∈ arm raw 0, design true raw.x i (1 : Fin 2) = 0 := fun i hi => mem_arm.mp hi
  have h1 : ∀ i ∈ arm raw 1, design true raw.x i (1 : Fin 2) = 1 := fun i hi => mem_arm.mp hi
  have hi : ∀ i, design true raw.x i (0 : Fin 2) = 1 := fun i => rfl
  ext j k
  change Fin 2 at j k
  rw [fisherMat, sum_arms h, ← arm_info_sum ho, ← arm_info_sum ho]
  have z : ∀ j k : Fin 2, (j = 1 ∨ k = 1) → ∑ i ∈ arm raw 0, totalWt raw i
      * (fam.glm (F := ℝ)).link.dNatParam (linPred raw true β i) ^ 2
      * (fam.glm (F := ℝ)).variance (meanAt fam.glm raw true β i) * design true raw.x i j
      * design true raw.x i k = 0 := by
    intro j k hjk
    refine Finset.sum_eq_zero fun i hi => ?_
    rcases hjk with rfl | rfl
    · rw [h0 i hi, mul_zero, zero_mul]
    · rw [h0 i hi, mul_zero]
  have u : ∀ j k : Fin 2, ∑ i ∈ arm raw 1, totalWt raw i
      * (fam.glm (F := ℝ)).link.dNatParam (linPred raw true β i) ^ 2
      * (fam.glm (F := ℝ)).variance (meanAt fam.glm raw true β i) * design true raw.x i j
      * design true raw.x i k = ∑ i ∈ arm raw 1, totalWt raw i
      * (fam.glm (F := ℝ)).link.dNatParam (linPred raw true β i) ^ 2
      * (fam.glm (F := ℝ)).variance (meanAt fam.glm raw true β i) := by
    intro j k
    refine Finset.sum_congr rfl fun i hm => ?_
    have e : ∀ j : Fin 2, design true raw.x i j = 1 := fun j => by
      fin_cases j
      · exact hi i
      · exact h1 i hm
    rw [e, e, mul_one, mul_one]
  rw [u]
  fin_cases j <;> fin_cases k
  · refine congrArg₂ (· + ·) (Finset.sum_congr rfl fun i _ => ?_) rfl
    exact (mul_one _).trans (mul_one _)
  · exact (congrArg (· + _) (z 0 1 (.inr rfl))).trans (zero_add _)
  · exact (congrArg (· + _) (z 1 0 (.inl rfl))).trans (zero_add _)
  · exact (congrArg (· + _) (z 1 1 (.inl rfl))).trans (zero_add _)

/-- The inverse of the information matrix of two arms. -/
theorem arms_inv {k0 k1 : ℝ} (h0 : k0 ≠ 0) (h1 : k1 ≠ 0) :
    IsUnit (!![k0 + k1, k1; k1, k1] : Matrix (Fin 2) (Fin 2) ℝ).det ∧
    (!![k0 + k1, k1; k1, k1] : Matrix (Fin 2) (Fin 2) ℝ)⁻¹ = !![1 / k0, -(1 / k0); -(1 / k0), 1 / k0 + 1 / k1] := by
  have hm : (!![k0 + k1, k1; k1, k1] : Matrix (Fin 2) (Fin 2) ℝ)
      * !![1 / k0, -(1 / k0); -(1 / k0), 1 / k0 + 1 / k1] = 1 := by
    ext i j
    fin_cases i <;> fin_cases j <;> simp [Matrix.mul_apply, Fin.sum_univ_two] <;> field_simp <;> ring
  exact ⟨(Matrix.isUnit_iff_isUnit_det _).mp (IsUnit.of_mul_eq_one _ hm), inv_eq_right_inv hm⟩

namespace Spec.ArmFit
variable (h : ArmFit env fam raw std d o f)
include h

theorem score_eq (β : Vec ℝ (ncols true 1)) : f.score β = scoreVec fam.glm raw true β := by
  rw [(C10_external (Family.lawfulAdj fam) h.built h.l1 h.fit).2.1]
  funext j
  simp only [penScore, max_eq_right h.l1, max_eq_right h.l2, zero_mul, add_zero, onSlopes_zero,
    sub_zero]

theorem fisher_eq (β : Vec ℝ (ncols true 1)) : Matrix.of (f.fisher β) = fisherMat fam.glm raw true β := by
  rw [(C10_external (Family.lawfulAdj fam) h.built h.l1 h.fit).2.2.1, ridgeMat, max_eq_right h.l2]
  simp [onSlopes_zero]

theorem pred_mem (ha : Admissible fam raw true f.result) {a : ℝ} (hw : 0 < armWt raw a) :
    icpt f.result + a * diff f.result ∈ predDom fam := by
  have hne : (arm raw a).Nonempty := by
    rw [Finset.nonempty_iff_ne_empty]
    intro he
    rw [armWt, he, Finset.sum_empty] at hw
    exact lt_irrefl _ hw
  obtain ⟨i, hi⟩ := hne
  rw [← linPred_arm h.offset f.result hi]
  exact ha i

end Spec.ArmFit

section
variable (h : ArmFit env fam raw std d o f)
include h

/-- Where the score vanishes the means of the model are those of the arms. -/
theorem arm_means (hs : f.score f.result = 0) :
    (fam.glm (F := ℝ)).link.funcInv (icpt f.result + 0 * diff f.result) = armMean raw 0 ∧
    (fam.glm (F := ℝ)).link.funcInv (icpt f.result + 1 * diff f.result) = armMean raw 1 := by
  rw [h.score_eq, scoreVec_arms h.arms h.offset] at hs
  have e0 : armScore fam raw f.result 0 + armScore fam raw f.result 1 = 0 := congrFun hs (0 : Fin 2)
  have e1 : armScore fam raw f.result 1 = 0 := congrFun hs (1 : Fin 2)
  rw [e1, add_zero] at e0
  rw [armScore, mul_eq_zero, or_iff_right (dNatParam_pos fam _).ne', sub_eq_zero] at e0 e1
  exact ⟨by rw [armMean, eq_div_iff h.weight0.ne', e0], by rw [armMean, eq_div_iff h.weight1.ne', e1]⟩

/-- **C108** (means).  Where the score vanishes the fitted values are the weighted means of the arms, for
every family and link, and so are the predictions for new observations in either arm. -/
theorem C108_means (hs : f.score f.result = 0) :
    (∀ i, f.yHat i = armMean raw (raw.x i 0)) ∧
    ∀ {m : ℕ} (X : Mat ℝ m 1) (i : Fin m), X i 0 = 0 ∨ X i 0 = 1 →
      f.predict X none i = armMean raw (X i 0) := by
  obtain ⟨h0, h1⟩ := arm_means h hs
  constructor
  · intro i
    obtain ⟨g1, -, -, hf⟩ := regression_ofRaw h.built h.fit
    rw [hf.mean, g1, meanAt, linPred_arm h.offset f.result (mem_arm.mpr rfl)]
    rcases h.arms i with e | e <;> rw [e]
    · exact h0
    · exact h1
  · intro m X i hX
    rw [C93_row h.fit]
    have : newPred true f.result (X i) (newOffset none i) = icpt f.result + X i 0 * diff f.result := by
      change f.result (0 : Fin 2) + (∑ j : Fin 1, X i j * f.result (j.succ : Fin 2)) + 0 = _
      rw [Fin.sum_univ_one, add_zero]
      rfl
    rw [this]
    rcases hX with e | e <;> rw [e]
    · exact h0
    · exact h1

/-- **C108** (coefficients).  The intercept is the link of the mean of arm 0, and the coefficient of the
feature the difference of the links of the two means. -/
theorem C108_coefficients (hv : ValidFamily fam) (ha : Admissible fam raw true f.result)
    (hs : f.score f.result = 0) : icpt f.result = linkFn fam (armMean raw 0) ∧
    diff f.result = linkFn fam (armMean raw 1) - linkFn fam (armMean raw 0) := by
  obtain ⟨h0, h1⟩ := arm_means h hs
  have e0 := congrArg (fam.glm (F := ℝ)).link.func h0
  have e1 := congrArg (fam.glm (F := ℝ)).link.func h1
  rw [func_funcInv fam hv (h.pred_mem ha h.weight0), func_eq_linkFn] at e0
  rw [func_funcInv fam hv (h.pred_mem ha h.weight1), func_eq_linkFn] at e1
  rw [← e0, ← e1]
  constructor <;> ring

/-- **C108** (covariance).  The variances of the coefficients are those of independent arms, with the
information of each. -/
theorem C108_covariance (he : env'.Exact) (h0 : armInfo fam raw f.result 0 ≠ 0)
    (h1 : armInfo fam raw f.result 1 ≠ 0) : ∃ cov, f.covariance env' = .ok cov ∧
    cov (0 : Fin 2) (0 : Fin 2) = f.dispersion * (1 / armInfo fam raw f.result 0) ∧
    cov (0 : Fin 2) (1 : Fin 2) = -(f.dispersion * (1 / armInfo fam raw f.result 0)) ∧
    cov (1 : Fin 2) (1 : Fin 2)
      = f.dispersion * (1 / armInfo fam raw f.result 0 + 1 / armInfo fam raw f.result 1) := by
  obtain ⟨hu, hi⟩ := arms_inv h0 h1
  have hF := (h.fisher_eq f.result).trans (fisherMat_arms h.arms h.offset f.result)
  have hdet : IsUnit (Matrix.of (f.fisher f.result)).det := by rw [hF]; exact hu
  obtain ⟨cov, hcov⟩ : ∃ cov, f.covariance env' = .ok cov := by
    unfold Fit.covariance Fit.fisherInv
    rw [he.inv_eq hdet]
    exact ⟨_, rfl⟩
  obtain ⟨-, hc⟩ := covariance_eq (Family.lawfulAdj fam) h.built h.fit he hcov
  rw [← h.fisher_eq f.result, nonsing_inv_mul _ hdet, one_mul, hF, hi] at hc
  have e : ∀ i j : Fin 2, cov i j = f.dispersion * (!![1 / armInfo fam raw f.result 0,
      -(1 / armInfo fam raw f.result 0); -(1 / armInfo fam raw f.result 0),
      1 / armInfo fam raw f.result 0 + 1 / armInfo fam raw f.result 1] : Matrix (Fin 2) (Fin 2) ℝ) i j :=
    fun i j => congrFun (congrFun hc i) j
  exact ⟨cov, hcov, e 0 0, (e 0 1).trans (mul_neg _ _), e 1 1⟩

/-- The z statistic of the feature. -/
theorem arm_z (he : env'.Exact) (h0 : armInfo fam raw f.result 0 ≠ 0)
    (h1 : armInfo fam raw f.result 1 ≠ 0) : ∃ z, f.waldZ env' = .ok z ∧ diff z = diff f.result
      / √(f.dispersion * (1 / armInfo fam raw f.result 0 + 1 / armInfo fam raw f.result 1)) := by
  obtain ⟨cov, hc, -, -, e⟩ := C108_covariance h he h0 h1
  refine ⟨fun j => f.result j / √(cov j j), ?_, ?_⟩
  · unfold Fit.waldZ
    rw [hc]
    rfl
  · rw [← e]
    rfl

end

/-! ### The t test -/

theorem armInfo_linear (β : Vec ℝ (ncols true 1)) (a : ℝ) : armInfo .linear raw β a = armWt raw a := by
  rw [armInfo, dNatParam_real]
  simp [varianceFn]

theorem rss_arms (h : ArmFit env .linear raw std d o f) (hs : f.score f.result = 0) :
    devianceOf Family.linear.glm raw true f.result = armSq raw 0 + armSq raw 1 := by
  have hdev : devianceOf Family.linear.glm raw true f.result = sse raw true f.result := by
    have hsat : satLik Family.linear.glm raw = (∑ i, totalWt raw i * raw.y i ^ 2) / 2 := by
      rw [satLik, Finset.sum_div]
      refine Finset.sum_congr rfl fun i _ => ?_
      rw [show (Family.linear.glm (F := ℝ)).logLikeSat (raw.y i) = raw.y i ^ 2 / 2 from ?_]
      · ring
      · rw [logLikeSat_real]
    rw [devianceOf, lin_logLik, hsat]
    ring
  rw [hdev, sse, sum_arms h.arms, armSq, armSq]
  obtain ⟨h0, h1⟩ := arm_means h hs
  rw [funcInv_real] at h0 h1
  refine congrArg₂ (· + ·) (Finset.sum_congr rfl fun i hi => ?_) (Finset.sum_congr rfl fun i hi => ?_)
  · rw [linPred_arm h.offset f.result hi, ← h0]
  · rw [linPred_arm h.offset f.result hi, ← h1]

/-- **C108** (t test).  For the Linear family the coefficient is the difference of the means, and without
variance weights its z statistic is Student's two-sample statistic with the pooled variance. -/
theorem C108_t_test (h : ArmFit env .linear raw std d o f) (hs : f.score f.result = 0) (he : env'.Exact)
    (hw : raw.weights = none) (hN : 2 < obsCount raw) :
    diff f.result = armMean raw 1 - armMean raw 0 ∧ ∃ z, f.waldZ env' = .ok z ∧
    diff z = (armMean raw 1 - armMean raw 0) / √((armSq raw 0 + armSq raw 1) / (obsCount raw - 2)
      * (1 / armWt raw 0 + 1 / armWt raw 1)) := by
  have hc := (C108_coefficients h trivial (fun _ => trivial) hs).2
  have hc' : diff f.result = armMean raw 1 - armMean raw 0 := hc
  refine ⟨hc', ?_⟩
  obtain ⟨z, hz, e⟩ := arm_z h he (by rw [armInfo_linear]; exact h.weight0.ne')
    (by rw [armInfo_linear]; exact h.weight1.ne')
  refine ⟨z, hz, ?_⟩
  rw [e, hc', armInfo_linear, armInfo_linear, C42_no_weights h.built h.fit rfl hw (by exact_mod_cast hN),
    rss_arms h hs]
  norm_num [ncols]

/-! ### Odds ratios -/

theorem armSum_eq {a : ℝ} (h : armWt raw a ≠ 0) : armSum raw a = armMean raw a * armWt raw a := by
  rw [armMean, div_mul_cancel₀ _ h]

/-- **C108** (odds ratio).  For logistic regression, with `a` and `b` the (weighted) numbers of ones and
zeros in arm 1 and `c` and `e` those in arm 0: none of them is zero, the coefficient is the logarithm of the
odds ratio `(a / b) / (c / e)`, and its variance `1/a + 1/b + 1/c + 1/e`. -/
theorem C108_odds (h : ArmFit env .logisticLogit raw std d o f) (hs : f.score f.result = 0)
    (he : env'.Exact) : let a := armSum raw 1; let b := armWt raw 1 - armSum raw 1
    let c := armSum raw 0; let e := armWt raw 0 - armSum raw 0
    0 < a ∧ 0 < b ∧ 0 < c ∧ 0 < e ∧ diff f.result = Real.log (a / b / (c / e)) ∧
    (∃ cov, f.covariance env' = .ok cov ∧ cov (1 : Fin 2) (1 : Fin 2) = 1 / a + 1 / b + 1 / c + 1 / e) ∧
    ∃ z, f.waldZ env' = .ok z ∧
      diff z = Real.log (a / b / (c / e)) / √(1 / a + 1 / b + 1 / c + 1 / e) := by
  intro a b c e
  obtain ⟨h0, h1⟩ := arm_means h hs
  have d0 : armMean raw 0 ∈ Set.Ioo (0 : ℝ) 1 := by
    rw [← h0]; exact funcInv_mem .logisticLogit trivial trivial
  have d1 : armMean raw 1 ∈ Set.Ioo (0 : ℝ) 1 := by
    rw [← h1]; exact funcInv_mem .logisticLogit trivial trivial
  have w0 := h.weight0
  have w1 := h.weight1
  have ea : a = armMean raw 1 * armWt raw 1 := armSum_eq w1.ne'
  have eb : b = (1 - armMean raw 1) * armWt raw 1 := by rw [sub_mul, one_mul, ← ea]
  have ec : c = armMean raw 0 * armWt raw 0 := armSum_eq w0.ne'
  have ee : e = (1 - armMean raw 0) * armWt raw 0 := by rw [sub_mul, one_mul, ← ec]
  have pa : 0 < a := ea ▸ mul_pos d1.1 w1
  have pb : 0 < b := eb ▸ mul_pos (sub_pos.mpr d1.2) w1
  have pc : 0 < c := ec ▸ mul_pos d0.1 w0
  have pe : 0 < e := ee ▸ mul_pos (sub_pos.mpr d0.2) w0
  have hdiff : diff f.result = Real.log (a / b / (c / e)) := by
    rw [(C108_coefficients h trivial (fun _ => trivial) hs).2]
    change Real.log (_ / _) - Real.log (_ / _) = _
    rw [Real.log_div (div_pos pa pb).ne' (div_pos pc pe).ne', ea, eb, ec, ee,
      mul_div_mul_right _ _ w1.ne', mul_div_mul_right _ _ w0.ne']
  have i0 : armInfo .logisticLogit raw f.result 0 = armMean raw 0 * (1 - armMean raw 0) * armWt raw 0 := by
    rw [armInfo, h0, dNatParam_canonical (fam := .logisticLogit) trivial]
    simp [varianceFn]
  have i1 : armInfo .logisticLogit raw f.result 1 = armMean raw 1 * (1 - armMean raw 1) * armWt raw 1 := by
    rw [armInfo, h1, dNatParam_canonical (fam := .logisticLogit) trivial]
    simp [varianceFn]
  have n0 : 0 < armMean raw 0 * (1 - armMean raw 0) * armWt raw 0 :=
    mul_pos (mul_pos d0.1 (sub_pos.mpr d0.2)) w0
  have n1 : 0 < armMean raw 1 * (1 - armMean raw 1) * armWt raw 1 :=
    mul_pos (mul_pos d1.1 (sub_pos.mpr d1.2)) w1
  have split : ∀ m w : ℝ, 0 < m → 0 < 1 - m → 0 < w →
      1 / (m * (1 - m) * w) = 1 / (m * w) + 1 / ((1 - m) * w) := by
    intro m w hm hm' hw
    field_simp
    ring
  have hφ : f.dispersion = 1 := C42_fixed h.built h.fit rfl
  have hsum : f.dispersion * (1 / armInfo .logisticLogit raw f.result 0
      + 1 / armInfo .logisticLogit raw f.result 1) = 1 / a + 1 / b + 1 / c + 1 / e := by
    rw [hφ, i0, i1, split _ _ d0.1 (sub_pos.mpr d0.2) w0, split _ _ d1.1 (sub_pos.mpr d1.2) w1, ea, eb, ec, ee]
    ring
  refine ⟨pa, pb, pc, pe, hdiff, ?_, ?_⟩
  · obtain ⟨cov, hc, -, -, e'⟩ := C108_covariance h he (by rw [i0]; exact n0.ne') (by rw [i1]; exact n1.ne')
    exact ⟨cov, hc, e'.trans hsum⟩
  · obtain ⟨z, hz, e'⟩ := arm_z h he (by rw [i0]; exact n0.ne') (by rw [i1]; exact n1.ne')
    exact ⟨z, hz, by rw [e', hsum, hdiff]⟩

/-! ### Rate ratios -/

/-- **C108** (rate ratio).  For Poisson regression the coefficient is the logarithm of the ratio of the
mean counts, and its variance the sum of the reciprocals of the total counts. -/
theorem C108_rates (h : ArmFit env .poisson raw std d o f) (hs : f.score f.result = 0) (he : env'.Exact) :
    0 < armSum raw 0 ∧ 0 < armSum raw 1 ∧ diff f.result = Real.log (armMean raw 1 / armMean raw 0) ∧
    (∃ cov, f.covariance env' = .ok cov ∧
      cov (1 : Fin 2) (1 : Fin 2) = 1 / armSum raw 0 + 1 / armSum raw 1) ∧
    ∃ z, f.waldZ env' = .ok z ∧
      diff z = Real.log (armMean raw 1 / armMean raw 0) / √(1 / armSum raw 0 + 1 / armSum raw 1) := by
  obtain ⟨h0, h1⟩ := arm_means h hs
  have d0 : 0 < armMean raw 0 := by
    rw [← h0]; exact funcInv_mem .poisson trivial trivial
  have d1 : 0 < armMean raw 1 := by
    rw [← h1]; exact funcInv_mem .poisson trivial trivial
  have e0 := armSum_eq h.weight0.ne'
  have e1 := armSum_eq h.weight1.ne'
  have p0 : 0 < armSum raw 0 := e0 ▸ mul_pos d0 h.weight0
  have p1 : 0 < armSum raw 1 := e1 ▸ mul_pos d1 h.weight1
  have i0 : armInfo .poisson raw f.result 0 = armSum raw 0 := by
    rw [armInfo, h0, dNatParam_canonical (fam := .poisson) trivial, e0]
    simp [varianceFn]
  have i1 : armInfo .poisson raw f.result 1 = armSum raw 1 := by
    rw [armInfo, h1, dNatParam_canonical (fam := .poisson) trivial, e1]
    simp [varianceFn]
  have hdiff : diff f.result = Real.log (armMean raw 1 / armMean raw 0) := by
    rw [(C108_coefficients h trivial (fun _ => trivial) hs).2, Real.log_div d1.ne' d0.ne']
    rfl
  have hφ : f.dispersion = 1 := C42_fixed h.built h.fit rfl
  refine ⟨p0, p1, hdiff, ?_, ?_⟩
  · obtain ⟨cov, hc, -, -, e'⟩ := C108_covariance h he (by rw [i0]; exact p0.ne') (by rw [i1]; exact p1.ne')
    exact ⟨cov, hc, by rw [e', hφ, i0, i1, one_mul]⟩
  · obtain ⟨z, hz, e'⟩ := arm_z h he (by rw [i0]; exact p0.ne') (by rw [i1]; exact p1.ne')
    exact ⟨z, hz, by rw [e', hφ, i0, i1, one_mul, hdiff]⟩

/-- **C108** (ratio of means).  For the Exponential and Gamma families with the log link the coefficient is
the logarithm of the ratio of the means, and its variance the dispersion times the sum of the reciprocals of
the sizes of the arms, whatever the responses. -/
theorem C108_ratio (hl : fam = .exponentialLog ∨ fam = .gammaLog) (h : ArmFit env fam raw std d o f)
    (hs : f.score f.result = 0) (he : env'.Exact) :
    diff f.result = Real.log (armMean raw 1 / armMean raw 0) ∧
    ∃ cov, f.covariance env' = .ok cov ∧
      cov (1 : Fin 2) (1 : Fin 2) = f.dispersion * (1 / armWt raw 0 + 1 / armWt raw 1) := by
  obtain ⟨h0, h1⟩ := arm_means h hs
  have hexp : ∀ w, (fam.glm (F := ℝ)).link.funcInv w = Real.exp w := by
    intro w; rw [funcInv_real]; rcases hl with rfl | rfl <;> rfl
  have hinf : ∀ a, armInfo fam raw f.result a = armWt raw a := by
    intro a
    have : (fam.glm (F := ℝ)).link.dNatParam (icpt f.result + a * diff f.result) ^ 2
        * varianceFn fam (Real.exp (icpt f.result + a * diff f.result)) = 1 := by
      rw [dNatParam_real]
      rcases hl with rfl | rfl <;>
        (simp only [varianceFn]; rw [← mul_pow, ← Real.exp_add, neg_add_cancel, Real.exp_zero, one_pow])
    rw [armInfo, hexp, this, one_mul]
  obtain ⟨cov, hc, -, -, e⟩ := C108_covariance (env' := env') h he (by rw [hinf]; exact h.weight0.ne')
    (by rw [hinf]; exact h.weight1.ne')
  refine ⟨?_, cov, hc, by rw [e, hinf, hinf]⟩
  rw [hexp] at h0 h1
  rw [← h0, ← h1, ← Real.exp_sub, Real.log_exp]
  ring

/-! ### The score test -/

theorem weightSum_arms (h : TwoArms raw) : weightSum raw = armWt raw 0 + armWt raw 1 := sum_arms h _

theorem meanY_arms (h : TwoArms raw) : meanY raw = (armSum raw 0 + armSum raw 1) / (armWt raw 0 + armWt raw 1) := by
  rw [meanY, weightSum_arms h, sum_arms h]
  rfl

theorem quad_second (a b c t : ℝ) : (![0, t] : Fin 2 → ℝ) ⬝ᵥ (!![a, b; b, c] *ᵥ ![0, t]) = t * (c * t) := by
  simp [mulVec, dotProduct, Fin.sum_univ_two]

theorem score_form {k w0 w1 u V : ℝ} (hk : k ≠ 0) (hV : V ≠ 0) (h0 : 0 < w0) (h1 : 0 < w1) :
    (k * u) * ((1 / (k ^ 2 * V * w0) + 1 / (k ^ 2 * V * w1)) * (k * u)) = u ^ 2 / V * (1 / w0 + 1 / w1) := by
  field_simp

theorem score_arms {w0 w1 s0 s1 V : ℝ} (hV : V ≠ 0) (h0 : 0 < w0) (h1 : 0 < w1) :
    (s1 - (s0 + s1) / (w0 + w1) * w1) ^ 2 / V * (1 / w0 + 1 / w1)
      = (s1 / w1 - s0 / w0) ^ 2 / (V * (1 / w0 + 1 / w1)) := by
  have h2 : w0 + w1 ≠ 0 := by positivity
  field_simp
  ring

/-- **C108** (score test).  The score test of the feature is the squared difference of the means, divided
by its variance under the null hypothesis, for every family and link. -/
theorem C108_score_test (h : ArmFit env fam raw std d o f) (hv : ValidFamily fam)
    (hm : meanY raw ∈ meanDom fam) (he : env.Exact) : f.scoreTest env
      = .ok ((armMean raw 1 - armMean raw 0) ^ 2
        / (varianceFn fam (meanY raw) * (1 / armWt raw 0 + 1 / armWt raw 1))) := by
  have hW : weightSum raw ≠ 0 := by
    rw [weightSum_arms h.arms]; exact (add_pos h.weight0 h.weight1).ne'
  have hn := (C37_intercept (env' := env) h.built h.fit h.offset hW).1
  rw [(C38_lr_null h.built h.fit (fun _ => hW) hn).2.2]
  set β : Vec ℝ (ncols true 1) := interceptOnly (linkFn fam (meanY raw)) with hβ
  have hp : ∀ a : ℝ, icpt β + a * diff β = linkFn fam (meanY raw) := by
    intro a
    change linkFn fam (meanY raw) + a * 0 = _
    rw [mul_zero, add_zero]
  have hmean : (fam.glm (F := ℝ)).link.funcInv (linkFn fam (meanY raw)) = meanY raw := by
    rw [← func_eq_linkFn, funcInv_func fam hm]
  set k := (fam.glm (F := ℝ)).link.dNatParam (linkFn fam (meanY raw)) with hk
  have hk0 : 0 < k := dNatParam_pos fam _
  have hV : 0 < varianceFn fam (meanY raw) := varianceFn_pos fam hv hm
  have hinf : ∀ a, armInfo fam raw β a = k ^ 2 * varianceFn fam (meanY raw) * armWt raw a := by
    intro a; rw [armInfo, hp, hmean]
  have hsc : ∀ a, armScore fam raw β a = k * (armSum raw a - meanY raw * armWt raw a) := by
    intro a; rw [armScore, hp, hmean]
  obtain ⟨hu, hi⟩ := arms_inv (k0 := armInfo fam raw β 0) (k1 := armInfo fam raw β 1)
    (by rw [hinf]; exact (mul_pos (mul_pos (pow_pos hk0 2) hV) h.weight0).ne')
    (by rw [hinf]; exact (mul_pos (mul_pos (pow_pos hk0 2) hV) h.weight1).ne')
  have hF := (h.fisher_eq β).trans (fisherMat_arms h.arms h.offset β)
  have hS := (h.score_eq β).trans (scoreVec_arms h.arms h.offset β)
  obtain ⟨-, h2, -, -, -, h6⟩ := C10_external (Family.lawfulAdj fam) h.built h.l1 h.fit
  rw [h6, he.inv_eq (by rw [hF]; exact hu), ← h2, hS]
  have hz : armScore fam raw β 0 + armScore fam raw β 1 = 0 := by
    rw [hsc, hsc, meanY_arms h.arms]
    have : armWt raw 0 + armWt raw 1 ≠ 0 := (add_pos h.weight0 h.weight1).ne'
    field_simp
    ring
  change Outcome.ok _ = _
  refine congrArg Outcome.ok ?_
  dsimp only
  rw [Equiv.apply_symm_apply, hF, hi, hz]
  refine Eq.trans (b := armScore fam raw β 1 * ((1 / armInfo fam raw β 0 + 1 / armInfo fam raw β 1)
    * armScore fam raw β 1)) ?_ ?_
  · exact quad_second _ _ _ _
  · rw [hinf, hinf, hsc, score_form hk0.ne' hV.ne' h.weight0 h.weight1, meanY_arms h.arms,
      score_arms _ h.weight0 h.weight1]
    · rfl
    · rw [← meanY_arms h.arms]; exact hV.ne'

/-- **C108** (chi-squared test).  For logistic regression the score test is Pearson's chi-squared statistic
of the two by two table: `N (a e - b c)² / ((a + b) (c + e) (a + c) (b + e))`. -/
theorem C108_chi_squared (h : ArmFit env .logisticLogit raw std d o f) (he : env.Exact)
    (h1 : 0 < armSum raw 0 + armSum raw 1)
    (h0 : 0 < armWt raw 0 + armWt raw 1 - (armSum raw 0 + armSum raw 1)) :
    let a := armSum raw 1; let b := armWt raw 1 - armSum raw 1
    let c := armSum raw 0; let e := armWt raw 0 - armSum raw 0
    f.scoreTest env = .ok ((a + b + c + e) * (a * e - b * c) ^ 2 / ((a + b) * (c + e) * (a + c) * (b + e))) := by
  intro a b c e
  have q0 := h.weight0
  have q1 := h.weight1
  have hW := add_pos q0 q1
  have hm : meanY raw ∈ meanDom .logisticLogit := by
    rw [meanY_arms h.arms]
    exact ⟨div_pos h1 hW, (div_lt_one hW).mpr (by linarith)⟩
  rw [C108_score_test h trivial hm he, meanY_arms h.arms]
  refine congrArg Outcome.ok ?_
  simp only [varianceFn, armMean, a, b, c, e]
  generalize armSum raw 0 = s0 at *
  generalize armSum raw 1 = s1 at *
  generalize armWt raw 0 = w0 at *
  generalize armWt raw 1 = w1 at *
  have x1 : s1 + s0 ≠ 0 := by rw [add_comm]; exact h1.ne'
  have x2 : w1 - s1 + (w0 - s0) ≠ 0 := by
    have : w1 - s1 + (w0 - s0) = w0 + w1 - (s0 + s1) := by ring
    rw [this]; exact h0.ne'
  have e1 : 1 - (s0 + s1) / (w0 + w1) = (w1 - s1 + (w0 - s0)) / (w0 + w1) := by
    field_simp; ring
  have e2 : s1 / w1 - s0 / w0 = (s1 * (w0 - s0) - (w1 - s1) * s0) / (w0 * w1) := by
    field_simp; ring
  have e3 : s1 + (w1 - s1) = w1 := by ring
  have e4 : s0 + (w0 - s0) = w0 := by ring
  have e5 : s1 + (w1 - s1) + s0 + (w0 - s0) = w0 + w1 := by ring
  rw [e1, e2, e5, e3, e4, add_comm s0 s1]
  generalize s1 * (w0 - s0) - (w1 - s1) * s0 = t
  generalize s1 + s0 = u at *
  generalize w1 - s1 + (w0 - s0) = v at *
  field_simp
  ring

/-! ### The likelihood-ratio test -/

theorem logLik_arms (h : TwoArms raw) (ho : raw.linearOffset = none) (β : Vec ℝ (ncols true 1)) :
    logLik fam.glm raw true β
      = (armSum raw 0 * (fam.glm (F := ℝ)).link.natParam (icpt β + 0 * diff β)
        - armWt raw 0 * cumulant fam ((fam.glm (F := ℝ)).link.natParam (icpt β + 0 * diff β)))
      + (armSum raw 1 * (fam.glm (F := ℝ)).link.natParam (icpt β + 1 * diff β)
        - armWt raw 1 * cumulant fam ((fam.glm (F := ℝ)).link.natParam (icpt β + 1 * diff β))) := by
  rw [logLik, sum_arms h]
  have e : ∀ a, ∑ i ∈ arm raw a, totalWt raw i * logLikAt fam.glm raw true β i
      = armSum raw a * (fam.glm (F := ℝ)).link.natParam (icpt β + a * diff β)
        - armWt raw a * cumulant fam ((fam.glm (F := ℝ)).link.natParam (icpt β + a * diff β)) := by
    intro a
    rw [armSum, armWt, Finset.sum_mul, Finset.sum_mul, ← Finset.sum_sub_distrib]
    refine Finset.sum_congr rfl fun i hi => ?_
    rw [logLikAt, logLikeNatural_real, linPred_arm ho β hi]
    ring
  rw [e, e]

/-- The likelihood-ratio test of the feature, for canonical links. -/
theorem arm_lr (h : ArmFit env fam raw std d o f) (hc : IsCanonical fam) (hv : ValidFamily fam)
    (ha : Admissible fam raw true f.result) (hs : f.score f.result = 0) : f.lrTest env'
      = .ok (2 * ((armSum raw 0 * (linkFn fam (armMean raw 0) - linkFn fam (meanY raw))
          - armWt raw 0 * (cumulant fam (linkFn fam (armMean raw 0)) - cumulant fam (linkFn fam (meanY raw))))
        + (armSum raw 1 * (linkFn fam (armMean raw 1) - linkFn fam (meanY raw))
          - armWt raw 1 * (cumulant fam (linkFn fam (armMean raw 1))
            - cumulant fam (linkFn fam (meanY raw)))))) := by
  have hW : weightSum raw ≠ 0 := by
    rw [weightSum_arms h.arms]; exact (add_pos h.weight0 h.weight1).ne'
  have hn := (C37_intercept (env' := env') h.built h.fit h.offset hW).1
  have hnat : ∀ w, (fam.glm (F := ℝ)).link.natParam w = w := by
    intro w; rw [natParam_real]; cases fam <;> first | rfl | exact hc.elim
  have hpen : ∀ β, penLogLik fam.glm raw true o.l1 o.l2 (scale d) β = logLik fam.glm raw true β := by
    intro β
    simp [penLogLik, penalty, max_eq_right h.l1, max_eq_right h.l2]
  rw [(C38_lr_null h.built h.fit (fun _ => hW) hn).1, C36_lr h.built h.fit, hpen, hpen,
    logLik_arms h.arms h.offset, logLik_arms h.arms h.offset]
  obtain ⟨e0, e1⟩ := C108_coefficients h hv ha hs
  have r0 : icpt f.result + 0 * diff f.result = linkFn fam (armMean raw 0) := by rw [e0]; ring
  have r1 : icpt f.result + 1 * diff f.result = linkFn fam (armMean raw 1) := by rw [e0, e1]; ring
  have hp : ∀ a : ℝ, icpt (interceptOnly (linkFn fam (meanY raw)) : Vec ℝ (ncols true 1))
      + a * diff (interceptOnly (linkFn fam (meanY raw)) : Vec ℝ (ncols true 1)) = linkFn fam (meanY raw) := by
    intro a
    change linkFn fam (meanY raw) + a * 0 = _
    rw [mul_zero, add_zero]
  rw [r0, r1, hp, hp, hnat, hnat, hnat]
  refine congrArg Outcome.ok ?_
  ring

theorem bernoulli_arm {s w m q : ℝ} (h0 : 0 < m) (h1 : m < 1) (q0 : 0 < q)
    (q1 : q < 1) : s * (Real.log (m / (1 - m)) - Real.log (q / (1 - q)))
      - w * (Real.log (1 + Real.exp (Real.log (m / (1 - m))))
        - Real.log (1 + Real.exp (Real.log (q / (1 - q)))))
      = s * Real.log (m / q) + (w - s) * Real.log ((1 - m) / (1 - q)) := by
  have a1 : (0 : ℝ) < 1 - m := by linarith
  have a2 : (0 : ℝ) < 1 - q := by linarith
  have e : ∀ x : ℝ, 0 < x → 0 < 1 - x → Real.log (1 + Real.exp (Real.log (x / (1 - x)))) = -Real.log (1 - x) := by
    intro x hx hx'
    rw [Real.exp_log (div_pos hx hx'), ← Real.log_inv]
    congr 1
    field_simp
    ring
  rw [e m h0 a1, e q q0 a2, Real.log_div h0.ne' a1.ne', Real.log_div q0.ne' a2.ne',
    Real.log_div h0.ne' q0.ne', Real.log_div a1.ne' a2.ne']
  ring

/-- **C108** (G test).  For logistic regression the likelihood-ratio test is the G statistic of the two by two
table, twice the sum of `O log (O / E)` over its cells: `O / E` is the share of the ones (zeros) in the arm,
divided by the share among all. -/
theorem C108_g_test (h : ArmFit env .logisticLogit raw std d o f) (hs : f.score f.result = 0) :
    f.lrTest env' = .ok (2 * (armSum raw 0 * Real.log (armMean raw 0 / meanY raw)
      + (armWt raw 0 - armSum raw 0) * Real.log ((1 - armMean raw 0) / (1 - meanY raw))
      + armSum raw 1 * Real.log (armMean raw 1 / meanY raw)
      + (armWt raw 1 - armSum raw 1) * Real.log ((1 - armMean raw 1) / (1 - meanY raw)))) := by
  obtain ⟨h0, h1⟩ := arm_means h hs
  have d0 : armMean raw 0 ∈ Set.Ioo (0 : ℝ) 1 := by
    rw [← h0]; exact funcInv_mem .logisticLogit trivial trivial
  have d1 : armMean raw 1 ∈ Set.Ioo (0 : ℝ) 1 := by
    rw [← h1]; exact funcInv_mem .logisticLogit trivial trivial
  have w0 := h.weight0
  have w1 := h.weight1
  have s0 := armSum_eq w0.ne'
  have s1 := armSum_eq w1.ne'
  have hW := add_pos w0 w1
  have p0 := mul_pos d0.1 w0
  have p1 := mul_pos d1.1 w1
  have q0 : 0 < meanY raw := by
    rw [meanY_arms h.arms, s0, s1]
    exact div_pos (add_pos p0 p1) hW
  have q1 : meanY raw < 1 := by
    rw [meanY_arms h.arms, s0, s1, div_lt_one hW]
    exact add_lt_add ((mul_lt_iff_lt_one_left w0).mpr d0.2) ((mul_lt_iff_lt_one_left w1).mpr d1.2)
  rw [arm_lr h trivial trivial (fun _ => trivial) hs]
  refine congrArg Outcome.ok ?_
  have b0 := bernoulli_arm (s := armSum raw 0) (w := armWt raw 0) d0.1 d0.2 q0 q1
  have b1 := bernoulli_arm (s := armSum raw 1) (w := armWt raw 1) d1.1 d1.2 q0 q1
  refine (congrArg (2 * ·) (congrArg₂ (· + ·) b0 b1)).trans ?_
  ring

/-- **C108** (Poisson likelihood ratio): twice the sum of `O log (O / E)` over the arms, `O` the total count
of the arm and `E` its share of all counts according to its size. -/
theorem C108_poisson_lr (h : ArmFit env .poisson raw std d o f) (hs : f.score f.result = 0) :
    f.lrTest env' = .ok (2 * (armSum raw 0 * Real.log (armSum raw 0 / (armWt raw 0 * meanY raw))
      + armSum raw 1 * Real.log (armSum raw 1 / (armWt raw 1 * meanY raw)))) := by
  obtain ⟨h0, h1⟩ := arm_means h hs
  have d0 : 0 < armMean raw 0 := by
    rw [← h0]; exact funcInv_mem .poisson trivial trivial
  have d1 : 0 < armMean raw 1 := by
    rw [← h1]; exact funcInv_mem .poisson trivial trivial
  have w0 := h.weight0
  have w1 := h.weight1
  have s0 := armSum_eq w0.ne'
  have s1 := armSum_eq w1.ne'
  have hW := add_pos w0 w1
  have hy : meanY raw = (armSum raw 0 + armSum raw 1) / (armWt raw 0 + armWt raw 1) := meanY_arms h.arms
  have q0 : 0 < meanY raw := by
    rw [hy, s0, s1]
    exact div_pos (add_pos (mul_pos d0 w0) (mul_pos d1 w1)) hW
  rw [arm_lr h trivial trivial (fun _ => trivial) hs]
  refine congrArg Outcome.ok ?_
  simp only [cumulant, linkFn, canonicalLink]
  rw [Real.exp_log d0, Real.exp_log d1, Real.exp_log q0, ← Real.log_div d0.ne' q0.ne',
    ← Real.log_div d1.ne' q0.ne', ← div_div, ← div_div]
  change 2 * (_ * Real.log (_) - _ + (_ * Real.log _ - _)) = 2 * (_ * Real.log (armMean raw 0 / _)
    + _ * Real.log (armMean raw 1 / _))
  have : armWt raw 0 * (armMean raw 0 - meanY raw) + armWt raw 1 * (armMean raw 1 - meanY raw) = 0 := by
    have e : (armWt raw 0 + armWt raw 1) * meanY raw = armSum raw 0 + armSum raw 1 := by
      rw [hy, mul_div_cancel₀ _ hW.ne']
    rw [s0, s1] at e
    linarith
  linarith

/-- **C108** (F test).  For the Linear family the likelihood-ratio test is the squared difference of the means
over the sum of the reciprocals of the sizes: the sum of squares between the arms. -/
theorem C108_between (h : ArmFit env .linear raw std d o f) (hs : f.score f.result = 0) :
    f.lrTest env' = .ok ((armMean raw 1 - armMean raw 0) ^ 2 / (1 / armWt raw 0 + 1 / armWt raw 1)) := by
  have w0 := h.weight0
  have w1 := h.weight1
  rw [arm_lr h trivial trivial (fun _ => trivial) hs]
  refine congrArg Outcome.ok ?_
  simp only [cumulant, linkFn, canonicalLink]
  rw [meanY_arms h.arms, armSum_eq w0.ne', armSum_eq w1.ne']
  generalize armMean raw 0 = m0
  generalize armMean raw 1 = m1
  generalize armWt raw 0 = v0 at *
  generalize armWt raw 1 = v1 at *
  have : v0 + v1 ≠ 0 := (add_pos w0 w1).ne'
  field_simp
  ring

/-! ### Cases that meet the hypotheses -/

/-- One of two observations is a one in arm 0, two of three in arm 1. -/
noncomputable def exArms : Dataset ℝ 5 1 false where
  y := ![0, 1, 0, 1, 1]
  x := fun i _ => ![0, 0, 1, 1, 1] i
  linearOffset := none
  weights := none
  freqs := none
  standardizer := none

theorem exArms_totalWt (i : Fin 5) : totalWt exArms i = 1 := by
  simp [totalWt, freq, varWt, exArms]

theorem exArms_arms : TwoArms exArms := by
  intro i; fin_cases i <;> simp [exArms]

theorem exArms_wt : armWt exArms 0 = 2 ∧ armWt exArms 1 = 3 := by
  simp only [armWt, arm, exArms_totalWt, Finset.sum_filter, Fin.sum_univ_five]
  constructor <;> simp [exArms] <;> norm_num

theorem exArms_sum : armSum exArms 0 = 1 ∧ armSum exArms 1 = 2 := by
  simp only [armSum, arm, exArms_totalWt, Finset.sum_filter, Fin.sum_univ_five]
  constructor <;> simp [exArms] <;> norm_num

theorem exArms_mean : armMean exArms 0 = 1 / 2 ∧ armMean exArms 1 = 2 / 3 := by
  simp only [armMean, exArms_wt, exArms_sum, and_self]

theorem exArms_sq : armSq exArms 0 = 1 / 2 ∧ armSq exArms 1 = 2 / 3 := by
  simp only [armSq, exArms_mean, arm, exArms_totalWt, Finset.sum_filter, Fin.sum_univ_five]
  constructor <;> simp [exArms] <;> norm_num

theorem exArms_gram : IsUnit (gram exArms true).det := by
  rw [isUnit_iff_ne_zero]
  refine (Matrix.det_fin_two _).trans_ne ?_
  simp only [gram, exArms_totalWt, Fin.sum_univ_five]
  simp [design, exArms]
  norm_num

/-- For every family there is such a fit, with vanishing score. -/
theorem exArms_fit (fam : Family) (hv : ValidFamily fam) (std : Bool) (m : ℕ) {β : Vec ℝ (ncols true 1)}
    (h0 : (fam.glm (F := ℝ)).link.funcInv (icpt β + 0 * diff β) = 1 / 2)
    (h1 : (fam.glm (F := ℝ)).link.funcInv (icpt β + 1 * diff β) = 2 / 3) :
    ∃ d f, ArmFit (exactEnv (1 / 1000) 7) fam exArms std d (exOpts 0 0 (some β) m) f ∧
      f.score f.result = 0 := by
  obtain ⟨d, hd⟩ : ∃ d, exArms.finalize std true = some d := by
    cases std
    · exact ⟨_, rfl⟩
    · have hn : Scalar.gt exArms.nEff 1 = true := by
        rw [gt_real]
        simp [Dataset.nEff, Dataset.nObs, exArms]
      exact ⟨_, by simp only [Dataset.finalize, Standardizer.fromDataset, if_true, hn]; rfl⟩
  have hst : ∀ σ, penScore fam.glm exArms true 0 0 σ β = 0 := by
    intro σ
    have e : penScore fam.glm exArms true 0 0 σ β = scoreVec fam.glm exArms true β := by
      funext j
      simp only [penScore, max_self, zero_mul, add_zero, onSlopes_zero, sub_zero]
    rw [e, scoreVec_arms exArms_arms rfl]
    have e0 : armScore fam exArms β 0 = 0 := by
      rw [armScore, h0, exArms_sum.1, exArms_wt.1]; norm_num
    have e1 : armScore fam exArms β 1 = 0 := by
      rw [armScore, h1, exArms_sum.2, exArms_wt.2]; norm_num
    rw [e0, e1, add_zero]
    funext j
    change Fin 2 at j
    fin_cases j <;> rfl
  obtain ⟨f, hf, -, -, hr⟩ := C22_stationary_start (options := exOpts 0 0 (some β) m)
    (exactEnv_exact (by norm_num : (0 : ℝ) ≤ 1 / 1000) 7) (Family.lawfulAdj fam) hd le_rfl rfl
    ((isUnit_iff_isUnit_det _).mp
      (C30_fullRank_posDef (by norm_num [exactEnv]) (fun i => by rw [exArms_totalWt]; norm_num)
      (fun _ => Family.variance_nonneg fam hv _) exArms_gram).isUnit) (hst _)
  refine ⟨d, f, ⟨exArms_arms, by rw [exArms_wt.1]; norm_num, by rw [exArms_wt.2]; norm_num, rfl, hd, le_rfl,
    le_rfl, hf⟩, ?_⟩
  rw [(C10_external (Family.lawfulAdj fam) hd le_rfl hf).2.1 f.result, hr]
  exact hst _

/-- `C108_t_test` and `C108_between`. -/
theorem C108_example_linear (std : Bool) (m : ℕ) : ∃ d f,
    ArmFit (exactEnv (1 / 1000) 7) .linear exArms std d
      (exOpts 0 0 (some (![1 / 2, 1 / 6] : Fin 2 → ℝ)) m) f ∧
    diff f.result = 1 / 6 ∧ f.lrTest (exactEnv 0 0) = .ok (1 / 30) ∧
    ∃ z, f.waldZ (exactEnv 0 0) = .ok z ∧ diff z = 1 / 6 / √(7 / 18 * (5 / 6)) := by
  obtain ⟨d, f, h, hs⟩ := exArms_fit .linear trivial std m (β := (![1 / 2, 1 / 6] : Fin 2 → ℝ))
    (by rw [funcInv_real]; simp [icpt]) (by rw [funcInv_real]; simp [icpt, diff]; norm_num)
  have hN : obsCount exArms = 5 := by
    simp [obsCount, freq, exArms]
  obtain ⟨e1, z, hz, e2⟩ := C108_t_test h hs (exactEnv_exact le_rfl 0) rfl (by rw [hN]; norm_num)
  rw [exArms_mean.1, exArms_mean.2] at e1 e2
  rw [exArms_sq.1, exArms_sq.2, exArms_wt.1, exArms_wt.2, hN] at e2
  refine ⟨d, f, h, by rw [e1]; norm_num, ?_, z, hz, ?_⟩
  · rw [C108_between h hs, exArms_mean.1, exArms_mean.2, exArms_wt.1, exArms_wt.2]
    norm_num
  · rw [e2]; norm_num

/-- `C108_odds`, `C108_g_test`, `C108_score_test` and `C108_chi_squared`. -/
theorem C108_example_logistic (std : Bool) (m : ℕ) : ∃ d f,
    ArmFit (exactEnv (1 / 1000) 7) .logisticLogit exArms std d
      (exOpts 0 0 (some (![0, Real.log 2] : Fin 2 → ℝ)) m) f ∧
    diff f.result = Real.log 2 ∧ f.scoreTest (exactEnv (1 / 1000) 7) = .ok (5 / 36) ∧
    ∃ cov, f.covariance (exactEnv 0 0) = .ok cov ∧ cov (1 : Fin 2) (1 : Fin 2) = 7 / 2 := by
  obtain ⟨d, f, h, hs⟩ := exArms_fit .logisticLogit trivial std m (β := (![0, Real.log 2] : Fin 2 → ℝ))
    (by rw [funcInv_real]; simp [icpt]; norm_num)
    (by rw [funcInv_real]; simp [icpt, diff, Real.exp_neg, Real.exp_log]; norm_num)
  obtain ⟨-, -, -, -, e1, ⟨cov, hc, e2⟩, -⟩ := C108_odds h hs (exactEnv_exact le_rfl 0)
  have e3 := C108_chi_squared h (exactEnv_exact (by norm_num) 7)
    (by rw [exArms_sum.1, exArms_sum.2]; norm_num)
    (by rw [exArms_sum.1, exArms_sum.2, exArms_wt.1, exArms_wt.2]; norm_num)
  rw [exArms_sum.1, exArms_sum.2, exArms_wt.1, exArms_wt.2] at e1 e2 e3
  refine ⟨d, f, h, ?_, ?_, cov, hc, ?_⟩
  · rw [e1]; norm_num
  · rw [e3]; norm_num
  · rw [e2]; norm_num

/-- `C108_rates`, `C108_poisson_lr` and, for the Gamma family, `C108_ratio`. -/
theorem C108_example_ratio (std : Bool) (m : ℕ) (fam : Family) (hf : fam = .poisson ∨ fam = .gammaLog) :
    ∃ d f, ArmFit (exactEnv (1 / 1000) 7) fam exArms std d
      (exOpts 0 0 (some (![Real.log (1 / 2), Real.log (4 / 3)] : Fin 2 → ℝ)) m) f ∧
    f.score f.result = 0 ∧ diff f.result = Real.log (4 / 3) := by
  have hexp : ∀ w, (fam.glm (F := ℝ)).link.funcInv w = Real.exp w := by
    intro w; rw [funcInv_real]; rcases hf with rfl | rfl <;> rfl
  obtain ⟨d, f, h, hs⟩ := exArms_fit fam (by rcases hf with rfl | rfl <;> trivial) std m
    (β := (![Real.log (1 / 2), Real.log (4 / 3)] : Fin 2 → ℝ))
    (by rw [hexp, zero_mul, add_zero]; exact Real.exp_log (by norm_num))
    (by
      rw [hexp, one_mul, Real.exp_add]
      refine (congrArg₂ (· * ·) (Real.exp_log ?_) (Real.exp_log ?_)).trans ?_ <;> norm_num)
  refine ⟨d, f, h, hs, ?_⟩
  rcases hf with rfl | rfl
  · rw [(C108_rates h hs (exactEnv_exact le_rfl 0)).2.2.1, exArms_mean.1, exArms_mean.2]; norm_num
  · rw [(C108_ratio (.inr rfl) h hs (exactEnv_exact le_rfl 0)).1, exArms_mean.1, exArms_mean.2]; norm_num

end GLM
