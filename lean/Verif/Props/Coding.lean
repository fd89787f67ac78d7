/-
  C79: a fit does not depend on how the coefficients are coded.
-/
import Verif.Lemmas.Twin

namespace GLM
open Spec Matrix
variable {n p p' : ℕ} {b b' : Bool} {env : Env ℝ} {g : Glm ℝ} {raw : Dataset ℝ n p false}
  {raw' : Dataset ℝ n p' false} {T : Matrix (Fin (ncols b p)) (Fin (ncols b' p')) ℝ}
  {t : Vec ℝ (ncols b p)}

namespace Spec.Recodes
variable (h : Recodes T t raw raw')
include h

theorem totalWt (i : Fin n) : Spec.totalWt raw' i = Spec.totalWt raw i := by
  simp only [Spec.totalWt, freq, varWt, h.freqs, h.weights]

theorem design : Spec.design b' raw'.x = Spec.design b raw.x * T := by
  ext i j
  have h1 := h.pred 0 i
  have h2 := h.pred (Pi.single j 1) i
  rw [mulVec_zero, zero_add] at h1
  rw [add_comm, linPred_add, ← h1] at h2
  simp only [linPred] at h2
  simp only [Pi.single_apply, mul_ite, mul_one, mul_zero, Finset.sum_ite_eq', Finset.mem_univ,
    if_true, Pi.zero_apply, Finset.sum_const_zero, zero_add] at h2
  rw [mul_apply]
  have h3 : ∀ k, (T *ᵥ Pi.single j 1) k = T k j := fun k => by simp
  simp only [h3] at h2
  linarith

theorem logLik (g : Glm ℝ) (β' : Vec ℝ (ncols b' p')) :
    Spec.logLik g raw' b' β' = Spec.logLik g raw b (T *ᵥ β' + t) := by
  simp only [Spec.logLik, logLikAt, h.pred, h.y, h.totalWt]

theorem meanAt (g : Glm ℝ) (β' : Vec ℝ (ncols b' p')) (i : Fin n) :
    Spec.meanAt g raw' b' β' i = Spec.meanAt g raw b (T *ᵥ β' + t) i := by
  simp only [Spec.meanAt, h.pred]

theorem scoreVec (g : Glm ℝ) (β' : Vec ℝ (ncols b' p')) :
    Spec.scoreVec g raw' b' β' = Tᵀ *ᵥ Spec.scoreVec g raw b (T *ᵥ β' + t) := by
  funext j
  simp only [Spec.scoreVec, h.pred, h.y, h.totalWt, h.meanAt, h.design, mul_apply, mulVec,
    dotProduct, transpose_apply, Finset.mul_sum]
  rw [Finset.sum_comm]
  exact Finset.sum_congr rfl fun i _ => Finset.sum_congr rfl fun k _ => by ring

/-- Weighted Gram matrices in the two descriptions. -/
theorem weighted (w : Fin n → ℝ) (j k : Fin (ncols b' p')) :
    ∑ i, w i * Spec.design b' raw'.x i j * Spec.design b' raw'.x i k
      = (Tᵀ * (Matrix.of fun j k => ∑ i, w i * Spec.design b raw.x i j * Spec.design b raw.x i k)
          * T) j k := by
  have e : ∀ (m : ℕ) (D : Matrix (Fin n) (Fin m) ℝ) (j k : Fin m),
      ∑ i, w i * D i j * D i k = (Dᵀ * diagonal w * D) j k := by
    intro m D j k
    rw [mul_apply]
    simp only [mul_diagonal, transpose_apply]
    exact Finset.sum_congr rfl fun i _ => by ring
  have e1 : (Matrix.of fun j k => ∑ i, w i * Spec.design b raw.x i j * Spec.design b raw.x i k)
      = (Spec.design b raw.x)ᵀ * diagonal w * Spec.design b raw.x := by
    ext j k; exact e _ _ j k
  rw [e, h.design, e1, transpose_mul]
  simp only [Matrix.mul_assoc]

theorem fisherMat (g : Glm ℝ) (β' : Vec ℝ (ncols b' p')) :
    Spec.fisherMat g raw' b' β' = Tᵀ * Spec.fisherMat g raw b (T *ᵥ β' + t) * T := by
  ext j k
  have := h.weighted (fun i => Spec.totalWt raw i
    * g.link.dNatParam (linPred raw b (T *ᵥ β' + t) i) ^ 2
    * g.variance (Spec.meanAt g raw b (T *ᵥ β' + t) i)) j k
  refine Eq.trans ?_ this
  simp only [Spec.fisherMat, h.pred, h.totalWt, h.meanAt]

theorem gram : Spec.gram raw' b' = Tᵀ * Spec.gram raw b * T := by
  ext j k
  refine Eq.trans ?_ (h.weighted (Spec.totalWt raw) j k)
  simp only [Spec.gram, h.totalWt]

end Spec.Recodes

section penalty
variable {l1 l2 l1' l2' : ℝ} {σ : Fin p → ℝ} {σ' : Fin p' → ℝ}

theorem penalty_noL1 (h1 : l1 ≤ 0) (β : Vec ℝ (ncols b p)) :
    penalty l1 l2 σ b β = (β ⬝ᵥ (ridgeMat l2 σ b *ᵥ β)) / 2 := by
  rw [quad_ridge, penalty, max_eq_right h1, zero_mul, zero_add, Finset.mul_sum, Finset.sum_div]
  exact Finset.sum_congr rfl fun j _ => by ring

theorem ridge_mulVec_eq_zero {x : Vec ℝ (ncols b p)} (h : x ⬝ᵥ (ridgeMat l2 σ b *ᵥ x) = 0) :
    ridgeMat l2 σ b *ᵥ x = 0 := by
  have key : ∀ y, y ⬝ᵥ (ridgeMat l2 σ b *ᵥ x) = 0 := by
    intro y
    have hq : ∀ c : ℝ, 0 ≤ y ⬝ᵥ (ridgeMat l2 σ b *ᵥ y) + 2 * c * (y ⬝ᵥ (ridgeMat l2 σ b *ᵥ x)) := by
      intro c
      have := ridgeMat_nonneg (l2 := l2) (σ := σ) (y + c • x)
      simp only [mulVec_add, mulVec_smul, dotProduct_add, add_dotProduct, dotProduct_smul,
        smul_dotProduct, smul_eq_mul, h, dot_mulVec_comm ridgeMat_symm x y] at this
      linarith
    by_contra hne
    have := hq (-(y ⬝ᵥ (ridgeMat l2 σ b *ᵥ y) + 1) / (2 * (y ⬝ᵥ (ridgeMat l2 σ b *ᵥ x))))
    have e : 2 * (-(y ⬝ᵥ (ridgeMat l2 σ b *ᵥ y) + 1) / (2 * (y ⬝ᵥ (ridgeMat l2 σ b *ᵥ x))))
        * (y ⬝ᵥ (ridgeMat l2 σ b *ᵥ x)) = -(y ⬝ᵥ (ridgeMat l2 σ b *ᵥ y) + 1) := by
      field_simp
    rw [e] at this
    linarith
  funext j
  have := key (Pi.single j 1)
  simpa [single_dotProduct] using this

/-- Equal penalties, in matrices. -/
theorem samePenalty_mat (h1 : l1 ≤ 0) (h1' : l1' ≤ 0)
    (h : SamePenalty T t l1 l2 l1' l2' σ σ') :
    ridgeMat l2' σ' b' = Tᵀ * ridgeMat l2 σ b * T ∧ ridgeMat l2 σ b *ᵥ t = 0 := by
  simp only [SamePenalty, penalty_noL1 h1, penalty_noL1 h1'] at h
  have h0 : ridgeMat l2 σ b *ᵥ t = 0 := by
    refine ridge_mulVec_eq_zero ?_
    have := h 0
    simp only [mulVec_zero, zero_add, dotProduct_zero] at this
    linarith
  refine ⟨symm_eq_of_quad ridgeMat_symm ?_ fun x => ?_, h0⟩
  · rw [Matrix.IsSymm, transpose_mul, transpose_mul, transpose_transpose, ridgeMat_symm.eq,
      Matrix.mul_assoc]
  · have := h x
    rw [mulVec_add, h0, add_zero, add_dotProduct, dot_mulVec_comm ridgeMat_symm t, h0,
      dotProduct_zero, add_zero] at this
    rw [← mulVec_mulVec, ← mulVec_mulVec, dotProduct_mulVec x Tᵀ, vecMul_transpose]
    linarith

variable (h : Recodes T t raw raw') (hp : SamePenalty T t l1 l2 l1' l2' σ σ')
include h hp

theorem recode_penLogLik (g : Glm ℝ) (β' : Vec ℝ (ncols b' p')) :
    penLogLik g raw' b' l1' l2' σ' β' = penLogLik g raw b l1 l2 σ (T *ᵥ β' + t) := by
  rw [penLogLik, penLogLik, h.logLik, hp]

theorem recode_penScore (h1 : l1 ≤ 0) (h1' : l1' ≤ 0) (g : Glm ℝ) (β' : Vec ℝ (ncols b' p')) :
    penScore g raw' b' l1' l2' σ' β' = Tᵀ *ᵥ penScore g raw b l1 l2 σ (T *ᵥ β' + t) := by
  obtain ⟨e1, e2⟩ := samePenalty_mat h1 h1' hp
  rw [penScore_eq h1, penScore_eq h1', h.scoreVec, e1, mulVec_sub, mulVec_add (ridgeMat l2 σ b), e2,
    add_zero]
  simp only [mulVec_mulVec, Matrix.mul_assoc]

theorem recode_newtonMat (h1 : l1 ≤ 0) (h1' : l1' ≤ 0) (eps : ℝ) (g : Glm ℝ)
    (β' : Vec ℝ (ncols b' p')) :
    newtonMat eps g raw' b' l2' σ' β' = Tᵀ * newtonMat eps g raw b l2 σ (T *ᵥ β' + t) * T := by
  obtain ⟨e1, -⟩ := samePenalty_mat h1 h1' hp
  rw [newtonMat, newtonMat, h.fisherMat, h.gram, e1]
  simp only [Matrix.mul_add, Matrix.add_mul, Matrix.mul_smul, Matrix.smul_mul]

end penalty

/-! ### The iteration -/

section run
variable {std std' : Bool} {d : Dataset ℝ n p b} {d' : Dataset ℝ n p' b'}
  {o : FitOptions ℝ (ncols b p)} {o' : FitOptions ℝ (ncols b' p')}

theorem twinStep_one (T : Matrix (Fin (ncols b p)) (Fin (ncols b' p')) ℝ) (t : Vec ℝ (ncols b p)) :
    twinStep T t 1 0 = recodeStep T t := by
  funext st
  simp only [twinStep, recodeStep, one_mul, add_zero]

/-- Two descriptions of the same model are corresponding problems. -/
theorem recode_twin (eps : ℝ) (g : Glm ℝ) {l1 l2 l1' l2' : ℝ} {σ : Fin p → ℝ} {σ' : Fin p' → ℝ}
    (h : Recodes T t raw raw') (hp : SamePenalty T t l1 l2 l1' l2' σ σ') (h1 : l1 ≤ 0)
    (h1' : l1' ≤ 0) : Twin eps T t 1 0 g g raw raw' l1 l2 l1' l2' σ σ' where
  invertible := h.invertible
  pos := one_pos
  obj β' := by rw [recode_penLogLik h hp, one_mul, add_zero]
  score β' := by rw [recode_penScore h hp h1 h1', one_smul]
  newton β' := by rw [recode_newtonMat h hp h1 h1', one_smul]

/-- **C79**: described by other coefficients, the same model is fitted the same way.  If corresponding
coefficients give the same linear predictors and the same penalty, the search starts at corresponding
points and the tolerance is zero, then the two fits visit corresponding points, take the same number of
steps, and end the same way: with corresponding results, or with the same error.  This covers
standardized and unstandardized data, other units and origins of the features, any other basis for the
features, an intercept or indicators of all groups. -/
theorem C79_run (he : env.Exact) (hdec : env.Decides) (hg : LawfulAdj g) (h : Recodes T t raw raw')
    (hp : SamePenalty T t o.l1 o.l2 o'.l1 o'.l2 (scale d) (scale d'))
    (hd : raw.finalize std b = some d) (hd' : raw'.finalize std' b' = some d')
    (h1 : o.l1 ≤ 0) (h1' : o'.l1 ≤ 0) (ht : o.tol = 0) (ht' : o'.tol = 0)
    (hm : o.maxIter = o'.maxIter)
    (hstart : d.inverseTransformBeta (initialGuess env g d o)
      = T *ᵥ d'.inverseTransformBeta (initialGuess env g d' o') + t) :
    Related (SameErrorCoded T t d d') (SameCourse T t) (regression env g d o)
      (regression env g d' o') := by
  have hr := twin_run he hdec hg hg (recode_twin env.eps g h hp h1 h1') hd hd' h1 h1'
    (.inl ⟨ht, ht'⟩) hm hstart
  generalize regression env g d o = x at hr
  generalize regression env g d' o' = y at hr
  cases hr with
  | panic => exact .panic
  | diverge => exact .diverge
  | err e =>
    cases e with
    | linalg => exact .err .linalg
    | maxIter m hh => exact .err (.maxIter m (by rw [hh, twinStep_one]))
  | ok h => exact .ok ⟨h.result, by rw [h.history, twinStep_one], h.nIter⟩

/-- **C79**: starts given by the user correspond if the coefficients do. -/
theorem C79_start_given (hd : raw.finalize std b = some d) (hd' : raw'.finalize std' b' = some d')
    {β : Vec ℝ (ncols b p)} {β' : Vec ℝ (ncols b' p')} (hi : o.initGuess = some β)
    (hi' : o'.initGuess = some β') (hβ : β = T *ᵥ β' + t) :
    d.inverseTransformBeta (initialGuess env g d o)
      = T *ᵥ d'.inverseTransformBeta (initialGuess env g d' o') + t := by
  simp only [initialGuess, hi, hi', (Dataset.finalize_wf hd).inverseTransformBeta_transformBeta,
    (Dataset.finalize_wf hd').inverseTransformBeta_transformBeta, hβ]

/-- **C79**: default starts correspond. -/
theorem C79_start_default (he : env.Exact) (h : Recodes T t raw raw')
    (hd : raw.finalize std b = some d) (hd' : raw'.finalize std' b' = some d')
    (hw : ∀ i, 0 ≤ totalWt raw i) (hu : IsUnit (gram raw b).det) (hi : o.initGuess = none)
    (hi' : o'.initGuess = none) :
    d.inverseTransformBeta (initialGuess env g d o)
      = T *ᵥ d'.inverseTransformBeta (initialGuess env g d' o') + t := by
  obtain ⟨U, hU1, hU2⟩ := h.invertible
  have hu' : IsUnit (gram raw' b').det := by rw [h.gram, congr_det hU1 hU2]; exact hu
  have a := C72_default_start (g := g) he hd hw hu hi
  have a' := C72_default_start (g := g) he hd' (fun i => h.totalWt i ▸ hw i) hu' hi'
  have hw1 : ∀ i, 0 ≤ totalWt (startTargets g raw) i := hw
  refine leastSquares_unique (raw := startTargets g raw) hw1 hu a fun β => ?_
  have key : ∀ β', sse (startTargets g raw') b' β' = sse (startTargets g raw) b (T *ᵥ β' + t) := by
    intro β'
    refine Finset.sum_congr rfl fun i _ => ?_
    have e1 : totalWt (startTargets g raw') i = totalWt (startTargets g raw) i := h.totalWt i
    have e2 : (startTargets g raw').y i = (startTargets g raw).y i := by
      simp only [startTargets, h.y]
    have e3 : linPred (startTargets g raw') b' β' i
        = linPred (startTargets g raw) b (T *ᵥ β' + t) i := h.pred β' i
    rw [e1, e2, e3]
  have := a' (U *ᵥ (β - t))
  rw [key, key, mulVec_mulVec, hU1, one_mulVec, sub_add_cancel] at this
  exact this

/-! ### Statistics -/

theorem hat_singular {env' : Env ℝ} (hdec : env'.Decides) (hd : raw.finalize std b = some d)
    {f : Fit ℝ n p b} (hf : regression env g d o = .ok f)
    (hu : ¬ IsUnit (Matrix.of (f.fisher f.result)).det) : f.hat env' = .error .failed := by
  obtain ⟨rfl, rfl, rfl, hr⟩ := regression_ofRaw hd hf
  have hT := (Dataset.finalize_wf hd).det_tmat
  have hFe : Matrix.of (f.fisher f.result)
      = f.data.tmatᵀ * Matrix.of (f.fisherStd f.resultStd) * f.data.tmat := by
    rw [hr.resultStd, ← Dataset.inverseTransformFisher_eq]; rfl
  have hu' : ¬ IsUnit (Matrix.of (f.fisherStd f.resultStd)).det := by
    intro hc
    refine hu ?_
    rw [hFe, det_mul, det_mul, det_transpose, isUnit_iff_ne_zero]
    exact mul_ne_zero (mul_ne_zero hT hc.ne_zero) hT
  unfold Fit.hat Fit.fisherStdInv
  rw [hdec.inv hu']
  rfl

theorem covariance_singular {env' : Env ℝ} (hdec : env'.Decides) {f : Fit ℝ n p b}
    (hu : ¬ IsUnit (Matrix.of (f.fisher f.result)).det) : f.covariance env' = .error .failed := by
  unfold Fit.covariance Fit.fisherInv
  rw [hdec.inv hu]
  rfl

theorem covariance_regular {env' : Env ℝ} (he : env'.Exact) {f : Fit ℝ n p b}
    (hu : IsUnit (Matrix.of (f.fisher f.result)).det) : ∃ V, f.covariance env' = .ok V := by
  unfold Fit.covariance Fit.fisherInv
  rw [he.inv_eq hu]
  exact ⟨_, rfl⟩

theorem scoreTest_regular {env' : Env ℝ} (he : env'.Exact) {f : Fit ℝ n p b}
    {β : Vec ℝ (ncols b p)} (hu : IsUnit (Matrix.of (f.fisher β)).det) :
    f.scoreTestAgainst env' β
      = .ok (f.score β ⬝ᵥ ((Matrix.of (f.fisher β))⁻¹ *ᵥ f.score β)) := by
  unfold Fit.scoreTestAgainst
  dsimp only
  rw [he.inv_eq hu]
  refine congrArg Except.ok ?_
  rw [vdot_real, dotV_real, Equiv.apply_symm_apply]

theorem scoreTest_singular {env' : Env ℝ} (hdec : env'.Decides) {f : Fit ℝ n p b}
    {β : Vec ℝ (ncols b p)} (hu : ¬ IsUnit (Matrix.of (f.fisher β)).det) :
    f.scoreTestAgainst env' β = .error .failed := by
  unfold Fit.scoreTestAgainst
  dsimp only
  rw [hdec.inv hu]
  rfl

/-- **C79**: two fits of the same model in different descriptions, with corresponding results, report
the same statistics, whatever led to the results: likelihood, deviance, dispersion, information
criteria, residuals, hat matrix, leverages, influence and test statistics are the same, and score,
Fisher information and covariance are converted. -/
theorem C79_statistics {env' : Env ℝ} (he : env'.Exact) (hdec : env'.Decides) (hg : LawfulAdj g)
    (h : Recodes T t raw raw')
    (hp : SamePenalty T t o.l1 o.l2 o'.l1 o'.l2 (scale d) (scale d'))
    (hd : raw.finalize std b = some d) (hd' : raw'.finalize std' b' = some d')
    (h1 : o.l1 ≤ 0) (h1' : o'.l1 ≤ 0) {f : Fit ℝ n p b} {f' : Fit ℝ n p' b'}
    (hf : regression env g d o = .ok f) (hf' : regression env g d' o' = .ok f')
    (hres : f.result = T *ᵥ f'.result + t) : SameUpToCoding T t env' f f' := by
  obtain ⟨U, hU1, hU2⟩ := h.invertible
  obtain ⟨a1, a2, a3, a4, a5, a6⟩ := C10_external hg hd h1 hf
  obtain ⟨b1, b2, b3, b4, b5, b6⟩ := C10_external hg hd' h1' hf'
  have hl : ∀ β', penLogLik g raw' b' o'.l1 o'.l2 (scale d') β'
      = penLogLik g raw b o.l1 o.l2 (scale d) (T *ᵥ β' + t) := fun β' => recode_penLogLik h hp g β'
  have hscore : ∀ β', f'.score β' = Tᵀ *ᵥ f.score (T *ᵥ β' + t) := fun β' => by
    rw [b2, a2, recode_penScore h hp h1 h1']
  have hfisher : ∀ β', Matrix.of (f'.fisher β') = Tᵀ * Matrix.of (f.fisher (T *ᵥ β' + t)) * T := by
    intro β'
    rw [b3, a3, h.fisherMat, (samePenalty_mat h1 h1' hp).1, Matrix.mul_add, Matrix.add_mul]
  have hlike : f.modelLike = f'.modelLike := by rw [a1, b1, hl, hres]
  have hcard : ncols b p = ncols b' p' := by
    have := Matrix.square_of_invertible T U hU1 hU2
    simpa only [Fintype.card_fin] using this
  have hlin : ∀ i, linPred raw' b' f'.result i = linPred raw b f.result i := fun i => by
    rw [h.pred, hres]
  have hFr : Matrix.of (f'.fisher f'.result) = Tᵀ * Matrix.of (f.fisher f.result) * T := by
    rw [hfisher, hres]
  have hdet : IsUnit (Matrix.of (f'.fisher f'.result)).det
      ↔ IsUnit (Matrix.of (f.fisher f.result)).det := by rw [hFr, congr_det hU1 hU2]
  have hmean : ∀ i, meanAt g raw' b' f'.result i = meanAt g raw b f.result i := fun i => by
    rw [h.meanAt, hres]
  -- hat matrix and covariance, before the fits are taken apart
  have hhat : f.hat env' = f'.hat env' := by
    by_cases hu : IsUnit (Matrix.of (f.fisher f.result)).det
    · obtain ⟨H, hH, -⟩ := C40_available hd hf he hu
      obtain ⟨H', hH', -⟩ := C40_available hd' hf' he (hdet.mpr hu)
      rw [hH, hH']
      have e1 := (hat_eq hg hd hf he hH).2
      have e2 := (hat_eq hg hd' hf' he hH').2
      have e3 : Matrix.of H' = Matrix.of H := by
        rw [e1, e2, hFr, congr_inv hU1 hU2 hu, h.design, transpose_mul]
        simp only [hlin, hmean, h.totalWt]
        have e4 : ∀ (A : Matrix (Fin n) (Fin n) ℝ) (D : Matrix (Fin n) (Fin (ncols b p)) ℝ)
            (F : Matrix (Fin (ncols b p)) (Fin (ncols b p)) ℝ),
            A * (D * T) * (U * F * Uᵀ) * (Tᵀ * Dᵀ) = A * D * F * Dᵀ := by
          intro A D F
          calc A * (D * T) * (U * F * Uᵀ) * (Tᵀ * Dᵀ)
              = A * D * (T * U) * F * (Uᵀ * Tᵀ) * Dᵀ := by simp only [Matrix.mul_assoc]
            _ = A * D * F * Dᵀ := by
              rw [hU1, ← transpose_mul, hU1, transpose_one, Matrix.mul_one, Matrix.mul_one]
        rw [e4]
      exact congrArg Except.ok (Matrix.of.injective e3.symm)
    · rw [hat_singular hdec hd hf hu, hat_singular hdec hd' hf' fun hc => hu (hdet.mp hc)]
  have hlev : f.leverage env' = f'.leverage env' := by unfold Fit.leverage; rw [hhat]
  have hst : ∀ β', f.scoreTestAgainst env' (T *ᵥ β' + t) = f'.scoreTestAgainst env' β' := by
    intro β'
    have hF := hfisher β'
    by_cases hu : IsUnit (Matrix.of (f.fisher (T *ᵥ β' + t))).det
    · have hu' : IsUnit (Matrix.of (f'.fisher β')).det := by rw [hF, congr_det hU1 hU2]; exact hu
      rw [scoreTest_regular he hu, scoreTest_regular he hu', hF, congr_inv hU1 hU2 hu, hscore]
      refine congrArg Except.ok ?_
      rw [mulVec_mulVec, Matrix.mul_assoc, ← transpose_mul, hU1, transpose_one, Matrix.mul_one,
        ← mulVec_mulVec, ← vecMul_transpose Tᵀ, transpose_transpose, ← dotProduct_mulVec, mulVec_mulVec,
        hU1, one_mulVec]
    · have hu' : ¬ IsUnit (Matrix.of (f'.fisher β')).det := by rw [hF, congr_det hU1 hU2]; exact hu
      rw [scoreTest_singular hdec hu, scoreTest_singular hdec hu']
  have hwald : ∀ β', f.waldTestAgainst (T *ᵥ β' + t) = f'.waldTestAgainst β' := by
    intro β'
    rw [a5, b5, ← a3, ← b3, hfisher, hres]
    have e : T *ᵥ f'.result + t - (T *ᵥ β' + t) = T *ᵥ (f'.result - β') := by
      rw [mulVec_sub]; abel
    rw [e, ← mulVec_mulVec, ← mulVec_mulVec, dotProduct_mulVec _ Tᵀ, vecMul_transpose]
  obtain ⟨c1, c2, c3, hc⟩ := regression_ofRaw hd hf
  obtain ⟨k1, k2, k3, hk⟩ := regression_ofRaw hd' hf'
  have hgg : f'.g = f.g := k1.trans c1.symm
  have hyy : f'.data.y = f.data.y := by
    rw [k2, c2, Dataset.finalize_y hd, Dataset.finalize_y hd', h.y]
  have hww : f'.data.weights = f.data.weights := by
    rw [k2, c2, (Dataset.finalize_cases hd).2.2.1, (Dataset.finalize_cases hd').2.2.1, h.weights]
  have hff : f'.data.freqs = f.data.freqs := by
    rw [k2, c2, (Dataset.finalize_cases hd).2.2.2.1, (Dataset.finalize_cases hd').2.2.2.1, h.freqs]
  have hvw : f'.data.applyVarWeights = f.data.applyVarWeights := by
    funext v; unfold Dataset.applyVarWeights; rw [hww]
  have hfw : f'.data.applyFreqWeights = f.data.applyFreqWeights := by
    funext v; unfold Dataset.applyFreqWeights; rw [hff]
  have hfs : f'.data.freqSum = f.data.freqSum := by
    funext v; unfold Dataset.freqSum; rw [hfw]
  have hno : f'.data.nObs = f.data.nObs := by unfold Dataset.nObs; rw [hff]
  have hne : f'.data.nEff = f.data.nEff := by unfold Dataset.nEff; rw [hww, hno, hfs]
  have hsw : f'.data.sumWeights = f.data.sumWeights := by
    unfold Dataset.sumWeights; rw [hww, hno, hfs]
  have hgw : f'.data.getVarianceWeights = f.data.getVarianceWeights := by
    unfold Dataset.getVarianceWeights; rw [hww]
  have hrk : f'.rank = f.rank := by unfold Fit.rank; rw [hcard]
  have hlp : f'.xLinPred = f.xLinPred := funext fun i => by rw [hk.lin, hc.lin, hlin]
  have hyh : f'.yHat = f.yHat := funext fun i => by rw [hk.mean, hc.mean, k1, c1, hmean]
  have hrr : f'.residResp = f.residResp := by unfold Fit.residResp; rw [hyy, hyh]
  have hrp : f'.residPear = f.residPear := by
    unfold Fit.residPear; rw [hrr, hyh, hvw, hgg]
  have hdt : f'.devianceTerms = f.devianceTerms := funext fun i => by
    rw [hk.devianceTerms, hc.devianceTerms, h.y, hgg]
    simp only [varWt, h.weights, logLikAt, h.y, hlin]
  have hdv : f'.deviance = f.deviance := by unfold Fit.deviance; rw [hdt, hfs]
  have hdisp : f'.dispersion = f.dispersion := by
    unfold Fit.dispersion; rw [hgg, hdv, hrk, hne, hsw]
  have hrd : f'.residDev = f.residDev := by unfold Fit.residDev; rw [hrr, hdt]
  have hslw : f'.sumLogWeights = f.sumLogWeights := by unfold Fit.sumLogWeights; rw [hfs, hgw]
  have hndf : f'.ndf = f.ndf := by unfold Fit.ndf; rw [hno, hrk]
  have hdtl : f'.devianceTermsLoo env' = f.devianceTermsLoo env' := by
    unfold Fit.devianceTermsLoo; rw [hlev, hrp, hdt]
  have hdl : f'.dispersionLoo env' = f.dispersionLoo env' := by
    unfold Fit.dispersionLoo; rw [hgg, hlev, hrp, hdt, hdv, hww, hff, hfw, hfs, hndf, hrk]
  refine
    { modelLike := hlike
      yHat := hyh.symm
      deviance := hdv.symm
      dispersion := hdisp.symm
      aic := by unfold Fit.aic; rw [hdv, hrk, hslw]
      bic := by unfold Fit.bic; rw [hno, hrk, hslw, hlike]
      rss := by unfold Fit.rss Dataset.applyTotalWeights; rw [hfw, hvw, hrr]
      ndf := hndf.symm
      score := hscore
      fisher := hfisher
      covariance := ?_
      lrAgainst := fun β' => by rw [a4, b4, hl, hl, hres]
      waldAgainst := hwald
      scoreAgainst := hst
      hat := hhat
      leverage := hlev
      cooks := by unfold Fit.cooks; rw [hlev, hrp, hrk, hdisp]
      residResp := hrr.symm
      residPear := hrp.symm
      residDev := hrd.symm
      residWork := by unfold Fit.residWork; rw [hgg, hrr, hyh, hlp]
      residPearStd := by unfold Fit.residPearStd; rw [hlev, hrp, hdisp]
      residDevStd := by unfold Fit.residDevStd; rw [hlev, hrd, hdisp]
      residStudent := by unfold Fit.residStudent; rw [hdtl, hdl, hgg, hrr] }
  by_cases hu : IsUnit (Matrix.of (f.fisher f.result)).det
  · obtain ⟨V, hV⟩ := covariance_regular he hu
    obtain ⟨V', hV'⟩ := covariance_regular he (hdet.mpr hu)
    rw [hV, hV']
    refine congrArg Except.ok ?_
    change Matrix.of V = T * Matrix.of V' * Tᵀ
    rw [(covariance_eq hg hd hf he hV).2, (covariance_eq hg hd' hf' he hV').2, hFr,
      congr_inv hU1 hU2 hu, h.fisherMat, ← hres, hdisp, Matrix.mul_smul, Matrix.smul_mul]
    congr 1
    set F := (Matrix.of (f.fisher f.result))⁻¹
    set I := Spec.fisherMat g raw b f.result
    have e1 : Uᵀ * Tᵀ = 1 := by rw [← transpose_mul, hU1, transpose_one]
    calc F * I * F = (T * U) * F * (Uᵀ * Tᵀ) * I * (T * U) * F * (Uᵀ * Tᵀ) := by
          rw [e1, hU1, Matrix.one_mul, Matrix.mul_one, Matrix.mul_one, Matrix.mul_one]
      _ = _ := by simp only [Matrix.mul_assoc]
  · rw [covariance_singular hdec hu, covariance_singular hdec fun hc => hu (hdet.mp hc)]
    rfl

end run

/-! ### Instances -/

/-- Without penalties the condition on them is void. -/
theorem samePenalty_none {l1 l2 l1' l2' : ℝ} {σ : Fin p → ℝ} {σ' : Fin p' → ℝ} (h1 : l1 ≤ 0)
    (h2 : l2 ≤ 0) (h1' : l1' ≤ 0) (h2' : l2' ≤ 0) : SamePenalty T t l1 l2 l1' l2' σ σ' := by
  intro β'
  simp [penalty, max_eq_right h1, max_eq_right h2, max_eq_right h1', max_eq_right h2']

/-- **C79** (instance): data described by themselves, so that only the standardization differs. -/
theorem C79_itself (raw : Dataset ℝ n p false) (b : Bool) :
    Recodes (1 : Matrix (Fin (ncols b p)) (Fin (ncols b p)) ℝ) 0 raw raw :=
  ⟨rfl, rfl, rfl, ⟨1, Matrix.one_mul _, Matrix.one_mul _⟩, fun β' i => by rw [one_mulVec, add_zero]⟩

/-- **C79** (instance): an offset changed by a combination of the columns moves the coefficients. -/
theorem C79_offset (raw : Dataset ℝ n p false) (b : Bool) (γ : Vec ℝ (ncols b p)) :
    Recodes (1 : Matrix (Fin (ncols b p)) (Fin (ncols b p)) ℝ) γ raw
      { raw with linearOffset := some fun i => offset raw i + ∑ j, design b raw.x i j * γ j } := by
  refine ⟨rfl, rfl, rfl, ⟨1, Matrix.one_mul _, Matrix.one_mul _⟩, fun β' i => ?_⟩
  rw [one_mulVec, linPred_add]
  simp only [linPred]
  change _ + (offset raw i + _) = _
  ring

/-- **C79** (instance): features replaced by invertible combinations of them, without intercept. -/
theorem C79_mixed_features (raw : Dataset ℝ n p false) (A B : Matrix (Fin p) (Fin p) ℝ)
    (h1 : A * B = 1) (h2 : B * A = 1) :
    Recodes (b := false) (b' := false) A 0 raw { raw with x := fun i j => ∑ k, raw.x i k * A k j } := by
  refine ⟨rfl, rfl, rfl, ⟨B, h1, h2⟩, fun β' i => ?_⟩
  rw [add_zero]
  have e : ∑ j, (∑ k, raw.x i k * A k j) * β' j = ∑ k, raw.x i k * (A *ᵥ β') k := by
    simp only [mulVec, dotProduct, Finset.sum_mul, Finset.mul_sum]
    rw [Finset.sum_comm]
    exact Finset.sum_congr rfl fun j _ => Finset.sum_congr rfl fun k _ => by ring
  exact congrArg (· + offset raw i) e

/-- Coefficients of an intercept and differences to the first group, from one coefficient for every
group. -/
def contrasts (p : ℕ) : Matrix (Fin (ncols true p)) (Fin (ncols false (p + 1))) ℝ :=
  Matrix.of fun (j : Fin (p + 1)) (k : Fin (p + 1)) =>
    (if j = k then 1 else 0) - if j ≠ 0 ∧ k = 0 then 1 else 0

/-- The other way round. -/
def groupMeans (p : ℕ) : Matrix (Fin (ncols false (p + 1))) (Fin (ncols true p)) ℝ :=
  Matrix.of fun (j : Fin (p + 1)) (k : Fin (p + 1)) =>
    (if j = k then 1 else 0) + if j ≠ 0 ∧ k = 0 then 1 else 0

theorem contrasts_mulVec (v : Fin (p + 1) → ℝ) :
    (contrasts p *ᵥ v : Fin (p + 1) → ℝ) = fun j => v j - if j ≠ 0 then v 0 else 0 := by
  funext j
  change ∑ k, ((if j = k then 1 else 0) - if j ≠ 0 ∧ k = 0 then 1 else 0) * v k = _
  simp only [sub_mul, Finset.sum_sub_distrib, ite_mul, one_mul, zero_mul, Finset.sum_ite_eq,
    Finset.mem_univ, if_true]
  by_cases hj : j = 0 <;> simp [hj]

theorem groupMeans_mulVec (v : Fin (p + 1) → ℝ) :
    (groupMeans p *ᵥ v : Fin (p + 1) → ℝ) = fun j => v j + if j ≠ 0 then v 0 else 0 := by
  funext j
  change ∑ k, ((if j = k then 1 else 0) + if j ≠ 0 ∧ k = 0 then 1 else 0) * v k = _
  simp only [add_mul, Finset.sum_add_distrib, ite_mul, one_mul, zero_mul, Finset.sum_ite_eq,
    Finset.mem_univ, if_true]
  by_cases hj : j = 0 <;> simp [hj]

theorem eq_one_of_mulVec {k : ℕ} {A : Matrix (Fin k) (Fin k) ℝ} (h : ∀ v, A *ᵥ v = v) : A = 1 :=
  Matrix.ext_of_mulVec_single fun i => by rw [h, one_mulVec]

/-- **C79** (instance): the observations fall into groups; one description has an intercept and
indicators of all groups but the first, the other has no intercept and indicators of all groups. -/
theorem C79_groups (raw : Dataset ℝ n p false) (grp : Fin n → Fin (p + 1))
    (hx : raw.x = fun i j => if grp i = j.succ then 1 else 0) :
    Recodes (b := true) (b' := false) (p' := p + 1) (contrasts p) 0 raw
      { y := raw.y, x := fun i k => if grp i = k then 1 else 0, linearOffset := raw.linearOffset,
        weights := raw.weights, freqs := raw.freqs, standardizer := none } := by
  refine ⟨rfl, rfl, rfl, ⟨groupMeans p, ?_, ?_⟩, fun β' i => ?_⟩
  · refine eq_one_of_mulVec (k := p + 1) fun v => ?_
    refine (mulVec_mulVec v (contrasts p) (groupMeans p)).symm.trans ?_
    refine (congrArg (contrasts p *ᵥ ·) (groupMeans_mulVec v)).trans ((contrasts_mulVec _).trans ?_)
    funext j
    by_cases hj : j = 0 <;> simp [hj]
  · refine eq_one_of_mulVec (k := p + 1) fun v => ?_
    refine (mulVec_mulVec v (groupMeans p) (contrasts p)).symm.trans ?_
    refine (congrArg (groupMeans p *ᵥ ·) (contrasts_mulVec v)).trans ((groupMeans_mulVec _).trans ?_)
    funext j
    by_cases hj : j = 0 <;> simp [hj]
  · rw [add_zero]
    have e : ∑ k : Fin (p + 1), (if grp i = k then (1 : ℝ) else 0) * β' k
        = ∑ j : Fin (p + 1), design true raw.x i j * (contrasts p *ᵥ β') j := by
      have e1 := contrasts_mulVec (p := p) β'
      rw [hx, Fin.sum_univ_succ (n := p) (f := fun j => design true _ i j * (contrasts p *ᵥ β') j)]
      have e2 : ∀ j : Fin (p + 1), (contrasts p *ᵥ β') j = β' j - if j ≠ 0 then β' 0 else 0 :=
        fun j => congrFun e1 j
      simp only [e2]
      simp only [design, Fin.cons_zero, Fin.cons_succ, ne_eq, not_true_eq_false, if_false, sub_zero,
        one_mul, Fin.succ_ne_zero, not_false_eq_true, if_true, ite_mul, zero_mul,
        Finset.sum_ite_eq, Finset.mem_univ]
      rcases Fin.eq_zero_or_eq_succ (grp i) with h0 | ⟨j, hj⟩
      · rw [h0]
        simp [(Fin.succ_ne_zero _).symm]
      · rw [hj]
        simp
    exact congrArg (· + offset raw i) e

/-! ### Non-vacuity -/

/-- Logistic regression of five yes/no answers from two groups, in the two descriptions. -/
noncomputable def exGroups : Dataset ℝ 5 1 false where
  y := ![0, 1, 0, 1, 1]
  x := fun i j => if (![0, 0, 1, 1, 1] : Fin 5 → Fin 2) i = j.succ then 1 else 0
  linearOffset := none
  weights := none
  freqs := none
  standardizer := none

noncomputable def exGroups' : Dataset ℝ 5 2 false :=
  { y := exGroups.y, x := fun i k => if (![0, 0, 1, 1, 1] : Fin 5 → Fin 2) i = k then 1 else 0,
    linearOffset := exGroups.linearOffset, weights := exGroups.weights, freqs := exGroups.freqs,
    standardizer := none }

theorem exGroups_recodes :
    Recodes (b := true) (b' := false) (contrasts 1) 0 exGroups exGroups' :=
  C79_groups exGroups _ rfl

/-- Options without tolerance. -/
noncomputable def exOptsZero {k : ℕ} (init : Option (Vec ℝ k)) : FitOptions ℝ k :=
  { maxIter := 20, tol := 0, l2 := 0, l1 := 0, initGuess := init }

/-- Hypotheses of `C79_run` and `C79_start_given`: logistic regression with an intercept and one
indicator, and without intercept and two indicators. -/
example : ∃ d d', exGroups.finalize false true = some d ∧ exGroups'.finalize false false = some d' ∧
    Related (SameErrorCoded (contrasts 1) 0 d d') (SameCourse (contrasts 1) 0)
      (regression (exactEnv (1 / 10) 50) Family.logisticLogit.glm d (exOptsZero (some fun _ => 0)))
      (regression (exactEnv (1 / 10) 50) Family.logisticLogit.glm d' (exOptsZero (some fun _ => 0))) := by
  refine ⟨_, _, rfl, rfl, ?_⟩
  refine C79_run (raw := exGroups) (raw' := exGroups') (std := false) (std' := false)
    (exactEnv_exact (by norm_num) _) (exactEnv_decides _ _) (Family.lawfulAdj .logisticLogit)
    exGroups_recodes (samePenalty_none le_rfl le_rfl le_rfl le_rfl) rfl rfl le_rfl le_rfl rfl rfl rfl ?_
  refine C79_start_given (raw := exGroups) (raw' := exGroups') (std := false) (std' := false) rfl rfl
    (β := fun _ => 0) (β' := fun _ => 0) rfl rfl ?_
  rw [add_zero]
  exact (mulVec_zero (contrasts 1)).symm

/-- Hypotheses of `C79_start_default`, with and without standardization. -/
example (env : Env ℝ) (he : env.Exact) : ∃ d d', (exRaw ![0, 1, 1]).finalize true true = some d ∧
    (exRaw ![0, 1, 1]).finalize false true = some d' ∧
    d.inverseTransformBeta (initialGuess env Family.poisson.glm d (exOptsZero none))
      = d'.inverseTransformBeta (initialGuess env Family.poisson.glm d' (exOptsZero none)) := by
  obtain ⟨d, hd⟩ := exRaw_finalize ![0, 1, 1] true true
  obtain ⟨d', hd'⟩ := exRaw_finalize ![0, 1, 1] false true
  refine ⟨d, d', hd, hd', ?_⟩
  have := C79_start_default (g := Family.poisson.glm) (o := exOptsZero none) (o' := exOptsZero none) he
    (C79_itself (exRaw ![0, 1, 1]) true) hd hd' (fun i => (exRaw_totalWt_pos _ i).le)
    (exRaw_gram_det _) rfl rfl
  rwa [one_mulVec, add_zero] at this

/-- Hypotheses of `C79_statistics`: a successful fit of standardized data, with a positive tolerance,
and one of the data as they are. -/
example : ∃ f f' : Fit ℝ 3 1 true, f.result = ![-1 / 2, 2] ∧
    SameUpToCoding (1 : Matrix (Fin (ncols true 1)) (Fin (ncols true 1)) ℝ) 0 (exactEnv 0 0) f f' := by
  obtain ⟨d, f, hd, hf, hr⟩ := exLinFit true
  obtain ⟨d', f', hd', hf', hr'⟩ := exLinFit false
  refine ⟨f, f', hr, C79_statistics (exactEnv_exact le_rfl 0) (exactEnv_decides 0 0)
    (Family.lawfulAdj .linear) (C79_itself _ true) (samePenalty_none le_rfl le_rfl le_rfl le_rfl)
    hd hd' le_rfl le_rfl hf hf' ?_⟩
  rw [one_mulVec, add_zero, hr, hr']

/-- A ridge penalty is the same in two descriptions without standardization that differ by a
rotation of the features. -/
example : SamePenalty (p := 2) (p' := 2) (b := false) (b' := false)
    (!![3 / 5, -4 / 5; 4 / 5, 3 / 5] : Matrix (Fin 2) (Fin 2) ℝ) 0 0 7 0 7 (fun _ => 1) fun _ => 1 := by
  intro β'
  rw [add_zero]
  have e : ∀ β : Vec ℝ 2, penalty 0 7 (fun _ => 1) false β = 7 / 2 * (β 0 ^ 2 + β 1 ^ 2) := by
    intro β
    simp [penalty, slopes, Fin.sum_univ_two]
  refine (e β').trans (Eq.symm ((e _).trans ?_))
  simp [mulVec, dotProduct, Fin.sum_univ_two]
  ring

end GLM
