/-
  C82: fits follow a change of the units, the origin or the labels of the responses.
-/
import Verif.Spec.ResponseUnits
import Verif.Props.Coding
import Verif.Props.Sampling
import Verif.Props.Tests

namespace GLM
open Spec Matrix
variable {n p : ℕ} {b : Bool} {env : Env ℝ} {fam : Family} {φ : ℝ → ℝ} {τ s r m : ℝ}

/-- What a change of the responses does to one observation. -/
structure RowLaw (fam : Family) (φ : ℝ → ℝ) (τ s r m : ℝ) : Prop where
  τ0 : τ ≠ 0
  r0 : r ≠ 0
  mpos : 0 < m
  aff : ∃ q, ∀ y, φ y = r * y + q
  like : ∃ k1 k0 : ℝ, (∀ y ω, fam.glm.logLikeNatural (φ y) (fam.glm.link.natParam (τ * ω + s))
      = m * fam.glm.logLikeNatural y (fam.glm.link.natParam ω) + (k1 * y + k0)) ∧
    ∀ y ∈ yDom fam, fam.glm.logLikeSat (φ y) = m * fam.glm.logLikeSat y + (k1 * y + k0)
  mean : ∀ ω, fam.glm.link.funcInv (τ * ω + s) = φ (fam.glm.link.funcInv ω)
  slope : ∀ ω, fam.glm.link.dNatParam (τ * ω + s) = m / (τ * r) * fam.glm.link.dNatParam ω
  var : ∀ μ : ℝ, fam.glm.variance (φ μ) = r ^ 2 / m * fam.glm.variance μ
  func : ∀ μ ∈ meanDom fam, fam.glm.link.func (φ μ) = τ * fam.glm.link.func μ + s

theorem log_one_add_exp_neg (ω : ℝ) :
    Real.log (1 + Real.exp (-ω)) = Real.log (1 + Real.exp ω) - ω := by
  have h1 : 1 + Real.exp (-ω) = (1 + Real.exp ω) * Real.exp (-ω) := by
    rw [add_mul, ← Real.exp_add]; simp [add_comm]
  rw [h1, Real.log_mul (by positivity) (Real.exp_pos _).ne', Real.log_exp]
  ring

theorem logistic_neg (ω : ℝ) : 1 / (1 + Real.exp (-(-ω))) = 1 - 1 / (1 + Real.exp (-ω)) := by
  rw [neg_neg, Real.exp_neg]
  have := Real.exp_pos ω
  field_simp
  ring

theorem rowLaw (h : ResponseChange fam φ τ s r m) : RowLaw fam φ τ s r m := by
  induction h with
  | @linear a ha s =>
    refine ⟨ha, ha, by positivity, ⟨s, fun _ => rfl⟩, ⟨a * s, s ^ 2 / 2, fun y ω => ?_, fun y _ => ?_⟩,
      fun ω => ?_, fun ω => ?_, fun μ => ?_, fun μ _ => ?_⟩
    · simp only [logLikeNatural_real, natParam_real, cumulant]; ring
    · simp only [logLikeSat_real]; ring
    · simp only [funcInv_real]
    · simp only [dNatParam_real]; field_simp
    · simp only [variance_real, varianceFn]; field_simp
    · simp only [func_real]
  | @gammaLog c hc =>
    have e1 : ∀ ω : ℝ, Real.exp (-(1 * ω + Real.log c)) = c⁻¹ * Real.exp (-ω) := fun ω => by
      rw [one_mul, neg_add, Real.exp_add, Real.exp_neg (Real.log c), Real.exp_log hc]; ring
    refine ⟨one_ne_zero, hc.ne', one_pos, ⟨0, fun y => by ring⟩,
      ⟨0, -Real.log c, fun y ω => ?_, fun y hy => ?_⟩,
      fun ω => ?_, fun ω => ?_, fun μ => ?_, fun μ hμ => ?_⟩
    · simp only [logLikeNatural_real, natParam_real, cumulant, e1, neg_neg]
      rw [Real.log_mul (inv_pos.mpr hc).ne' (Real.exp_pos _).ne', Real.log_inv, Real.log_exp]
      field_simp
      ring
    · simp only [logLikeSat_real]
      rw [Real.log_mul hc.ne' (ne_of_gt hy)]; ring
    · simp only [funcInv_real]; rw [one_mul, Real.exp_add, Real.exp_log hc]; ring
    · simp only [dNatParam_real, e1]; field_simp
    · simp only [variance_real, varianceFn]; ring
    · simp only [func_real]; rw [Real.log_mul hc.ne' (ne_of_gt hμ)]; ring
  | @exponentialLog c hc =>
    have e1 : ∀ ω : ℝ, Real.exp (-(1 * ω + Real.log c)) = c⁻¹ * Real.exp (-ω) := fun ω => by
      rw [one_mul, neg_add, Real.exp_add, Real.exp_neg (Real.log c), Real.exp_log hc]; ring
    refine ⟨one_ne_zero, hc.ne', one_pos, ⟨0, fun y => by ring⟩,
      ⟨0, -Real.log c, fun y ω => ?_, fun y hy => ?_⟩,
      fun ω => ?_, fun ω => ?_, fun μ => ?_, fun μ hμ => ?_⟩
    · simp only [logLikeNatural_real, natParam_real, cumulant, e1, neg_neg]
      rw [Real.log_mul (inv_pos.mpr hc).ne' (Real.exp_pos _).ne', Real.log_inv, Real.log_exp]
      field_simp
      ring
    · simp only [logLikeSat_real]
      rw [Real.log_mul hc.ne' (ne_of_gt hy)]; ring
    · simp only [funcInv_real]; rw [one_mul, Real.exp_add, Real.exp_log hc]; ring
    · simp only [dNatParam_real, e1]; field_simp
    · simp only [variance_real, varianceFn]; ring
    · simp only [func_real]; rw [Real.log_mul hc.ne' (ne_of_gt hμ)]; ring
  | @invGaussLog c hc =>
    have e1 : ∀ ω : ℝ, Real.exp (-2 * (1 * ω + Real.log c)) = (c ^ 2)⁻¹ * Real.exp (-2 * ω) := by
      intro ω
      have : -2 * (1 * ω + Real.log c) = -2 * ω + (-Real.log c + -Real.log c) := by ring
      rw [this, Real.exp_add, Real.exp_add, Real.exp_neg (Real.log c), Real.exp_log hc]
      field_simp
    have e2 : ∀ k ω : ℝ, 0 < k → Real.sqrt (-2 * (-(1 / 2) * ((k ^ 2)⁻¹ * Real.exp (-2 * ω))))
        = k⁻¹ * Real.exp (-ω) := by
      intro k ω hk
      have : -2 * (-(1 / 2) * ((k ^ 2)⁻¹ * Real.exp (-2 * ω))) = (k⁻¹ * Real.exp (-ω)) ^ 2 := by
        rw [mul_pow, ← Real.exp_nat_mul]
        push_cast
        ring_nf
      rw [this, Real.sqrt_sq (by positivity)]
    have e3 : ∀ ω : ℝ, Real.sqrt (-2 * (-(1 / 2) * Real.exp (-2 * ω))) = Real.exp (-ω) := by
      intro ω
      have := e2 1 ω one_pos
      simpa using this
    refine ⟨one_ne_zero, hc.ne', inv_pos.mpr hc, ⟨0, fun y => by ring⟩,
      ⟨0, 0, fun y ω => ?_, fun y hy => ?_⟩,
      fun ω => ?_, fun ω => ?_, fun μ => ?_, fun μ hμ => ?_⟩
    · simp only [logLikeNatural_real, natParam_real, cumulant, e1]
      rw [e2 c ω hc, e3]
      field_simp
      ring
    · simp only [logLikeSat_real]
      have : y ≠ 0 := ne_of_gt hy
      field_simp
      ring
    · simp only [funcInv_real]; rw [one_mul, Real.exp_add, Real.exp_log hc]; ring
    · simp only [dNatParam_real, e1]; field_simp
    · simp only [variance_real, varianceFn]; field_simp
    · simp only [func_real]; rw [Real.log_mul hc.ne' (ne_of_gt hμ)]; ring
  | @poisson c hc =>
    refine ⟨one_ne_zero, hc.ne', hc, ⟨0, fun y => by ring⟩,
      ⟨c * Real.log c, 0, fun y ω => ?_, fun y hy => ?_⟩,
      fun ω => ?_, fun ω => ?_, fun μ => ?_, fun μ hμ => ?_⟩
    · simp only [logLikeNatural_real, natParam_real, cumulant]
      rw [one_mul, Real.exp_add, Real.exp_log hc]; ring
    · simp only [logLikeSat_real]
      rcases eq_or_lt_of_le (show (0 : ℝ) ≤ y from hy) with h0 | h0
      · simp [← h0]
      · rw [Real.log_mul hc.ne' h0.ne']; ring
    · simp only [funcInv_real]; rw [one_mul, Real.exp_add, Real.exp_log hc]; ring
    · simp only [dNatParam_real]; field_simp
    · simp only [variance_real, varianceFn]; field_simp
    · simp only [func_real]; rw [Real.log_mul hc.ne' (ne_of_gt hμ)]; ring
  | logisticLogit =>
    refine ⟨by norm_num, by norm_num, one_pos, ⟨1, fun y => by ring⟩,
      ⟨0, 0, fun y ω => ?_, fun y hy => ?_⟩,
      fun ω => ?_, fun ω => ?_, fun μ => ?_, fun μ hμ => ?_⟩
    · simp only [logLikeNatural_real, natParam_real, cumulant, neg_one_mul, add_zero,
        log_one_add_exp_neg]
      ring
    · simp only [logLikeSat_real, sub_sub_cancel]; ring
    · simp only [funcInv_real, neg_one_mul, add_zero, logistic_neg]
    · simp only [dNatParam_real]; norm_num
    · simp only [variance_real, varianceFn]; ring
    · simp only [func_real, sub_sub_cancel]
      rw [← inv_div, Real.log_inv]; ring
  | binomial N =>
    refine ⟨by norm_num, by norm_num, one_pos, ⟨N, fun y => by ring⟩,
      ⟨0, 0, fun y ω => ?_, fun y hy => ?_⟩,
      fun ω => ?_, fun ω => ?_, fun μ => ?_, fun μ hμ => ?_⟩
    · simp only [logLikeNatural_real, natParam_real, cumulant, neg_one_mul, add_zero,
        log_one_add_exp_neg]
      ring
    · simp only [logLikeSat_real, sub_sub_cancel]; ring
    · simp only [funcInv_real, neg_one_mul, add_zero]
      have := logistic_neg ω
      calc (N : ℝ) / (1 + Real.exp (-(-ω))) = N * (1 / (1 + Real.exp (-(-ω)))) := by ring
        _ = N * (1 - 1 / (1 + Real.exp (-ω))) := by rw [this]
        _ = _ := by ring
    · simp only [dNatParam_real]; norm_num
    · simp only [variance_real, varianceFn]; ring
    · simp only [func_real, sub_sub_cancel]
      rw [← inv_div, Real.log_inv]; ring


/-! ### Data sets and coefficients -/

/-- The matrix and the shift that convert coefficients. -/
theorem changeCoef_eq (τ s : ℝ) (β : Vec ℝ (ncols b p)) :
    changeCoef τ s β = (τ • (1 : Matrix (Fin (ncols b p)) (Fin (ncols b p)) ℝ)) *ᵥ β
      + changeCoef τ s 0 := by
  rw [smul_mulVec, one_mulVec]
  cases b
  · funext j
    simp [changeCoef]
  · funext j
    refine Fin.cases ?_ (fun j => ?_) j <;> simp [changeCoef]

theorem changeCoef_zero_apply (hs : b = true ∨ s = 0) (raw : Dataset ℝ n p false) (i : Fin n) :
    ∑ j, design b raw.x i j * changeCoef (b := b) τ s 0 j = s := by
  cases b
  · have : s = 0 := by simpa using hs
    simp [changeCoef, this]
  · refine (Fin.sum_univ_succ _).trans ?_
    simp [changeCoef, design]

theorem slopes_changeCoef (β : Vec ℝ (ncols b p)) (j : Fin p) :
    slopes b (changeCoef τ s β) j = τ * slopes b β j := by
  cases b <;> rfl

theorem changeResponse_offset (φ : ℝ → ℝ) (d : Dataset ℝ n p b) (i : Fin n) :
    offset (changeResponse φ τ d) i = τ * offset d i := by
  unfold offset changeResponse
  cases d.linearOffset <;> simp

/-- **C82** (building): changing the responses and building a model commute. -/
theorem C82_build (φ : ℝ → ℝ) (τ : ℝ) (raw : Dataset ℝ n p false) (std b : Bool) :
    (changeResponse φ τ raw).finalize std b = (raw.finalize std b).map (changeResponse φ τ) := by
  unfold Dataset.finalize
  cases std
  · rfl
  · have e : Standardizer.fromDataset (changeResponse φ τ raw) b = Standardizer.fromDataset raw b :=
      rfl
    simp only [if_true]
    rw [e]
    cases Standardizer.fromDataset raw b <;> rfl

theorem linPred_change (hs : b = true ∨ s = 0) (raw : Dataset ℝ n p false)
    (β : Vec ℝ (ncols b p)) (i : Fin n) :
    linPred (changeResponse φ τ raw) b (changeCoef τ s β) i = τ * linPred raw b β i + s := by
  have h := changeCoef_zero_apply (τ := τ) hs raw i
  simp only [linPred, changeResponse_offset]
  rw [changeCoef_eq, smul_mulVec, one_mulVec]
  simp only [Pi.add_apply, Pi.smul_apply, smul_eq_mul, mul_add, Finset.sum_add_distrib]
  have e : (changeResponse φ τ raw).x = raw.x := rfl
  rw [e, h, Finset.mul_sum]
  have : ∀ j, design b raw.x i j * (τ * β j) = τ * (design b raw.x i j * β j) := fun j => by ring
  simp only [this]
  ring

section rows
variable (hl : RowLaw fam φ τ s r m) (hs : b = true ∨ s = 0) (raw : Dataset ℝ n p false)
include hl hs

theorem meanAt_change (β : Vec ℝ (ncols b p)) (i : Fin n) :
    meanAt fam.glm (changeResponse φ τ raw) b (changeCoef τ s β) i = φ (meanAt fam.glm raw b β i) := by
  rw [meanAt, linPred_change hs, hl.mean]; rfl

theorem resid_change (β : Vec ℝ (ncols b p)) (i : Fin n) :
    (changeResponse φ τ raw).y i - meanAt fam.glm (changeResponse φ τ raw) b (changeCoef τ s β) i
      = r * (raw.y i - meanAt fam.glm raw b β i) := by
  obtain ⟨q, hq⟩ := hl.aff
  rw [meanAt_change hl hs]
  change φ (raw.y i) - _ = _
  rw [hq, hq]; ring

theorem scoreVec_change (β : Vec ℝ (ncols b p)) :
    scoreVec fam.glm (changeResponse φ τ raw) b (changeCoef τ s β)
      = (m / τ) • scoreVec fam.glm raw b β := by
  have := hl.τ0
  have := hl.r0
  funext j
  simp only [scoreVec, Pi.smul_apply, smul_eq_mul, Finset.mul_sum]
  refine Finset.sum_congr rfl fun i _ => ?_
  rw [resid_change hl hs, linPred_change hs, hl.slope]
  change totalWt raw i * _ * _ * design b raw.x i j = _
  field_simp

theorem fisherMat_change (β : Vec ℝ (ncols b p)) :
    fisherMat fam.glm (changeResponse φ τ raw) b (changeCoef τ s β)
      = (m / τ ^ 2) • fisherMat fam.glm raw b β := by
  have := hl.τ0
  have := hl.r0
  have := hl.mpos.ne'
  ext j k
  simp only [fisherMat, Matrix.smul_apply, smul_eq_mul, Finset.mul_sum]
  refine Finset.sum_congr rfl fun i _ => ?_
  rw [meanAt_change hl hs, linPred_change hs, hl.slope, hl.var]
  change totalWt raw i * _ * _ * design b raw.x i j * design b raw.x i k = _
  field_simp

/-- The shift of the log-likelihood. -/
theorem logLik_change : ∃ κ, ∀ β : Vec ℝ (ncols b p),
    logLik fam.glm (changeResponse φ τ raw) b (changeCoef τ s β)
      = m * logLik fam.glm raw b β + κ := by
  obtain ⟨k1, k0, h, -⟩ := hl.like
  refine ⟨∑ i, totalWt raw i * (k1 * raw.y i + k0), fun β => ?_⟩
  simp only [logLik, logLikAt, Finset.mul_sum, ← Finset.sum_add_distrib]
  refine Finset.sum_congr rfl fun i _ => ?_
  rw [linPred_change hs]
  change totalWt raw i * fam.glm.logLikeNatural (φ (raw.y i)) _ = _
  rw [h]; ring

end rows

theorem ridgeMat_smul {c l2 : ℝ} (hc : 0 ≤ c) (σ : Fin p → ℝ) :
    ridgeMat (c * l2) σ b = c • ridgeMat l2 σ b := by
  have e : max (c * l2) 0 = c * max l2 0 := by
    rw [mul_max_of_nonneg _ _ hc, mul_zero]
  rw [ridgeMat, ridgeMat, e, ← diagonal_smul]
  congr 1
  cases b
  · funext j; simp [onSlopes, mul_assoc]
  · funext j
    refine Fin.cases ?_ (fun j => ?_) j <;> simp [onSlopes, mul_assoc]

theorem ridgeMat_shift {l2 : ℝ} (hs : b = true ∨ s = 0) (σ : Fin p → ℝ) :
    ridgeMat l2 σ b *ᵥ changeCoef τ s 0 = 0 := by
  rw [ridgeMat]
  funext j
  rw [mulVec_diagonal]
  cases b
  · have : s = 0 := by simpa using hs
    simp [changeCoef]
  · revert j
    refine Fin.cases ?_ (fun j => ?_) <;> simp [onSlopes, changeCoef]

/-- After the change, the problem is a twin of the problem before. -/
theorem change_twin (hl : RowLaw fam φ τ s r m) (hs : b = true ∨ s = 0)
    (raw : Dataset ℝ n p false) {eps : ℝ} (heps : eps = 0 ∨ m = τ ^ 2) {l1 : ℝ} (h1 : l1 ≤ 0) :
    ∃ κ, ∀ (l2 : ℝ) (σ : Fin p → ℝ), Twin eps
      (τ • (1 : Matrix (Fin (ncols b p)) (Fin (ncols b p)) ℝ)) (changeCoef τ s 0) m κ fam.glm fam.glm
      (changeResponse φ τ raw) raw l1 (m / τ ^ 2 * l2) l1 l2 σ σ := by
  obtain ⟨κ, hκ⟩ := logLik_change hl hs raw
  have hτ := hl.τ0
  have hm := hl.mpos
  have hc : 0 ≤ m / τ ^ 2 := by positivity
  refine ⟨κ, fun l2 σ => ⟨⟨τ⁻¹ • 1, ?_, ?_⟩, hm, fun β' => ?_, fun β' => ?_, fun β' => ?_⟩⟩
  · rw [smul_mul_smul_comm, mul_inv_cancel₀ hτ, Matrix.one_mul, one_smul]
  · rw [smul_mul_smul_comm, inv_mul_cancel₀ hτ, Matrix.one_mul, one_smul]
  · rw [← changeCoef_eq, penLogLik, penLogLik, hκ, penalty_noL1 h1, penalty_noL1 h1,
      ridgeMat_smul hc, smul_mulVec, changeCoef_eq, mulVec_add, ridgeMat_shift hs, add_zero,
      dotProduct_smul, add_dotProduct, dot_mulVec_comm ridgeMat_symm (changeCoef τ s 0), smul_mulVec,
      one_mulVec, mulVec_smul, ridgeMat_shift hs, smul_dotProduct, dotProduct_smul,
      dotProduct_zero]
    simp only [smul_eq_mul]
    field_simp
    ring
  · rw [← changeCoef_eq, penScore_eq h1, penScore_eq h1, scoreVec_change hl hs, ridgeMat_smul hc,
      changeCoef_eq, smul_mulVec, mulVec_add, ridgeMat_shift hs, add_zero, transpose_smul,
      transpose_one, smul_mulVec, one_mulVec, smul_mulVec, one_mulVec, mulVec_smul]
    funext j
    simp only [Pi.smul_apply, Pi.sub_apply, smul_eq_mul]
    field_simp
  · rw [← changeCoef_eq, newtonMat, newtonMat, fisherMat_change hl hs, ridgeMat_smul hc,
      transpose_smul, transpose_one, smul_mul, Matrix.one_mul, Matrix.mul_smul, Matrix.mul_one]
    ext j k
    have e : gram (changeResponse φ τ raw) b = gram raw b := rfl
    rw [e]
    simp only [Matrix.smul_apply, Matrix.add_apply, smul_eq_mul]
    have e2 : m * (eps * gram raw b j k) = τ ^ 2 * (eps * gram raw b j k) := by
      rcases heps with h | h
      · rw [h]; ring
      · rw [h]
    field_simp
    linear_combination e2


/-! ### The course of a fit -/

section run
variable {raw : Dataset ℝ n p false} {std : Bool} {d : Dataset ℝ n p b}
  {o : FitOptions ℝ (ncols b p)}

theorem changeResponse_inverse (φ : ℝ → ℝ) (τ : ℝ) (d : Dataset ℝ n p b) (γ : Vec ℝ (ncols b p)) :
    (changeResponse φ τ d).inverseTransformBeta γ = d.inverseTransformBeta γ := by
  cases b <;> rfl

theorem changeResponse_scale (φ : ℝ → ℝ) (τ : ℝ) (d : Dataset ℝ n p b) :
    scale (changeResponse φ τ d) = scale d := rfl

theorem twinStep_change (τ s m κ : ℝ) :
    twinStep (b := b) (b' := b) (p := p) (p' := p)
      (τ • (1 : Matrix (Fin (ncols b p)) (Fin (ncols b p)) ℝ)) (changeCoef τ s 0) m κ
      = changeStep τ s m κ := by
  funext st
  simp only [twinStep, changeStep, ← changeCoef_eq]

theorem extStep_change (φ : ℝ → ℝ) (τ : ℝ) (d : Dataset ℝ n p b) :
    extStep (changeResponse φ τ d) = extStep d := by
  funext st
  simp only [extStep, changeResponse_inverse]

theorem inverse_neg (d : Dataset ℝ n p b) (γ : Vec ℝ (ncols b p)) :
    d.inverseTransformBeta (-γ) = -d.inverseTransformBeta γ := by
  cases b
  · unfold Dataset.inverseTransformBeta
    dsimp only
    cases d.standardizer with
    | none => rfl
    | some s => funext j; simp [Standardizer.inverseTransformCoefficientsNoInt, neg_div]
  · unfold Dataset.inverseTransformBeta
    dsimp only
    cases d.standardizer with
    | none => rfl
    | some s =>
      funext j
      refine Fin.cases ?_ (fun j => ?_) j
      · simp [Standardizer.inverseTransformCoefficients, neg_div]; ring
      · simp [Standardizer.inverseTransformCoefficients, neg_div]

theorem mean_affine {n : ℕ} {φ : ℝ → ℝ} {q : ℝ} (hq : ∀ y, φ y = r * y + q) (y : Fin n → ℝ)
    (i : Fin n) : (∑ k, φ (y k)) / n = φ ((∑ k, y k) / n) := by
  have hn : (n : ℝ) ≠ 0 := by
    have : 0 < n := i.pos
    positivity
  simp only [hq, Finset.sum_add_distrib, ← Finset.mul_sum, Finset.sum_const, Finset.card_univ,
    Fintype.card_fin, nsmul_eq_mul]
  field_simp

/-- The starting points correspond. -/
theorem change_start (he : env.Exact) (hl : RowLaw fam φ τ s r m) (hs : b = true ∨ s = 0)
    (hd : raw.finalize std b = some d) (hw : ∀ i, 0 ≤ totalWt raw i)
    (hi : o.initGuess = none → IsUnit (gram raw b).det ∧
      ∀ i, (raw.y i + (∑ k, raw.y k) / n) / 2 ∈ meanDom fam) :
    d.inverseTransformBeta
        (initialGuess env fam.glm (changeResponse φ τ d) (changeOptions τ s m o))
      = changeCoef τ s (d.inverseTransformBeta (initialGuess env fam.glm d o)) := by
  have hd' : (changeResponse φ τ raw).finalize std b = some (changeResponse φ τ d) := by
    rw [C82_build, hd]; rfl
  cases ho : o.initGuess with
  | some β =>
    have e1 := (Dataset.finalize_wf hd).inverseTransformBeta_transformBeta β
    have e2 := (Dataset.finalize_wf hd').inverseTransformBeta_transformBeta (changeCoef τ s β)
    rw [changeResponse_inverse] at e2
    simp only [initialGuess, changeOptions, ho, Option.map_some, e1, e2]
  | none =>
    obtain ⟨hu, hy⟩ := hi ho
    have a := C72_default_start (g := fam.glm) he hd hw hu ho
    have a' := C72_default_start (g := fam.glm) (options := changeOptions τ s m o) he hd' hw hu
      (by simp [changeOptions, ho])
    rw [changeResponse_inverse] at a'
    refine leastSquares_unique (raw := startTargets fam.glm (changeResponse φ τ raw)) hw hu a' ?_
    obtain ⟨q, hq⟩ := hl.aff
    have hτ := hl.τ0
    have hresid : ∀ (β : Vec ℝ (ncols b p)) i,
        (startTargets fam.glm (changeResponse φ τ raw)).y i
          - linPred (startTargets fam.glm (changeResponse φ τ raw)) b (changeCoef τ s β) i
        = τ * ((startTargets fam.glm raw).y i - linPred (startTargets fam.glm raw) b β i) := by
      intro β i
      have e1 : (startTargets fam.glm (changeResponse φ τ raw)).y i
          = fam.glm.link.func (φ ((raw.y i + (∑ k, raw.y k) / n) / 2)) := by
        change fam.glm.link.func ((φ (raw.y i) + (∑ k, φ (raw.y k)) / n) / 2) = _
        rw [mean_affine hq raw.y i]
        congr 1
        simp only [hq]; ring
      have e2 : linPred (startTargets fam.glm (changeResponse φ τ raw)) b (changeCoef τ s β) i
          = linPred (changeResponse φ τ raw) b (changeCoef τ s β) i := rfl
      have e3 : linPred (startTargets fam.glm raw) b β i = linPred raw b β i := rfl
      rw [e1, e2, e3, hl.func _ (hy i), linPred_change hs]
      change _ = τ * (fam.glm.link.func ((raw.y i + (∑ k, raw.y k) / n) / 2) - _)
      ring
    have hsse : ∀ β : Vec ℝ (ncols b p),
        sse (startTargets fam.glm (changeResponse φ τ raw)) b (changeCoef τ s β)
          = τ ^ 2 * sse (startTargets fam.glm raw) b β := by
      intro β
      simp only [sse, Finset.mul_sum]
      refine Finset.sum_congr rfl fun i _ => ?_
      rw [hresid]
      change totalWt raw i * _ = τ ^ 2 * (totalWt raw i * _)
      ring
    intro β
    obtain ⟨β0, rfl⟩ : ∃ β0 : Vec ℝ (ncols b p), changeCoef τ s β0 = β := by
      refine ⟨τ⁻¹ • (β - changeCoef τ s 0), ?_⟩
      rw [changeCoef_eq, smul_mulVec, one_mulVec, smul_smul, mul_inv_cancel₀ hτ, one_smul,
        sub_add_cancel]
    rw [hsse, hsse]
    exact mul_le_mul_of_nonneg_left (a β0) (by positivity)

/-- **C82** (the course of a fit): after a change of the units, the origin or the labels of the
responses the fit visits the corresponding coefficients, takes the same number of steps and ends the
same way.  The tolerance is zero, or the change exchanges successes and failures and the tolerance is
arbitrary.  The L2 strength follows the scale of the likelihood (for linear, exponential, gamma and
binary responses it is unchanged). -/
theorem C82_run (he : env.Exact) (hdec : env.Decides) (hc : ResponseChange fam φ τ s r m)
    (hs : b = true ∨ s = 0) (heps : env.eps = 0 ∨ m = τ ^ 2) (hd : raw.finalize std b = some d)
    (hw : ∀ i, 0 ≤ totalWt raw i) (h1 : o.l1 ≤ 0) (ht : o.tol = 0 ∨ (τ = -1 ∧ s = 0))
    (hi : o.initGuess = none → IsUnit (gram raw b).det ∧
      ∀ i, (raw.y i + (∑ k, raw.y k) / n) / 2 ∈ meanDom fam) :
    ∃ κ, Related (ErrorAfterChange τ s m κ d) (CourseAfterChange τ s m κ)
      (regression env fam.glm d o)
      (regression env fam.glm (changeResponse φ τ d) (changeOptions τ s m o)) := by
  have hl := rowLaw hc
  obtain ⟨κ, hκ⟩ := change_twin hl hs raw heps h1
  refine ⟨κ, ?_⟩
  have hd' : (changeResponse φ τ raw).finalize std b = some (changeResponse φ τ d) := by
    rw [C82_build, hd]; rfl
  have hr := twin_run (d := changeResponse φ τ d) (o := changeOptions τ s m o) (d' := d) (o' := o) he
    hdec (Family.lawfulAdj fam) (Family.lawfulAdj fam) (hκ o.l2 (scale d)) hd' hd h1 h1 ?_ rfl ?_
  · generalize regression env fam.glm (changeResponse φ τ d) (changeOptions τ s m o) = x at hr
    generalize regression env fam.glm d o = y at hr
    cases hr with
    | panic => exact .panic
    | diverge => exact .diverge
    | err e =>
      cases e with
      | linalg => exact .err .linalg
      | maxIter m hh => exact .err (.maxIter m (by rw [← extStep_change φ τ d, hh, twinStep_change,
          extStep_change]))
    | ok h =>
      exact .ok ⟨by rw [h.result, ← changeCoef_eq], by rw [h.history, twinStep_change], h.nIter⟩
  · rcases ht with h | ⟨h, h'⟩
    · exact .inl ⟨h, h⟩
    · have hm : m = 1 := by
        cases hc <;> first | rfl | (subst h; norm_num) | norm_num at h
      refine .inr ⟨rfl, hm, rfl, rfl, fun u u' v v' e1 e2 => ?_⟩
      have key : ∀ u u', (changeResponse φ τ d).inverseTransformBeta u
          = (τ • (1 : Matrix (Fin (ncols b p)) (Fin (ncols b p)) ℝ)) *ᵥ d.inverseTransformBeta u'
            + changeCoef τ s 0 → u = -u' := by
        intro u u' e
        rw [← changeCoef_eq, changeResponse_inverse, h, h'] at e
        refine inverse_inj hd ?_
        rw [e, inverse_neg]
        cases b
        · funext j; simp [changeCoef]
        · funext j
          refine Fin.cases ?_ (fun j => ?_) j <;> simp [changeCoef]
      rw [key _ _ e1, key _ _ e2]
      simp only [Pi.neg_apply]
      refine ⟨Finset.sum_congr rfl fun j _ => by ring, Finset.sum_congr rfl fun j _ => by ring⟩
  · rw [changeResponse_inverse, change_start he hl hs hd hw hi, ← changeCoef_eq]

end run


/-! ### The fitted models -/

theorem responseChange_predDom (hc : ResponseChange fam φ τ s r m) : predDom fam = Set.univ := by
  cases hc <;> rfl

theorem ratio_sign (hr : r ≠ 0) : (r / |r|) * |r| = r := div_mul_cancel₀ _ (abs_ne_zero.mpr hr)

theorem signum_mul_sqrt (hr : r ≠ 0) (hm : 0 < m) {e D : ℝ} (h0 : e = 0 → D = 0) :
    Scalar.signum (r * e) * Real.sqrt (m * D)
      = r / |r| * Real.sqrt m * (Scalar.signum e * Real.sqrt D) := by
  by_cases he : e = 0
  · rw [h0 he]; simp
  rw [Real.sqrt_mul hm.le]
  have hsg : (Scalar.signum (r * e) : ℝ) = r / |r| * Scalar.signum e := by
    rw [signum_real, signum_real]
    rcases lt_or_gt_of_ne hr with h | h
    · rw [abs_of_neg h, div_neg, div_self hr]
      rcases lt_or_gt_of_ne he with h' | h'
      · rw [if_neg (not_lt.mpr (mul_pos_of_neg_of_neg h h').le), if_pos h']; norm_num
      · rw [if_pos (mul_neg_of_neg_of_pos h h'), if_neg (not_lt.mpr h'.le)]; norm_num
    · rw [abs_of_pos h, div_self hr, one_mul]
      rcases lt_or_gt_of_ne he with h' | h'
      · rw [if_pos (mul_neg_of_pos_of_neg h h'), if_pos h']
      · rw [if_neg (not_lt.mpr (mul_pos h h').le), if_neg (not_lt.mpr h'.le)]
  rw [hsg]; ring

section statistics
variable {raw : Dataset ℝ n p false} {std : Bool} {d : Dataset ℝ n p b}
  {o o' : FitOptions ℝ (ncols b p)} {env₁ env₂ : Env ℝ} {f f' : Fit ℝ n p b}

/-- A row that is fitted exactly does not contribute to the deviance. -/
theorem devianceTerms_zero (hv : ValidFamily fam) (hp : predDom fam = Set.univ)
    (hd : raw.finalize std b = some d) (hf : regression env₁ fam.glm d o = .ok f) {i : Fin n}
    (h0 : f.residResp i = 0) : f.devianceTerms i = 0 := by
  obtain ⟨g1, -, -, hr⟩ := regression_ofRaw hd hf
  have hdom : linPred raw b f.result i ∈ predDom fam := by rw [hp]; trivial
  rw [hr.residResp, g1, sub_eq_zero] at h0
  have hmem : raw.y i ∈ meanDom fam := by rw [h0]; exact funcInv_mem fam hv hdom
  rw [hr.devianceTerms, g1, logLikAt, natParam_eq fam hv hdom, logLikeSat_eq fam hmem]
  change _ * (2 * (_ - fam.glm.logLikeNatural _ (canonicalLink fam (meanAt fam.glm raw b f.result i)))) = 0
  rw [← h0]; ring

variable (hc : ResponseChange fam φ τ s r m) (hs : b = true ∨ s = 0)
  (hd : raw.finalize std b = some d) (hf : regression env₁ fam.glm d o = .ok f)
  (hf' : regression env₂ fam.glm (changeResponse φ τ d) o' = .ok f')
  (hres : f'.result = changeCoef τ s f.result)
include hc hs hd hf hf' hres

theorem change_basic (hy : ∀ i, raw.y i ∈ yDom fam) :
    (∀ i, f'.yHat i = φ (f.yHat i)) ∧ (∀ i, f'.residResp i = r * f.residResp i) ∧
    (∀ i, f'.residWork i = τ * f.residWork i) ∧
    (∀ i, f'.residPear i = r / |r| * Real.sqrt m * f.residPear i) ∧
    (∀ i, f'.devianceTerms i = m * f.devianceTerms i) := by
  have hl := rowLaw hc
  have hτ := hl.τ0
  have hr0 := hl.r0
  have hm := hl.mpos
  have hd' : (changeResponse φ τ raw).finalize std b = some (changeResponse φ τ d) := by
    rw [C82_build, hd]; rfl
  obtain ⟨g1, -, -, hr⟩ := regression_ofRaw hd hf
  obtain ⟨g2, -, -, hr'⟩ := regression_ofRaw hd' hf'
  have hyh : ∀ i, f'.yHat i = φ (f.yHat i) := fun i => by
    rw [hr'.mean, hr.mean, g1, g2, hres, meanAt_change hl hs]
  have hrr : ∀ i, f'.residResp i = r * f.residResp i := fun i => by
    rw [hr'.residResp, hr.residResp, g1, g2, hres, resid_change hl hs]
  have hvw : ∀ (v : Vec ℝ n) i, f'.data.applyVarWeights v i = varWt raw i * v i := fun v i => by
    rw [Dataset.applyVarWeights_real, Dataset.finalize_varWt hr'.built]; rfl
  have hvw' : ∀ (v : Vec ℝ n) i, f.data.applyVarWeights v i = varWt raw i * v i := fun v i => by
    rw [Dataset.applyVarWeights_real, Dataset.finalize_varWt hr.built]
  refine ⟨hyh, hrr, fun i => ?_, fun i => ?_, fun i => ?_⟩
  · have hA := Family.lawfulAdj fam
    simp only [Fit.residWork, g1, g2, hA.both, hA.errors, hA.variance, hrr, hyh, hl.var, hr'.lin,
      hr.lin, hres, linPred_change hs, hl.slope]
    by_cases hD : fam.glm.link.dNatParam (linPred raw b f.result i) = 0
    · simp [hD]
    by_cases hV : fam.glm.variance (f.yHat i) = 0
    · simp [hV]
    field_simp
  · simp only [Fit.residPear, hvw, hvw', g1, g2, hyh, hl.var, hrr, sqrt_real, recip_real]
    have e : varWt raw i * (1 / (r ^ 2 / m * fam.glm.variance (f.yHat i)))
        = m / r ^ 2 * (varWt raw i * (1 / fam.glm.variance (f.yHat i))) := by
      by_cases hV : fam.glm.variance (f.yHat i) = 0
      · simp [hV]
      field_simp
    rw [e, Real.sqrt_mul (by positivity), Real.sqrt_div hm.le, Real.sqrt_sq_eq_abs]
    have ha : |r| ≠ 0 := abs_ne_zero.mpr hr0
    field_simp
  · obtain ⟨k1, k0, h1, h2⟩ := hl.like
    rw [hr'.devianceTerms, hr.devianceTerms, g1, g2]
    change varWt raw i * (2 * (fam.glm.logLikeSat (φ (raw.y i)) - fam.glm.logLikeNatural (φ (raw.y i))
      (fam.glm.link.natParam (linPred (changeResponse φ τ raw) b f'.result i)))) = _
    rw [hres, linPred_change hs, h1, h2 _ (hy i)]
    change _ = m * (varWt raw i * (2 * (_ - fam.glm.logLikeNatural (raw.y i) _)))
    ring


/-- **C82**: the two fits report the same model: predictions follow the change, deviances, tests and
information scale with it, and leverages stay. -/
theorem C82_statistics {env' : Env ℝ} (he : env'.Exact) (hdec : env'.Decides) (hv : ValidFamily fam)
    (hy : ∀ i, raw.y i ∈ yDom fam) (h1 : o.l1 ≤ 0) (h1' : o'.l1 ≤ 0)
    (h2 : o'.l2 = m / τ ^ 2 * o.l2) : FitAfterChange φ τ s r m env' f f' := by
  have hl := rowLaw hc
  have hτ := hl.τ0
  have hr0 := hl.r0
  have hm := hl.mpos
  have hd' : (changeResponse φ τ raw).finalize std b = some (changeResponse φ τ d) := by
    rw [C82_build, hd]; rfl
  have hg := Family.lawfulAdj fam
  obtain ⟨hyh, hrr, hrw, hrp, hdt⟩ := change_basic hc hs hd hf hf' hres hy
  obtain ⟨-, a2, a3, a4, a5, -⟩ := C10_external hg hd h1 hf
  obtain ⟨-, b2, b3, b4, b5, -⟩ := C10_external hg hd' h1' hf'
  obtain ⟨κ, hκ⟩ := change_twin (b := b) hl hs raw (eps := 0) (Or.inl rfl) h1
  have htw := hκ o.l2 (scale d)
  have hpen : ∀ β, penLogLik fam.glm (changeResponse φ τ raw) b o'.l1 o'.l2
      (scale (changeResponse φ τ d)) (changeCoef τ s β)
      = m * penLogLik fam.glm raw b o.l1 o.l2 (scale d) β + κ := by
    intro β
    have e := htw.obj β
    rw [← changeCoef_eq, ← h2] at e
    rw [← e, changeResponse_scale]
    simp only [penLogLik, penalty, max_eq_right h1, max_eq_right h1']
  have hscore : ∀ β, f'.score (changeCoef τ s β) = fun j => m / τ * f.score β j := by
    intro β
    have e := htw.score β
    rw [← changeCoef_eq, ← h2] at e
    rw [a2, b2, changeResponse_scale]
    have e' : penScore fam.glm (changeResponse φ τ raw) b o'.l1 o'.l2 (scale d) (changeCoef τ s β)
        = penScore fam.glm (changeResponse φ τ raw) b o.l1 o'.l2 (scale d) (changeCoef τ s β) := by
      simp only [penScore_eq h1, penScore_eq h1']
    rw [e']
    funext j
    have ej := congrFun e j
    rw [transpose_smul, transpose_one, smul_mulVec, one_mulVec] at ej
    simp only [Pi.smul_apply, smul_eq_mul] at ej
    field_simp
    rw [ej, mul_comm]
  have hfisher : ∀ β, Matrix.of (f'.fisher (changeCoef τ s β))
      = (m / τ ^ 2) • Matrix.of (f.fisher β) := by
    intro β
    rw [b3, a3, fisherMat_change hl hs, h2, ridgeMat_smul (by positivity), changeResponse_scale,
      smul_add]
  have hfac : m / τ ^ 2 ≠ 0 := (by positivity : 0 < m / τ ^ 2).ne'
  have hdet : ∀ β, IsUnit (Matrix.of (f'.fisher (changeCoef τ s β))).det
      ↔ IsUnit (Matrix.of (f.fisher β)).det := fun β => by
    rw [hfisher, det_smul, IsUnit.mul_iff]
    exact and_iff_right (isUnit_iff_ne_zero.mpr (pow_ne_zero _ hfac))
  have hinv : ∀ β, IsUnit (Matrix.of (f.fisher β)).det →
      (Matrix.of (f'.fisher (changeCoef τ s β)))⁻¹ = (τ ^ 2 / m) • (Matrix.of (f.fisher β))⁻¹ :=
    fun β hu => by
    rw [hfisher]
    refine inv_eq_right_inv ?_
    rw [Matrix.smul_mul, Matrix.mul_smul, mul_nonsing_inv _ hu, smul_smul]
    rw [show m / τ ^ 2 * (τ ^ 2 / m) = 1 by field_simp, one_smul]
  have hlin : ∀ i, linPred (changeResponse φ τ raw) b f'.result i
      = τ * linPred raw b f.result i + s := fun i => by rw [hres, linPred_change hs]
  have hhat : f'.hat env' = f.hat env' := by
    by_cases hu : IsUnit (Matrix.of (f.fisher f.result)).det
    · obtain ⟨H, hH, -⟩ := C40_available hd hf he hu
      obtain ⟨H', hH', -⟩ := C40_available hd' hf' he (by rw [hres]; exact (hdet _).mpr hu)
      rw [hH, hH']
      have e1 := (hat_eq hg hd hf he hH).2
      have e2 := (hat_eq hg hd' hf' he hH').2
      refine congrArg Except.ok (Matrix.of.injective ?_)
      rw [e1, e2]
      simp only [hlin]
      rw [hres, hinv _ hu]
      simp only [meanAt_change hl hs, hl.var, hl.slope]
      have q1 : diagonal (fun i => r ^ 2 / m * fam.glm.variance (meanAt fam.glm raw b f.result i)
            * (m / (τ * r) * fam.glm.link.dNatParam (linPred raw b f.result i)))
          = (r / τ) • diagonal (fun i => fam.glm.variance (meanAt fam.glm raw b f.result i)
            * fam.glm.link.dNatParam (linPred raw b f.result i)) := by
        rw [← diagonal_smul]; congr 1; funext i
        simp only [Pi.smul_apply, smul_eq_mul]; field_simp
      have q2 : diagonal (fun i => totalWt (changeResponse φ τ raw) i
            * (m / (τ * r) * fam.glm.link.dNatParam (linPred raw b f.result i)))
          = (m / (τ * r)) • diagonal (fun i => totalWt raw i
            * fam.glm.link.dNatParam (linPred raw b f.result i)) := by
        rw [← diagonal_smul]; congr 1; funext i
        change totalWt raw i * _ = _
        simp only [Pi.smul_apply, smul_eq_mul]; ring
      rw [q1, q2]
      change _ * design b raw.x * _ * (design b raw.x)ᵀ * _ = _
      simp only [Matrix.smul_mul, Matrix.mul_smul, smul_smul]
      rw [show m / (τ * r) * (τ ^ 2 / m * (r / τ)) = 1 by field_simp, one_smul]
    · rw [hat_singular hdec hd hf hu,
        hat_singular hdec hd' hf' fun hc => hu ((hdet _).mp (by rw [← hres]; exact hc))]
  obtain ⟨g1, -, -, hr⟩ := regression_ofRaw hd hf
  obtain ⟨g2, -, -, hr'⟩ := regression_ofRaw hd' hf'
  have hdev : f'.deviance = m * f.deviance := by
    simp only [Fit.deviance, Dataset.freqSum_real, hdt, Finset.mul_sum]
    refine Finset.sum_congr rfl fun i _ => ?_
    rw [Dataset.finalize_freq hr'.built, Dataset.finalize_freq hr.built]
    change freq raw i * _ = _
    ring
  refine
    { yHat := hyh
      predict := ?_
      deviance := ?_
      aic := ?_
      rss := ?_
      residResp := hrr
      residWork := hrw
      residPear := hrp
      residDev := fun i => ?_
      score := hscore
      fisher := fun β => Matrix.of.injective (hfisher β)
      hat := hhat
      leverage := by unfold Fit.leverage; rw [hhat]
      lrAgainst := fun β => by rw [a4, b4, hres, hpen, hpen]; ring
      waldAgainst := fun β => ?_
      scoreAgainst := fun β => ?_ }
  · intro k x off
    funext i
    rw [C09_predict_new, C09_predict_new, g1, g2, hres]
    have e := linPred_change (φ := φ) (τ := τ) hs
      (⟨fun _ => 0, x, some off, none, none, none⟩ : Dataset ℝ k p false) f.result i
    exact (congrArg _ e).trans (hl.mean _)
  · exact hdev
  · have hslw : f'.sumLogWeights = f.sumLogWeights := by
      simp only [Fit.sumLogWeights, Dataset.freqSum_real, Dataset.getVarianceWeights_real,
        Dataset.finalize_freq hr'.built, Dataset.finalize_freq hr.built,
        Dataset.finalize_varWt hr'.built, Dataset.finalize_varWt hr.built]
      rfl
    have hrk : f'.rank = f.rank := rfl
    rw [Fit.aic, Fit.aic, hdev, hrk, hslw]; ring
  · rw [hr'.rss, hr.rss, g1, g2, Finset.mul_sum]
    refine Finset.sum_congr rfl fun i _ => ?_
    rw [hres, resid_change hl hs]
    change totalWt raw i * _ = _
    ring
  · rw [Fit.residDev, Fit.residDev, hdt, hrr]
    exact signum_mul_sqrt hr0 hm fun h0 => devianceTerms_zero hv (responseChange_predDom hc) hd hf h0
  · rw [a5, b5, ← a3, ← b3, hfisher, hres]
    have e : changeCoef τ s f.result - changeCoef τ s β = τ • (f.result - β) := by
      rw [changeCoef_eq, changeCoef_eq _ _ β, smul_mulVec, smul_mulVec, one_mulVec, one_mulVec,
        smul_sub]
      abel
    rw [e, smul_mulVec, mulVec_smul, smul_dotProduct, dotProduct_smul, dotProduct_smul]
    simp only [smul_eq_mul]
    field_simp
  · by_cases hu : IsUnit (Matrix.of (f.fisher β)).det
    · rw [scoreTest_regular he hu, scoreTest_regular he ((hdet β).mpr hu), hinv β hu, hscore]
      refine congrArg Except.ok ?_
      have e : (fun j => m / τ * f.score β j) = (m / τ) • f.score β := rfl
      rw [e, smul_mulVec, mulVec_smul, smul_dotProduct, dotProduct_smul, dotProduct_smul]
      simp only [smul_eq_mul]
      field_simp
    · rw [scoreTest_singular hdec hu, scoreTest_singular hdec fun h => hu ((hdet β).mp h)]
      rfl

/-- **C82**: when the dispersion is estimated (or the deviance keeps its scale), standard errors
follow the coefficients, and standardized residuals, Cook's distances and the z-scores of the slopes
stay, up to sign. -/
theorem C82_errors {env' : Env ℝ} (he : env'.Exact) (hdec : env'.Decides) (hv : ValidFamily fam)
    (hy : ∀ i, raw.y i ∈ yDom fam) (h1 : o.l1 ≤ 0) (h1' : o'.l1 ≤ 0)
    (h2 : o'.l2 = m / τ ^ 2 * o.l2) (hφ : freeDispersion fam ∨ m = 1) :
    ErrorsAfterChange τ r m env' f f' := by
  have hl := rowLaw hc
  have hτ := hl.τ0
  have hr0 := hl.r0
  have hm := hl.mpos
  have hd' : (changeResponse φ τ raw).finalize std b = some (changeResponse φ τ d) := by
    rw [C82_build, hd]; rfl
  have hg := Family.lawfulAdj fam
  have H := C82_statistics hc hs hd hf hf' hres he hdec hv hy h1 h1' h2
  obtain ⟨hyh, hrr, hrw, hrp, hdt⟩ := change_basic hc hs hd hf hf' hres hy
  obtain ⟨g1, g2, g3, hr⟩ := regression_ofRaw hd hf
  obtain ⟨k1, k2, k3, hr'⟩ := regression_ofRaw hd' hf'
  have hgg : f'.g = f.g := k1.trans g1.symm
  have hww : f'.data.weights = f.data.weights := by rw [g2, k2]; rfl
  have hff : f'.data.freqs = f.data.freqs := by rw [g2, k2]; rfl
  have hfw : f'.data.applyFreqWeights = f.data.applyFreqWeights := by
    funext v; unfold Dataset.applyFreqWeights; rw [hff]
  have hfs : f'.data.freqSum = f.data.freqSum := by
    funext v; unfold Dataset.freqSum; rw [hfw]
  have hno : f'.data.nObs = f.data.nObs := by unfold Dataset.nObs; rw [hff]
  have hne : f'.data.nEff = f.data.nEff := by unfold Dataset.nEff; rw [hww, hno, hfs]
  have hsw : f'.data.sumWeights = f.data.sumWeights := by
    unfold Dataset.sumWeights; rw [hww, hno, hfs]
  have hrk : f'.rank = f.rank := rfl
  have hndf : f'.ndf = f.ndf := by unfold Fit.ndf; rw [hno, hrk]
  have hsg : (r / |r|) ^ 2 = 1 := by
    rw [div_pow, sq_abs, div_self (pow_ne_zero _ hr0)]
  have hsm := Real.sq_sqrt hm.le
  have hp2 : ∀ i, f'.residPear i * f'.residPear i = m * (f.residPear i * f.residPear i) := fun i => by
    rw [hrp]
    linear_combination (f.residPear i) ^ 2 * ((Real.sqrt m) ^ 2 * hsg + hsm)
  have hdisp : f'.dispersion = m * f.dispersion := by
    unfold Fit.dispersion
    rw [hgg, hrk, hne, hsw, H.deviance]
    rcases hφ with hφ | hφ
    · have hfree : f.g.dispersed = .free := by
        rw [g1]; cases fam <;> first | rfl | simp [freeDispersion] at hφ
      rw [hfree]
      exact mul_div_assoc _ _ _
    · rw [hφ]; cases f.g.dispersed <;> simp
  have hfac : m / τ ^ 2 ≠ 0 := (by positivity : 0 < m / τ ^ 2).ne'
  have hF : Matrix.of (f'.fisher f'.result) = (m / τ ^ 2) • Matrix.of (f.fisher f.result) := by
    rw [hres, H.fisher]; rfl
  have hdet : IsUnit (Matrix.of (f'.fisher f'.result)).det
      ↔ IsUnit (Matrix.of (f.fisher f.result)).det := by
    rw [hF, det_smul, IsUnit.mul_iff]
    exact and_iff_right (isUnit_iff_ne_zero.mpr (pow_ne_zero _ hfac))
  have hcov : f'.covariance env' = (f.covariance env').map fun V j k => τ ^ 2 * V j k := by
    by_cases hu : IsUnit (Matrix.of (f.fisher f.result)).det
    · obtain ⟨V, hV⟩ := covariance_regular he hu
      obtain ⟨V', hV'⟩ := covariance_regular he (hdet.mpr hu)
      rw [hV, hV']
      refine congrArg Except.ok (Matrix.of.injective ?_)
      have hinv : (Matrix.of (f'.fisher f'.result))⁻¹
          = (τ ^ 2 / m) • (Matrix.of (f.fisher f.result))⁻¹ := by
        rw [hF]
        refine inv_eq_right_inv ?_
        rw [Matrix.smul_mul, Matrix.mul_smul, mul_nonsing_inv _ hu, smul_smul]
        rw [show m / τ ^ 2 * (τ ^ 2 / m) = 1 by field_simp, one_smul]
      change Matrix.of V' = τ ^ 2 • Matrix.of V
      rw [(covariance_eq hg hd hf he hV).2, (covariance_eq hg hd' hf' he hV').2, hinv, hres,
        fisherMat_change hl hs, hdisp]
      simp only [Matrix.smul_mul, Matrix.mul_smul, smul_smul]
      congr 1
      field_simp
    · rw [covariance_singular hdec hu, covariance_singular hdec fun hc => hu (hdet.mp hc)]
      rfl
  have hsq0 : Real.sqrt m ≠ 0 := (Real.sqrt_pos.mpr hm).ne'
  have hstd : ∀ h x : ℝ, r / |r| * Real.sqrt m * x / Real.sqrt ((-h + 1) * (m * f.dispersion))
      = r / |r| * (x / Real.sqrt ((-h + 1) * f.dispersion)) := fun h x => by
    rw [show (-h + 1) * (m * f.dispersion) = m * ((-h + 1) * f.dispersion) by ring,
      Real.sqrt_mul hm.le, mul_assoc, mul_div_assoc, mul_div_mul_left _ _ hsq0]
  have hloo : f'.devianceTermsLoo env' = (f.devianceTermsLoo env').map fun v i => m * v i := by
    unfold Fit.devianceTermsLoo
    rw [H.leverage]
    cases f.leverage env' with
    | error e => rfl
    | ok lev =>
      refine congrArg Except.ok (funext fun i => ?_)
      dsimp only
      rw [hp2, hdt]; ring
  have hdl : f.g.dispersed = .free →
      f'.dispersionLoo env' = (f.dispersionLoo env').map fun v i => m * v i := by
    intro hfree
    unfold Fit.dispersionLoo
    rw [hgg, hfree, H.leverage, hww, hff, hfw, hfs, hndf, hrk, H.deviance]
    cases f.leverage env' with
    | error e => rfl
    | ok lev =>
      have ht : ∀ i, f.data.applyFreqWeights (fun i => f'.devianceTerms i + lev i / (1 - lev i)
            * (f'.residPear i * f'.residPear i)) i
          = m * f.data.applyFreqWeights (fun i => f.devianceTerms i + lev i / (1 - lev i)
            * (f.residPear i * f.residPear i)) i := fun i => by
        simp only [Dataset.applyFreqWeights_real, hp2, hdt]; ring
      cases f.data.weights with
      | none =>
        cases f.data.freqs with
        | none =>
          refine congrArg Except.ok (funext fun i => ?_)
          dsimp only
          rw [ht]; ring
        | some fr =>
          refine congrArg Except.ok (funext fun i => ?_)
          dsimp only
          rw [ht]; ring
      | some w =>
        refine congrArg Except.ok (funext fun i => ?_)
        dsimp only
        rw [ht]; ring
  refine
    { dispersion := hdisp
      covariance := hcov
      cooks := ?_
      residPearStd := ?_
      residDevStd := ?_
      residStudent := ?_
      waldZ := ?_ }
  · unfold Fit.cooks
    rw [H.leverage, hdisp, hrk]
    cases f.leverage env' with
    | error e => rfl
    | ok lev =>
      refine congrArg Except.ok (funext fun i => ?_)
      dsimp only
      rw [hp2, show f.rank * (m * f.dispersion) = m * (f.rank * f.dispersion) by ring, mul_assoc,
        mul_div_mul_left _ _ hm.ne']
  · unfold Fit.residPearStd
    rw [H.leverage, hdisp]
    cases f.leverage env' with
    | error e => rfl
    | ok lev =>
      refine congrArg Except.ok (funext fun i => ?_)
      dsimp only
      rw [hrp]
      exact hstd _ _
  · unfold Fit.residDevStd
    rw [H.leverage, hdisp]
    cases f.leverage env' with
    | error e => rfl
    | ok lev =>
      refine congrArg Except.ok (funext fun i => ?_)
      dsimp only
      rw [H.residDev]
      exact hstd _ _
  · have hz : ∀ v, f.devianceTermsLoo env' = .ok v → ∀ i, f.residResp i = 0 → v i = 0 := by
      intro v hv' i h0
      unfold Fit.devianceTermsLoo at hv'
      cases hle : f.leverage env' with
      | error e => rw [hle] at hv'; cases hv'
      | ok lev =>
        rw [hle] at hv'
        have e := congrFun (Except.ok.inj hv') i
        rw [← e]
        have hpz : f.residPear i = 0 := by simp only [Fit.residPear, h0, mul_zero]
        dsimp only
        rw [hpz, devianceTerms_zero hv (responseChange_predDom hc) hd hf h0]
        ring
    have hfin : ∀ (v : Vec ℝ n), (∀ i, f.residResp i = 0 → v i = 0) →
        (fun i => Scalar.signum (f'.residResp i) * Scalar.sqrt (v i))
          = fun i => r / |r| * (Scalar.signum (f.residResp i) * Scalar.sqrt (v i)) := by
      intro v hv'
      funext i
      have e := signum_mul_sqrt hr0 one_pos (hv' i)
      rw [one_mul, Real.sqrt_one, mul_one] at e
      rw [hrr]; exact e
    unfold Fit.residStudent
    rw [hgg, hloo]
    cases hL : f.devianceTermsLoo env' with
    | error e => rfl
    | ok v =>
      cases hD : f.g.dispersed with
      | none =>
        have hm1 : m = 1 := by
          rcases hφ with hφ | hφ
          · exfalso
            have hfree : f.g.dispersed = .free := by
              rw [g1]; cases fam <;> first | rfl | simp [freeDispersion] at hφ
            rw [hfree] at hD; cases hD
          · exact hφ
        refine congrArg Except.ok ?_
        simp only [hm1, one_mul]
        exact hfin v (hz v hL)
      | free =>
        rw [hdl hD]
        cases hP : f.dispersionLoo env' with
        | error e => rfl
        | ok w =>
          refine congrArg Except.ok ?_
          have e : (vdiv (fun i => m * v i) fun i => m * w i : Vec ℝ n) = vdiv v w :=
            funext fun i => mul_div_mul_left _ _ hm.ne'
          rw [e]
          refine hfin _ fun i h0 => ?_
          simp only [vdiv, hz v hL i h0, zero_div]
  · intro z hz
    unfold Fit.waldZ at hz ⊢
    rw [hcov]
    cases hV : f.covariance env' with
    | error e => rw [hV] at hz; cases hz
    | ok V =>
      rw [hV] at hz
      have e := Except.ok.inj hz
      refine ⟨_, rfl, fun j => ?_⟩
      have hq : ∀ v : ℝ, Real.sqrt (τ ^ 2 * v) = |τ| * Real.sqrt v := fun v => by
        rw [Real.sqrt_mul (sq_nonneg _), Real.sqrt_sq_eq_abs]
      have hsl : ∀ β x : ℝ, τ * β / Real.sqrt (τ ^ 2 * x) = τ / |τ| * (β / Real.sqrt x) :=
        fun β x => by rw [hq, mul_div_mul_comm]
      rw [← e, hres]
      cases b
      · exact hsl _ _
      · exact hsl _ _

/-- **C82**: the comparisons with the null model follow, too; R² does not change. -/
theorem C82_tests {env' : Env ℝ} (he : env'.Exact) (hdec : env'.Decides) (hv : ValidFamily fam)
    (hy : ∀ i, raw.y i ∈ yDom fam) (h1 : o.l1 ≤ 0) (h1' : o'.l1 ≤ 0)
    (h2 : o'.l2 = m / τ ^ 2 * o.l2) (hW : weightSum raw ≠ 0)
    (hb : (b = true ∧ raw.linearOffset = none ∧ meanY raw ∈ meanDom fam) ∨ (b = false ∧ p ≠ 0)) :
    TestsAfterChange m env' f f' := by
  have hl := rowLaw hc
  have hm := hl.mpos
  have hd' : (changeResponse φ τ raw).finalize std b = some (changeResponse φ τ d) := by
    rw [C82_build, hd]; rfl
  have H := C82_statistics hc hs hd hf hf' hres he hdec hv hy h1 h1' h2
  have hW' : weightSum (changeResponse φ τ raw) ≠ 0 := hW
  have key : ∃ v v' par, f.nullModelFit env' = .ok (v, par) ∧
      f'.nullModelFit env' = .ok (v', changeCoef τ s par) := by
    rcases hb with ⟨rfl, ho, hmy⟩ | ⟨rfl, hp⟩
    · have ho' : (changeResponse φ τ raw).linearOffset = none := by
        change raw.linearOffset.map _ = none
        rw [ho]; rfl
      have hmean : meanY (changeResponse φ τ raw) = φ (meanY raw) := by
        obtain ⟨q, hq⟩ := hl.aff
        rw [hq, meanY, meanY, div_eq_iff hW', add_mul]
        change ∑ i, totalWt raw i * φ (raw.y i) = _
        have e : weightSum (changeResponse φ τ raw) = weightSum raw := rfl
        rw [e, mul_assoc, div_mul_cancel₀ _ hW]
        simp only [hq, weightSum, Finset.mul_sum, ← Finset.sum_add_distrib]
        exact Finset.sum_congr rfl fun i _ => by ring
      have e : linkFn fam (φ (meanY raw)) = τ * linkFn fam (meanY raw) + s := by
        rw [← func_eq_linkFn, ← func_eq_linkFn, hl.func _ hmy]
      have e2 : (interceptOnly (τ * linkFn fam (meanY raw) + s) : Vec ℝ (ncols true p))
          = changeCoef τ s (interceptOnly (linkFn fam (meanY raw)) : Vec ℝ (ncols true p)) := by
        funext j
        refine Fin.cases ?_ (fun j => ?_) j
        · rfl
        · exact (mul_zero τ).symm
      have n1 := (C37_intercept (env' := env') hd' hf' ho' hW').1
      rw [hmean, e, e2] at n1
      exact ⟨_, _, _, (C37_intercept hd hf ho hW).1, n1⟩
    · have n1 := (C37_no_intercept (env' := env') hd' hf' hp fun _ => hW').1
      have e : (0 : Vec ℝ (ncols false p)) = changeCoef τ s (0 : Vec ℝ (ncols false p)) :=
        funext fun j => (mul_zero τ).symm
      rw [e] at n1
      exact ⟨_, _, _, (C37_no_intercept hd hf hp fun _ => hW).1, n1⟩
  obtain ⟨v, v', par, hn, hn'⟩ := key
  obtain ⟨c1, c2, c3⟩ := C38_lr_null hd hf (fun _ => hW) hn
  obtain ⟨d1, d2, d3⟩ := C38_lr_null hd' hf' (fun _ => hW') hn'
  refine ⟨⟨_, c1, ?_⟩, ⟨_, c2, ?_⟩, ?_, ⟨f.lrTestAgainst par / (f.lrTestAgainst par + f.deviance),
    ?_, ?_⟩⟩
  · rw [d1, H.lrAgainst]
  · rw [d2, H.waldAgainst]
  · rw [d3, c3, H.scoreAgainst]
    cases f.scoreTestAgainst env' par <;> rfl
  · rw [Fit.rSq, c1]; rfl
  · rw [Fit.rSq, d1, H.lrAgainst, H.deviance]
    refine congrArg Outcome.ok ?_
    dsimp only
    rw [← mul_add, mul_div_mul_left _ _ hm.ne']

end statistics

/-- **C82** (Linear, any tolerance): without penalties and with machine epsilon zero the two fits
have corresponding results from any starts and with any tolerances. -/
theorem C82_linear {raw : Dataset ℝ n p false} {std : Bool} {d : Dataset ℝ n p b}
    {o o' : FitOptions ℝ (ncols b p)} {env : Env ℝ} {a : ℝ} (ha : a ≠ 0) (hs : b = true ∨ s = 0)
    (he : env.Exact) (heps : env.eps = 0) (hd : raw.finalize std b = some d)
    (hw : ∀ i, 0 ≤ totalWt raw i) (hr : IsUnit (gram raw b).det) (h1 : o.l1 ≤ 0) (h2 : o.l2 ≤ 0)
    (hm : 1 ≤ o.maxIter) (h1' : o'.l1 ≤ 0) (h2' : o'.l2 ≤ 0) (hm' : 1 ≤ o'.maxIter) :
    ∃ f f', regression env Family.linear.glm d o = .ok f ∧
      regression env Family.linear.glm (changeResponse (fun y => a * y + s) a d) o' = .ok f' ∧
      f'.result = changeCoef a s f.result := by
  have hl := rowLaw (.linear ha s)
  have hd' : (changeResponse (fun y => a * y + s) a raw).finalize std b
      = some (changeResponse (fun y => a * y + s) a d) := by rw [C82_build, hd]; rfl
  have hβ := (lin_score_zero_iff (raw := raw) hr).mpr rfl
  set β := lsMat raw b *ᵥ fun i => raw.y i - offset raw i
  have hβ' : scoreVec linG (changeResponse (fun y => a * y + s) a raw) b (changeCoef a s β) = 0 := by
    rw [scoreVec_change hl hs, hβ, smul_zero]
  have hw' : ∀ i, 0 ≤ totalWt (changeResponse (fun y => a * y + s) a raw) i := hw
  obtain ⟨f, hf, e, -⟩ := C57_exact_least_squares
    (⟨he, hd, h1, h2, hw, hr, (isLeastSquares_iff hw _).mpr hβ⟩ : LinSetting env raw std d o β) heps hm
  obtain ⟨f', hf', e', -⟩ := C57_exact_least_squares
    (⟨he, hd', h1', h2', hw', hr, (isLeastSquares_iff hw' _).mpr hβ'⟩ :
      LinSetting env (changeResponse (fun y => a * y + s) a raw) std _ o' _) heps hm'
  exact ⟨f, f', hf, hf', by rw [e, e']⟩

/-! ### Non-vacuity -/

theorem exRaw_meanY_014 : weightSum (exRaw ![0, 1, 4]) ≠ 0 := by
  simp only [weightSum, exRaw_totalWt, Fin.sum_univ_three]; simp; norm_num

/-- A regression of temperatures in degrees Celsius and in degrees Fahrenheit. -/
example : ∃ f f' : Fit ℝ 3 1 true, f.result = ![-1 / 2, 2] ∧ f'.result = ![311 / 10, 18 / 5] ∧
    FitAfterChange (fun y => 9 / 5 * y + 32) (9 / 5) 32 (9 / 5) ((9 / 5) ^ 2) (exactEnv 0 0) f f' ∧
    ErrorsAfterChange (9 / 5) (9 / 5) ((9 / 5) ^ 2) (exactEnv 0 0) f f' ∧
    TestsAfterChange ((9 / 5) ^ 2) (exactEnv 0 0) f f' := by
  obtain ⟨d, f₀, hd, hf₀, hr₀⟩ := exLinFit true
  obtain ⟨f, f', hf, hf', hr⟩ := C82_linear (a := 9 / 5) (s := 32) (o := exOpts 0 0 none 1)
    (o' := exOpts 0 0 none 1) (by norm_num)
    (Or.inl rfl) (exactEnv_exact le_rfl 0) rfl hd (fun i => (exRaw_totalWt_pos _ i).le)
    (exRaw_gram_det _) le_rfl le_rfl le_rfl le_rfl le_rfl le_rfl
  obtain rfl : f₀ = f := Outcome.ok.inj (hf₀.symm.trans hf)
  have hc : ResponseChange .linear (fun y => 9 / 5 * y + 32) (9 / 5) 32 (9 / 5) ((9 / 5) ^ 2) :=
    .linear (by norm_num) 32
  have h2 : (exOpts 0 0 none 1 : FitOptions ℝ (ncols true 1)).l2
      = (9 / 5) ^ 2 / (9 / 5) ^ 2 * (exOpts 0 0 none 1 : FitOptions ℝ (ncols true 1)).l2 := by
    norm_num
  refine ⟨f₀, f', hr₀, ?_, ?_, ?_, ?_⟩
  · rw [hr, hr₀]
    funext j
    refine Fin.cases ?_ (fun j => ?_) j
    · simp only [changeCoef]; norm_num
    · fin_cases j; simp only [changeCoef]; norm_num
  · exact C82_statistics hc (Or.inl rfl) hd hf hf' hr (exactEnv_exact le_rfl 0) (exactEnv_decides 0 0)
      trivial (fun _ => trivial) le_rfl le_rfl h2
  · exact C82_errors hc (Or.inl rfl) hd hf hf' hr (exactEnv_exact le_rfl 0) (exactEnv_decides 0 0)
      trivial (fun _ => trivial) le_rfl le_rfl h2 (Or.inl rfl)
  · exact C82_tests hc (Or.inl rfl) hd hf hf' hr (exactEnv_exact le_rfl 0) (exactEnv_decides 0 0)
      trivial (fun _ => trivial) le_rfl le_rfl h2 exRaw_meanY_014 (Or.inl ⟨rfl, rfl, trivial⟩)

/-- Hypotheses of `C82_run` with a positive tolerance: successes and failures exchanged. -/
example : ∃ d κ, exGroups.finalize false true = some d ∧
    Related (ErrorAfterChange (-1) 0 1 κ d) (CourseAfterChange (-1) 0 1 κ)
      (regression (exactEnv (1 / 10) 50) Family.logisticLogit.glm d (exOpts 0 1 (some fun _ => 1) 7))
      (regression (exactEnv (1 / 10) 50) Family.logisticLogit.glm
        (changeResponse (fun y => 1 - y) (-1) d)
        (changeOptions (-1) 0 1 (exOpts 0 1 (some fun _ => 1) 7))) := by
  obtain ⟨d, hd⟩ : ∃ d, exGroups.finalize false true = some d := ⟨_, rfl⟩
  obtain ⟨κ, h⟩ := C82_run (o := exOpts 0 1 (some fun _ => 1) 7)
    (exactEnv_exact (eps := 1 / 10) (by norm_num) 50) (exactEnv_decides _ _) .logisticLogit
    (Or.inr rfl) (Or.inr (by norm_num)) hd (fun i => by simp [totalWt, freq, varWt, exGroups]) le_rfl
    (Or.inr ⟨rfl, rfl⟩) (fun h => by cases h)
  exact ⟨d, κ, hd, h⟩

/-- Hypotheses of `C82_run` with the crate's own start: positive amounts in another currency. -/
example : ∃ d κ, (exRaw ![1, 2, 4]).finalize true true = some d ∧
    Related (ErrorAfterChange 1 (Real.log 7) 1 κ d) (CourseAfterChange 1 (Real.log 7) 1 κ)
      (regression (exactEnv (1 / 10) 50) Family.gammaLog.glm d (exOptsZero none))
      (regression (exactEnv (1 / 10) 50) Family.gammaLog.glm (changeResponse (fun y => 7 * y) 1 d)
        (changeOptions 1 (Real.log 7) 1 (exOptsZero none))) := by
  obtain ⟨d, hd⟩ := exRaw_finalize ![1, 2, 4] true true
  have hy : ∀ i, ((exRaw ![1, 2, 4]).y i + (∑ k, (exRaw ![1, 2, 4]).y k) / (3 : ℕ)) / 2
      ∈ meanDom .gammaLog := by
    intro i
    change (0 : ℝ) < _
    have e : (![1, 2, 4] : Fin 3 → ℝ) 2 = 4 := rfl
    simp only [exRaw, Fin.sum_univ_three]
    fin_cases i <;> norm_num [e]
  obtain ⟨κ, h⟩ := C82_run (o := exOptsZero none)
    (exactEnv_exact (eps := 1 / 10) (by norm_num) 50) (exactEnv_decides _ _)
    (.gammaLog (c := 7) (by norm_num)) (Or.inl rfl) (Or.inr (by norm_num)) hd
    (fun i => (exRaw_totalWt_pos _ i).le) le_rfl (Or.inl rfl) (fun _ => ⟨exRaw_gram_det _, hy⟩)
  exact ⟨d, κ, hd, h⟩

end GLM
