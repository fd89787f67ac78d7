/-
  C76: what the reported quantities mean when the responses are random.
-/
import Verif.Spec.Sampling
import Verif.Props.Gradient
import Verif.Lemmas.Witness
import Mathlib.Probability.Distributions.Gaussian.Real
import Mathlib.Probability.Independence.Basic

open MeasureTheory ProbabilityTheory

namespace GLM
open Spec
open Matrix hiding gram
variable {n p : ℕ} {b : Bool} {env env' : Env ℝ} {raw : Dataset ℝ n p false} {std : Bool}
  {fam : Family} {Ω : Type*} [MeasurableSpace Ω] {P : Measure Ω} {Y : Ω → Vec ℝ n}
  {m v : Fin n → ℝ}

/-! ### Affine functions of the responses -/

namespace Spec.RandomResponses
variable (hY : RandomResponses P Y m v)
include hY

theorem integrable (i : Fin n) : Integrable (fun ω => Y ω i) P := by
  have := hY.prob
  exact (hY.sq i).integrable (by norm_num)

theorem memLp_lin (a : Fin n → ℝ) : MemLp (fun ω => ∑ i, a i * Y ω i) 2 P :=
  memLp_finsetSum (f := fun i ω => a i * Y ω i) _ fun i _ => (hY.sq i).const_mul (a i)

theorem memLp_affine (c : ℝ) (a : Fin n → ℝ) : MemLp (fun ω => c + ∑ i, a i * Y ω i) 2 P := by
  have := hY.prob
  exact (memLp_const c).add (hY.memLp_lin a)

theorem mean_lin (a : Fin n → ℝ) : ∫ ω, ∑ i, a i * Y ω i ∂P = ∑ i, a i * m i := by
  rw [integral_finsetSum _ fun i _ => (hY.integrable i).const_mul (a i)]
  exact Finset.sum_congr rfl fun i _ => by rw [integral_const_mul, hY.mean]

theorem mean_affine (c : ℝ) (a : Fin n → ℝ) :
    ∫ ω, (c + ∑ i, a i * Y ω i) ∂P = c + ∑ i, a i * m i := by
  have := hY.prob
  rw [integral_add (integrable_const c) ((hY.memLp_lin a).integrable (by norm_num)),
    integral_const, hY.mean_lin]
  simp

theorem cov_affine (c c' : ℝ) (a a' : Fin n → ℝ) :
    cov[fun ω => c + ∑ i, a i * Y ω i, fun ω => c' + ∑ i, a' i * Y ω i; P]
      = ∑ i, a i * a' i * v i := by
  have := hY.prob
  rw [covariance_const_add_left ((hY.memLp_lin a).integrable (by norm_num)),
    covariance_const_add_right ((hY.memLp_lin a').integrable (by norm_num)),
    covariance_fun_sum_fun_sum (X := fun i ω => a i * Y ω i) (Y := fun i ω => a' i * Y ω i)
      (fun i => (hY.sq i).const_mul (a i)) fun i => (hY.sq i).const_mul (a' i)]
  refine Finset.sum_congr rfl fun i _ => ?_
  rw [Finset.sum_eq_single i]
  · rw [covariance_const_mul_left, covariance_const_mul_right,
      covariance_self (hY.sq i).aestronglyMeasurable.aemeasurable, hY.var]
    ring
  · intro j _ hj
    rw [covariance_const_mul_left, covariance_const_mul_right, hY.uncorrelated i j hj.symm,
      mul_zero, mul_zero]
  · simp

end Spec.RandomResponses

/-! ### The score and the information -/

section
variable {d : Ω → Dataset ℝ n p b} {options : FitOptions ℝ (ncols b p)} {f : Ω → Fit ℝ n p b}
  {φ : ℝ} {β : Vec ℝ (ncols b p)}

/-- **C76**: if the coefficients `β` are the true ones (the responses are uncorrelated, with the means
of the model at `β` and variances `φ V(μ_i) / w_i`), the score of an unregularized fit at `β` has
expectation zero and its covariance matrix is `φ` times the reported information.  For every family
and link, canonical or not, with and without standardization. -/
theorem C76_score (hfr : raw.freqs = none) (hw : ∀ i, varWt raw i ≠ 0)
    (hY : RandomResponses P Y (meanAt fam.glm raw b β)
      fun i => φ * varianceFn fam (meanAt fam.glm raw b β i) / varWt raw i)
    (hd : ∀ ω, (withResponses raw (Y ω)).finalize std b = some (d ω))
    (h : ∀ ω, regression env fam.glm (d ω) options = .ok (f ω))
    (hl1 : options.l1 ≤ 0) (hl2 : options.l2 ≤ 0) (j k : Fin (ncols b p)) :
    ∫ ω, (f ω).score β j ∂P = 0 ∧
    ∀ ω₀, cov[fun ω => (f ω).score β j, fun ω => (f ω).score β k; P] = φ * (f ω₀).fisher β j k := by
  set a : Fin (ncols b p) → Fin n → ℝ := fun j i =>
    totalWt raw i * (fam.glm (F := ℝ)).link.dNatParam (linPred raw b β i) * design b raw.x i j
    with ha
  set c : Fin (ncols b p) → ℝ := fun j => -∑ i, a j i * meanAt fam.glm raw b β i with hc
  have hs : ∀ j ω, (f ω).score β j = c j + ∑ i, a j i * Y ω i := by
    intro j ω
    obtain ⟨-, h2, -⟩ := C10_external (Family.lawfulAdj fam) (hd ω) hl1 (h ω)
    have e : penScore fam.glm (withResponses raw (Y ω)) b options.l1 options.l2 (scale (d ω)) β j
        = scoreVec fam.glm (withResponses raw (Y ω)) b β j := by
      simp [penScore, max_eq_right hl1, max_eq_right hl2, onSlopes_zero]
    rw [h2, e, hc, ha]
    simp only [scoreVec]
    rw [← Finset.sum_neg_distrib, ← Finset.sum_add_distrib]
    refine Finset.sum_congr rfl fun i _ => ?_
    change totalWt raw i * _ * (Y ω i - meanAt fam.glm raw b β i) * _ = _
    simp only [linPred, offset, withResponses]
    ring
  simp only [hs]
  refine ⟨?_, fun ω₀ => ?_⟩
  · rw [hY.mean_affine, hc, neg_add_cancel]
  · obtain ⟨-, -, h3, -⟩ := C10_external (Family.lawfulAdj fam) (hd ω₀) hl1 (h ω₀)
    have e := congrFun (congrFun (h3 β) j) k
    rw [ridgeMat, max_eq_right hl2] at e
    simp only [zero_mul, onSlopes_zero, of_apply] at e
    rw [hY.cov_affine, e]
    simp only [Matrix.add_apply, fisherMat]
    rw [show (diagonal fun _ : Fin (ncols b p) => (0 : ℝ)) j k = 0 by
      rw [diagonal_apply]; split <;> rfl, add_zero, Finset.mul_sum]
    refine Finset.sum_congr rfl fun i _ => ?_
    have h1 : totalWt raw i = varWt raw i := by simp [totalWt, freq, hfr]
    have h2 : totalWt (withResponses raw (Y ω₀)) i = varWt raw i := h1
    have h4 : linPred (withResponses raw (Y ω₀)) b β i = linPred raw b β i := rfl
    have h5 : meanAt fam.glm (withResponses raw (Y ω₀)) b β i = meanAt fam.glm raw b β i := rfl
    have h6 : (withResponses raw (Y ω₀)).x = raw.x := rfl
    rw [h2, h4, h5, h6, variance_real]
    simp only [ha, h1]
    field_simp [hw i]

/-! ### Least squares -/

/-- The matrix that maps responses (minus offset) to least-squares coefficients. -/
noncomputable def lsMat (raw : Dataset ℝ n p false) (b : Bool) : Matrix (Fin (ncols b p)) (Fin n) ℝ :=
  (gram raw b)⁻¹ * (design b raw.x)ᵀ * diagonal (totalWt raw)

theorem gram_eq (raw : Dataset ℝ n p false) (b : Bool) :
    gram raw b = (design b raw.x)ᵀ * diagonal (totalWt raw) * design b raw.x := by
  ext j k
  rw [Matrix.mul_apply]
  simp only [mul_diagonal, transpose_apply, gram]
  exact Finset.sum_congr rfl fun i _ => by ring

theorem lsMat_design (hr : IsUnit (gram raw b).det) : lsMat raw b * design b raw.x = 1 := by
  rw [lsMat, Matrix.mul_assoc, Matrix.mul_assoc, ← Matrix.mul_assoc (design b raw.x)ᵀ, ← gram_eq,
    nonsing_inv_mul _ hr]

theorem lin_score_eq (raw : Dataset ℝ n p false) (b : Bool) (β : Vec ℝ (ncols b p)) :
    scoreVec linG raw b β = ((design b raw.x)ᵀ * diagonal (totalWt raw))
      *ᵥ (fun i => raw.y i - offset raw i) - gram raw b *ᵥ β := by
  funext j
  rw [lin_score, gram_eq, ← mulVec_mulVec β, ← mulVec_sub]
  simp only [mulVec, dotProduct, mul_diagonal, transpose_apply, Pi.sub_apply, linPred]
  exact Finset.sum_congr rfl fun i _ => by ring

/-- The coefficients at which the least-squares score vanishes are linear in the responses. -/
theorem lin_score_zero_iff (hr : IsUnit (gram raw b).det) {β : Vec ℝ (ncols b p)} :
    scoreVec linG raw b β = 0 ↔ β = lsMat raw b *ᵥ fun i => raw.y i - offset raw i := by
  rw [lin_score_eq, sub_eq_zero]
  constructor
  · intro h1
    have h2 := congrArg ((gram raw b)⁻¹ *ᵥ ·) h1
    simp only [mulVec_mulVec, nonsing_inv_mul _ hr, one_mulVec, ← Matrix.mul_assoc] at h2
    exact h2.symm
  · rintro rfl
    rw [mulVec_mulVec, lsMat, Matrix.mul_assoc _ _ (diagonal _), ← Matrix.mul_assoc,
      mul_nonsing_inv _ hr, Matrix.one_mul]

/-- Dividing the weights out again: `A W⁻¹ Aᵀ = G⁻¹`. -/
theorem lsMat_cov (hr : IsUnit (gram raw b).det) (hw : ∀ i, totalWt raw i ≠ 0) :
    lsMat raw b * diagonal (fun i => (totalWt raw i)⁻¹) * (lsMat raw b)ᵀ = (gram raw b)⁻¹ := by
  have h1 : diagonal (totalWt raw) * diagonal (fun i => (totalWt raw i)⁻¹) = 1 := by
    rw [diagonal_mul_diagonal, ← diagonal_one]
    congr 1; funext i; exact mul_inv_cancel₀ (hw i)
  have h2 : lsMat raw b * diagonal (fun i => (totalWt raw i)⁻¹)
      = (gram raw b)⁻¹ * (design b raw.x)ᵀ := by
    rw [lsMat, Matrix.mul_assoc, h1, Matrix.mul_one]
  have h3 : (lsMat raw b)ᵀ = diagonal (totalWt raw) * design b raw.x * (gram raw b)⁻¹ := by
    rw [lsMat, transpose_mul, transpose_mul, transpose_transpose, diagonal_transpose,
      transpose_nonsing_inv, gram_symm, Matrix.mul_assoc]
  rw [h2, h3, Matrix.mul_assoc, ← Matrix.mul_assoc (design b raw.x)ᵀ,
    ← Matrix.mul_assoc (design b raw.x)ᵀ, ← gram_eq, mul_nonsing_inv _ hr, Matrix.mul_one]

section
variable (hfr : raw.freqs = none) (hw : ∀ i, 0 < varWt raw i) (hr : IsUnit (gram raw b).det)
  (hY : RandomResponses P Y (linPred raw b β) fun i => φ / varWt raw i)
  (hd : ∀ ω, (withResponses raw (Y ω)).finalize std b = some (d ω))
  (h : ∀ ω, regression env Family.linear.glm (d ω) options = .ok (f ω))
  (hl1 : options.l1 ≤ 0) (hl2 : options.l2 ≤ 0) (hs : ∀ ω, (f ω).score (f ω).result = 0)

omit [MeasurableSpace Ω] in
include hr hd h hl1 hl2 hs in
theorem result_eq_lsMat (ω : Ω) :
    (f ω).result = lsMat raw b *ᵥ fun i => Y ω i - offset raw i := by
  obtain ⟨-, h2, -⟩ := C10_external (Family.lawfulAdj .linear) (hd ω) hl1 (h ω)
  refine (lin_score_zero_iff (raw := withResponses raw (Y ω)) hr).mp ?_
  rw [← hs ω, h2]
  funext j
  simp [penScore, max_eq_right hl1, max_eq_right hl2, onSlopes_zero]

include hfr hw hr hY hd h hl1 hl2 hs

/-- **C76**: unregularized least squares is unbiased, and the covariance matrix of the coefficients is
`φ` times the inverse of the reported information. -/
theorem C76_linear_coef (j k : Fin (ncols b p)) :
    ∫ ω, (f ω).result j ∂P = β j ∧
    ∀ ω₀, cov[fun ω => (f ω).result j, fun ω => (f ω).result k; P]
      = φ * (Matrix.of ((f ω₀).fisher (f ω₀).result))⁻¹ j k := by
  have hwt : ∀ i, totalWt raw i = varWt raw i := fun i => by simp [totalWt, freq, hfr]
  have hw0 : ∀ i, totalWt raw i ≠ 0 := fun i => by rw [hwt]; exact (hw i).ne'
  have he : ∀ j ω, (f ω).result j = -∑ i, lsMat raw b j i * offset raw i
      + ∑ i, lsMat raw b j i * Y ω i := by
    intro j ω
    rw [result_eq_lsMat hr hd h hl1 hl2 hs, mulVec, dotProduct, ← Finset.sum_neg_distrib,
      ← Finset.sum_add_distrib]
    exact Finset.sum_congr rfl fun i _ => by ring
  simp only [he]
  refine ⟨?_, fun ω₀ => ?_⟩
  · rw [hY.mean_affine, ← Finset.sum_neg_distrib, ← Finset.sum_add_distrib]
    have h1 : (lsMat raw b * design b raw.x) *ᵥ β = β := by rw [lsMat_design hr, one_mulVec]
    have h2 := congrFun h1 j
    rw [← mulVec_mulVec] at h2
    rw [← h2]
    simp only [mulVec, dotProduct, linPred]
    exact Finset.sum_congr rfl fun i _ => by ring
  · obtain ⟨-, -, h3, -⟩ := C10_external (Family.lawfulAdj .linear) (hd ω₀) hl1 (h ω₀)
    have hF : Matrix.of ((f ω₀).fisher (f ω₀).result) = gram raw b := by
      rw [h3, ridgeMat, max_eq_right hl2, lin_fisher]; simp [onSlopes_zero]; rfl
    rw [hY.cov_affine, hF, ← lsMat_cov hr hw0, Matrix.mul_apply, Finset.mul_sum]
    refine Finset.sum_congr rfl fun i _ => ?_
    rw [mul_diagonal, transpose_apply, hwt, div_eq_mul_inv]
    ring

omit hr hl2 in
/-- **C76**: with a ridge penalty the covariance matrix of the coefficients is `φ` times the sandwich
that `covariance()` multiplies by the dispersion, so the two are in the ratio of `φ` to the reported
dispersion. -/
theorem C76_ridge_covariance (he : env'.Exact) {ω₀ : Ω} {C : Mat ℝ (ncols b p) (ncols b p)}
    (hC : (f ω₀).covariance env' = .ok C) (j k : Fin (ncols b p)) :
    (f ω₀).dispersion * cov[fun ω => (f ω).result j, fun ω => (f ω).result k; P] = φ * C j k := by
  have hwt : ∀ i, totalWt raw i = varWt raw i := fun i => by simp [totalWt, freq, hfr]
  obtain ⟨hu, hc⟩ := covariance_eq (Family.lawfulAdj .linear) (hd ω₀) (h ω₀) he hC
  rw [lin_fisher] at hc
  set F := Matrix.of ((f ω₀).fisher (f ω₀).result) with hF
  set X := design b raw.x with hX
  have hfish : ∀ ω β, Matrix.of ((f ω).fisher β) = F := by
    intro ω β'
    have e := C49_response_free (fam := .linear) (raw := withResponses raw (Y ω₀))
      (raw' := withResponses raw (Y ω)) (y' := Y ω) rfl (hd ω₀) (hd ω) (h ω₀) (h ω) hl1 hl1 rfl β'
    rw [← e, hF]
    obtain ⟨-, -, h3, -⟩ := C10_external (Family.lawfulAdj .linear) (hd ω₀) hl1 (h ω₀)
    rw [h3, h3, lin_fisher, lin_fisher]
  have hres : ∀ ω, (f ω).result = (F⁻¹ * (Xᵀ * diagonal (totalWt raw)))
      *ᵥ fun i => Y ω i - offset raw i := by
    intro ω
    obtain ⟨-, h2, h3, -⟩ := C10_external (Family.lawfulAdj .linear) (hd ω) hl1 (h ω)
    have h4 := hfish ω (f ω).result
    rw [h3, lin_fisher] at h4
    have h5 := hs ω
    rw [h2] at h5
    have h6 : penScore linG (withResponses raw (Y ω)) b options.l1 options.l2 (scale (d ω))
        (f ω).result = scoreVec linG (withResponses raw (Y ω)) b (f ω).result
          - ridgeMat options.l2 (scale (d ω)) b *ᵥ (f ω).result := by
      funext j
      rw [Pi.sub_apply, ridgeMat, mulVec_diagonal, penScore, max_eq_right hl1]
      congr 1
      cases b
      · simp [onSlopes, slopes]; ring
      · refine Fin.cases ?_ (fun j => ?_) (j : Fin (p + 1))
        · simp [onSlopes]
        · simp [onSlopes, slopes]; ring
    rw [h6, lin_score_eq, sub_sub, ← add_mulVec, h4, sub_eq_zero] at h5
    have h7 := congrArg (F⁻¹ *ᵥ ·) h5
    simp only [mulVec_mulVec, nonsing_inv_mul _ hu, one_mulVec] at h7
    exact h7.symm
  set A := F⁻¹ * (Xᵀ * diagonal (totalWt raw)) with hA
  have hex : ∀ j ω, (f ω).result j = -∑ i, A j i * offset raw i + ∑ i, A j i * Y ω i := by
    intro j ω
    rw [hres, mulVec, dotProduct, ← Finset.sum_neg_distrib, ← Finset.sum_add_distrib]
    exact Finset.sum_congr rfl fun i _ => by ring
  simp only [hex]
  rw [hY.cov_affine]
  have hFt : F⁻¹ᵀ = F⁻¹ := by
    have : Fᵀ = F := (C41_fisher (Family.lawfulAdj .linear) (hd ω₀) (h ω₀)
      (fun i => by
        have : totalWt (withResponses raw (Y ω₀)) i = totalWt raw i := rfl
        rw [this, hwt]; exact (hw i).le)
      (fun i => by rw [linG_var]; norm_num)).1
    rw [transpose_nonsing_inv, this]
  have hAA : A * diagonal (fun i => (totalWt raw i)⁻¹) * Aᵀ = F⁻¹ * gram raw b * F⁻¹ := by
    have h1 : diagonal (totalWt raw) * diagonal (fun i => (totalWt raw i)⁻¹) = 1 := by
      rw [diagonal_mul_diagonal, ← diagonal_one]
      congr 1; funext i; exact mul_inv_cancel₀ (by rw [hwt]; exact (hw i).ne')
    have h2 : A * diagonal (fun i => (totalWt raw i)⁻¹) = F⁻¹ * Xᵀ := by
      rw [hA, Matrix.mul_assoc, Matrix.mul_assoc, h1, Matrix.mul_one]
    have h3 : Aᵀ = diagonal (totalWt raw) * X * F⁻¹ := by
      rw [hA, transpose_mul, transpose_mul, transpose_transpose, diagonal_transpose, hFt]
    rw [h2, h3, gram_eq]
    simp only [Matrix.mul_assoc]; rfl
  have h8 := congrFun (congrFun hc j) k
  have h9 := congrFun (congrFun hAA j) k
  have h10 : C j k = (f ω₀).dispersion * (F⁻¹ * gram raw b * F⁻¹) j k := h8
  rw [h10, ← h9, Matrix.mul_apply, Finset.mul_sum, Finset.mul_sum, Finset.mul_sum]
  refine Finset.sum_congr rfl fun i _ => ?_
  rw [mul_diagonal, transpose_apply, hwt, div_eq_mul_inv]
  ring

/-- Response residuals are uncorrelated with nothing else than themselves: mean zero and covariance
`φ (W⁻¹ - X G⁻¹ Xᵀ)`. -/
theorem resid_moments (i l : Fin n) :
    MemLp (fun ω => (f ω).residResp i) 2 P ∧
    ∫ ω, (f ω).residResp i ∂P = 0 ∧
    cov[fun ω => (f ω).residResp i, fun ω => (f ω).residResp l; P]
      = φ * ((if i = l then (varWt raw i)⁻¹ else 0)
        - (design b raw.x * (gram raw b)⁻¹ * (design b raw.x)ᵀ) i l) := by
  have hwt : ∀ i, totalWt raw i = varWt raw i := fun i => by simp [totalWt, freq, hfr]
  have hw0 : ∀ i, totalWt raw i ≠ 0 := fun i => by rw [hwt]; exact (hw i).ne'
  set X := design b raw.x with hX
  set M : Matrix (Fin n) (Fin n) ℝ := 1 - X * lsMat raw b with hM
  have he : ∀ i ω, (f ω).residResp i = -∑ l, M i l * offset raw l + ∑ l, M i l * Y ω l := by
    intro i ω
    have h1 := (C51_linear (hd ω) (h ω) (fun i => (hw i).le) i).1
    have h2 : (M *ᵥ fun i => Y ω i - offset raw i) i
        = Y ω i - offset raw i - (X *ᵥ (f ω).result) i := by
      rw [hM, sub_mulVec, one_mulVec, Pi.sub_apply, ← mulVec_mulVec,
        ← result_eq_lsMat hr hd h hl1 hl2 hs]
    have h3 : (f ω).residResp i = Y ω i - offset raw i - (X *ᵥ (f ω).result) i := by
      rw [h1]
      simp only [linPred, mulVec, dotProduct, hX]
      change Y ω i - (_ + offset raw i) = _
      change Y ω i - (∑ j, design b raw.x i j * (f ω).result j + offset raw i) = _
      ring
    rw [h3, ← h2, mulVec, dotProduct, ← Finset.sum_neg_distrib, ← Finset.sum_add_distrib]
    exact Finset.sum_congr rfl fun i _ => by ring
  have hMX : M * X = 0 := by
    rw [hM, Matrix.sub_mul, Matrix.one_mul, Matrix.mul_assoc, lsMat_design hr, Matrix.mul_one,
      sub_self]
  simp only [he]
  refine ⟨hY.memLp_affine _ _, ?_, ?_⟩
  · rw [hY.mean_affine, ← Finset.sum_neg_distrib, ← Finset.sum_add_distrib]
    have h2 : ((M * X) *ᵥ β) i = 0 := by rw [hMX, zero_mulVec]; rfl
    rw [← mulVec_mulVec] at h2
    rw [← h2]
    simp only [mulVec, dotProduct, linPred]
    exact Finset.sum_congr rfl fun i _ => by ring
  · rw [hY.cov_affine]
    have hD : lsMat raw b * diagonal (fun i => (totalWt raw i)⁻¹) = (gram raw b)⁻¹ * Xᵀ := by
      have h1 : diagonal (totalWt raw) * diagonal (fun i => (totalWt raw i)⁻¹) = 1 := by
        rw [diagonal_mul_diagonal, ← diagonal_one]
        congr 1; funext i; exact mul_inv_cancel₀ (hw0 i)
      rw [lsMat, Matrix.mul_assoc, h1, Matrix.mul_one]
    have hG : (gram raw b)⁻¹ᵀ = (gram raw b)⁻¹ := by rw [transpose_nonsing_inv, gram_symm]
    have key : M * diagonal (fun i => (totalWt raw i)⁻¹) * Mᵀ
        = diagonal (fun i => (totalWt raw i)⁻¹) - X * (gram raw b)⁻¹ * Xᵀ := by
      have h1 : M * diagonal (fun i => (totalWt raw i)⁻¹)
          = diagonal (fun i => (totalWt raw i)⁻¹) - X * (gram raw b)⁻¹ * Xᵀ := by
        rw [hM, Matrix.sub_mul, Matrix.one_mul, Matrix.mul_assoc, hD, Matrix.mul_assoc]
      have h2 : X * (gram raw b)⁻¹ * Xᵀ * Mᵀ = 0 := by
        rw [Matrix.mul_assoc, ← transpose_mul, hMX, transpose_zero, Matrix.mul_zero]
      have h3 : diagonal (fun i => (totalWt raw i)⁻¹) * Mᵀ
          = diagonal (fun i => (totalWt raw i)⁻¹) - X * (gram raw b)⁻¹ * Xᵀ := by
        have := congrArg transpose h1
        rw [transpose_mul, diagonal_transpose] at this
        rw [this, transpose_sub, diagonal_transpose, transpose_mul, transpose_mul, hG,
          transpose_transpose, Matrix.mul_assoc]
      rw [h1, Matrix.sub_mul, h2, sub_zero, h3]
    have h4 := congrFun (congrFun key i) l
    rw [Matrix.sub_apply, diagonal_apply, hwt] at h4
    rw [← h4, Matrix.mul_apply, Finset.mul_sum]
    refine Finset.sum_congr rfl fun q _ => ?_
    rw [mul_diagonal, transpose_apply, hwt, div_eq_mul_inv]
    ring

/-- **C76**: the Pearson residuals of an unregularized linear fit have mean zero and variance
`φ (1 - h_i)` with `h_i` the reported leverage, so that dividing by `√(φ (1 - h_i))` gives them unit
variance. -/
theorem C76_linear_resid (he : env'.Exact) {ω₀ : Ω} {lev : Vec ℝ n}
    (hlev : (f ω₀).leverage env' = .ok lev) (i : Fin n) :
    ∫ ω, (f ω).residPear i ∂P = 0 ∧
    Var[fun ω => (f ω).residPear i; P] = φ * (1 - lev i) := by
  obtain ⟨hL, hm, hc⟩ := resid_moments hfr hw hr hY hd h hl1 hl2 hs i i
  have hp : ∀ ω, (f ω).residPear i = √(varWt raw i) * (f ω).residResp i := fun ω =>
    (C51_linear (hd ω) (h ω) (fun i => (hw i).le) i).2.2.1
  have hl : lev i = varWt raw i * (design b raw.x * (gram raw b)⁻¹ * (design b raw.x)ᵀ) i i := by
    unfold Fit.leverage at hlev
    cases hH : (f ω₀).hat env' with
    | error e => rw [hH] at hlev; simp [bind, Except.bind] at hlev
    | ok H =>
      rw [hH] at hlev
      simp only [bind, Except.bind, pure, Except.pure, Except.ok.injEq] at hlev
      obtain ⟨-, hHe⟩ := hat_eq (Family.lawfulAdj .linear) (hd ω₀) (h ω₀) he hH
      obtain ⟨-, -, h3, -⟩ := C10_external (Family.lawfulAdj .linear) (hd ω₀) hl1 (h ω₀)
      have hF : Matrix.of ((f ω₀).fisher (f ω₀).result) = gram raw b := by
        rw [h3, ridgeMat, max_eq_right hl2, lin_fisher]; simp [onSlopes_zero]; rfl
      have h5 : lev i = Matrix.of H i i := by rw [← hlev]; rfl
      have h6 : totalWt (withResponses raw (Y ω₀)) i = varWt raw i := by
        simp [totalWt, freq, hfr, withResponses, varWt]
      rw [h5, hHe, mul_diagonal, hF, h6, linG_dNat, mul_one, mul_comm]
      simp only [linG_dNat, linG_var, mul_one, diagonal_one, Matrix.one_mul]
      rfl
  simp only [hp]
  refine ⟨by rw [integral_const_mul, hm, mul_zero], ?_⟩
  rw [variance_const_mul, Real.sq_sqrt (hw i).le,
    ← covariance_self hL.aestronglyMeasurable.aemeasurable, hc, if_pos rfl, hl]
  have := (hw i).ne'
  field_simp

/-- **C76**: the expected deviance (residual sum of squares) is `φ (n - K)`. -/
theorem C76_linear_deviance : ∫ ω, (f ω).deviance ∂P = φ * (n - (ncols b p : ℕ)) := by
  have := hY.prob
  have hwt : ∀ i, totalWt raw i = varWt raw i := fun i => by simp [totalWt, freq, hfr]
  have hdev : ∀ ω, (f ω).deviance = ∑ i, varWt raw i * (f ω).residResp i ^ 2 := by
    intro ω
    obtain ⟨h1, h2⟩ := C36_linear (hd ω) (h ω)
    rw [h1, h2]
    refine Finset.sum_congr rfl fun i _ => ?_
    rw [(C51_linear (hd ω) (h ω) (fun i => (hw i).le) i).1, ← hwt]
    rfl
  simp only [hdev]
  have hres := fun i => resid_moments hfr hw hr hY hd h hl1 hl2 hs i i
  rw [integral_finsetSum _ fun i _ => ((hres i).1.integrable_sq).const_mul (varWt raw i)]
  have h1 : ∀ i, ∫ ω, varWt raw i * (f ω).residResp i ^ 2 ∂P
      = φ * (1 - varWt raw i * (design b raw.x * (gram raw b)⁻¹ * (design b raw.x)ᵀ) i i) := by
    intro i
    obtain ⟨hL, hm, hc⟩ := hres i
    rw [covariance_self hL.aestronglyMeasurable.aemeasurable,
      variance_of_integral_eq_zero hL.aestronglyMeasurable.aemeasurable hm, if_pos rfl] at hc
    rw [integral_const_mul, hc]
    have := (hw i).ne'
    field_simp
  simp only [h1]
  rw [← Finset.mul_sum, Finset.sum_sub_distrib]
  congr 1
  have h2 : ∑ i, varWt raw i * (design b raw.x * (gram raw b)⁻¹ * (design b raw.x)ᵀ) i i
      = trace (design b raw.x * lsMat raw b) := by
    rw [trace]
    refine Finset.sum_congr rfl fun i _ => ?_
    rw [lsMat, ← Matrix.mul_assoc, ← Matrix.mul_assoc, diag_apply, mul_diagonal, hwt, mul_comm]
  rw [h2, trace_mul_comm, lsMat_design hr, trace_one, Fintype.card_fin]
  simp

/-- **C76**: without variance weights the reported dispersion is an unbiased estimate of `φ`, and the
reported covariance matrix an unbiased estimate of the covariance matrix of the coefficients. -/
theorem C76_linear_dispersion (hvw : raw.weights = none) (hK : ncols b p < n) (he : env'.Exact)
    {C : Ω → Mat ℝ (ncols b p) (ncols b p)} (hC : ∀ ω, (f ω).covariance env' = .ok (C ω))
    (j k : Fin (ncols b p)) :
    ∫ ω, (f ω).dispersion ∂P = φ ∧
    ∫ ω, C ω j k ∂P = cov[fun ω => (f ω).result j, fun ω => (f ω).result k; P] := by
  have hobs : ∀ ω, obsCount (withResponses raw (Y ω)) = n := by
    intro ω; simp [obsCount, freq, withResponses, hfr]
  have hdisp : ∀ ω, (f ω).dispersion = (f ω).deviance / (n - (ncols b p : ℕ)) := by
    intro ω
    rw [C42_no_weights (hd ω) (h ω) rfl hvw (by rw [hobs]; exact_mod_cast hK), hobs,
      C36_deviance (hd ω) (h ω)]
    rfl
  have hne : ((n : ℝ) - (ncols b p : ℕ)) ≠ 0 := by
    have : ((ncols b p : ℕ) : ℝ) < n := by exact_mod_cast hK
    linarith
  have h1 : ∫ ω, (f ω).dispersion ∂P = φ := by
    simp only [hdisp]
    rw [integral_div, C76_linear_deviance hfr hw hr hY hd h hl1 hl2 hs, mul_div_cancel_right₀ _ hne]
  refine ⟨h1, ?_⟩
  have hF : ∀ ω, Matrix.of ((f ω).fisher (f ω).result) = gram raw b := by
    intro ω
    obtain ⟨-, -, h3, -⟩ := C10_external (Family.lawfulAdj .linear) (hd ω) hl1 (h ω)
    rw [h3, ridgeMat, max_eq_right hl2, lin_fisher]; simp [onSlopes_zero]; rfl
  have h2 : ∀ ω, C ω j k = (f ω).dispersion * (gram raw b)⁻¹ j k := by
    intro ω
    have := (C41_unregularized (Family.lawfulAdj .linear) (hd ω) (h ω) he hl1 hl2).1 _ (hC ω)
    rw [hF] at this
    exact congrFun (congrFun this j) k
  simp only [h2]
  have := hY.prob
  obtain ⟨ω₀⟩ : Nonempty Ω := nonempty_of_isProbabilityMeasure P
  rw [integral_mul_const, h1, (C76_linear_coef hfr hw hr hY hd h hl1 hl2 hs j k).2 ω₀, hF]

end
end

/-! ### The hypotheses can be met -/

/-- Independent normal responses. -/
theorem gaussian_responses (m : Fin n → ℝ) (v : Fin n → NNReal) :
    RandomResponses (Measure.pi fun i => gaussianReal (m i) (v i)) (fun ω => ω) m
      fun i => (v i : ℝ) := by
  have hmp : ∀ i, MeasurePreserving (Function.eval i)
      (Measure.pi fun i => gaussianReal (m i) (v i)) (gaussianReal (m i) (v i)) :=
    fun i => measurePreserving_eval _ i
  have hsq : ∀ i, MemLp (fun ω : Fin n → ℝ => ω i) 2
      (Measure.pi fun i => gaussianReal (m i) (v i)) := fun i =>
    (memLp_id_gaussianReal (μ := m i) (v := v i) 2).comp_measurePreserving (hmp i)
  refine ⟨inferInstance, hsq, fun i => ?_, fun i => ?_, fun i j hij => ?_⟩
  · have h1 := integral_map (μ := Measure.pi fun i => gaussianReal (m i) (v i))
      (hmp i).measurable.aemeasurable (f := fun x : ℝ => x) aestronglyMeasurable_id
    rw [(hmp i).map_eq, integral_id_gaussianReal] at h1
    exact h1.symm
  · rw [← variance_fun_id_gaussianReal (μ := m i) (v := v i)]
    exact (hmp i).variance_fun_comp (f := fun x : ℝ => x) aemeasurable_id
  · exact IndepFun.covariance_eq_zero
      ((iIndepFun_pi (X := fun _ x => x) fun i => aemeasurable_id).indepFun hij) (hsq i) (hsq j)


/-- Features 0, 1, 2, with the given variance weights. -/
noncomputable def smRaw (w : Option (Vec ℝ 3)) : Dataset ℝ 3 1 false where
  y := 0
  x := fun i _ => ![0, 1, 2] i
  linearOffset := none
  weights := w
  freqs := none
  standardizer := none

/-- Exact least-squares fits exist for all responses. -/
theorem smRaw_fits (w : Option (Vec ℝ 3)) (hw : ∀ i, 0 < varWt (smRaw w) i)
    (hr : IsUnit (gram (smRaw w) true).det) :
    ∃ (d : (Fin 3 → ℝ) → Dataset ℝ 3 1 true) (f : (Fin 3 → ℝ) → Fit ℝ 3 1 true),
      (∀ y, (withResponses (smRaw w) y).finalize false true = some (d y)) ∧
      (∀ y, regression (exactEnv 0 0) Family.linear.glm (d y) (exOpts 0 0 none 1) = .ok (f y)) ∧
      ∀ y, (f y).score (f y).result = 0 := by
  have key : ∀ y : Fin 3 → ℝ, ∃ d f,
      (withResponses (smRaw w) y).finalize false true = some d ∧
      regression (exactEnv 0 0) Family.linear.glm d (exOpts 0 0 none 1) = .ok f ∧
      f.score f.result = 0 := by
    intro y
    have hwt : ∀ i, totalWt (withResponses (smRaw w) y) i = varWt (smRaw w) i := fun i => by
      simp [totalWt, freq, withResponses, smRaw, varWt]
    have hls : IsLeastSquares (withResponses (smRaw w) y) true
        (lsMat (smRaw w) true *ᵥ fun i => y i - offset (smRaw w) i) := by
      refine (isLeastSquares_iff (fun i => by rw [hwt]; exact (hw i).le) _).mpr ?_
      exact (lin_score_zero_iff (raw := withResponses (smRaw w) y) hr).mpr rfl
    have hL : LinSetting (exactEnv 0 0) (withResponses (smRaw w) y) false _
        (exOpts 0 0 none 1) _ :=
      ⟨exactEnv_exact le_rfl 0, rfl, le_rfl, le_rfl, fun i => by rw [hwt]; exact (hw i).le, hr, hls⟩
    obtain ⟨f, hf, hres, -⟩ := C57_exact_least_squares hL rfl le_rfl
    refine ⟨_, f, rfl, hf, ?_⟩
    obtain ⟨-, h2, -⟩ := C10_external (Family.lawfulAdj .linear) hL.built hL.noL1 hf
    rw [h2, hres]
    funext j
    have := congrFun hL.score_eq j
    simp only [penScore, max_eq_right hL.noL1, max_eq_right hL.noL2, zero_mul, add_zero,
      onSlopes_zero, sub_zero]
    exact this
  choose d f h1 h2 h3 using key
  exact ⟨d, f, h1, h2, h3⟩

/-- The hypotheses of the theorems above are met by normal responses around a line, with and (for all
but the last theorem) without equal variances. -/
example (φ : NNReal) (β : Vec ℝ (ncols true 1)) :
    (∃ (w : Vec ℝ 3) (P : Measure (Fin 3 → ℝ)) (d : (Fin 3 → ℝ) → Dataset ℝ 3 1 true)
      (f : (Fin 3 → ℝ) → Fit ℝ 3 1 true),
      w = ![1, 2, 3] ∧ (smRaw (some w)).freqs = none ∧ (∀ i, 0 < varWt (smRaw (some w)) i) ∧
      IsUnit (gram (smRaw (some w)) true).det ∧
      RandomResponses P (fun ω => ω) (linPred (smRaw (some w)) true β)
        (fun i => φ / varWt (smRaw (some w)) i) ∧
      RandomResponses P (fun ω => ω) (meanAt Family.linear.glm (smRaw (some w)) true β)
        (fun i => φ * varianceFn .linear (meanAt Family.linear.glm (smRaw (some w)) true β i)
          / varWt (smRaw (some w)) i) ∧
      (∀ ω, (withResponses (smRaw (some w)) ω).finalize false true = some (d ω)) ∧
      (∀ ω, regression (exactEnv 0 0) Family.linear.glm (d ω) (exOpts 0 0 none 1) = .ok (f ω)) ∧
      (∀ ω, (f ω).score (f ω).result = 0) ∧
      (∀ ω, ∃ lev, (f ω).leverage (exactEnv 0 0) = .ok lev)) ∧
    (∃ (P : Measure (Fin 3 → ℝ)) (d : (Fin 3 → ℝ) → Dataset ℝ 3 1 true)
      (f : (Fin 3 → ℝ) → Fit ℝ 3 1 true) (C : (Fin 3 → ℝ) → Mat ℝ 2 2),
      IsUnit (gram (smRaw none) true).det ∧
      RandomResponses P (fun ω => ω) (linPred (smRaw none) true β)
        (fun i => φ / varWt (smRaw none) i) ∧
      (∀ ω, (withResponses (smRaw none) ω).finalize false true = some (d ω)) ∧
      (∀ ω, regression (exactEnv 0 0) Family.linear.glm (d ω) (exOpts 0 0 none 1) = .ok (f ω)) ∧
      (∀ ω, (f ω).score (f ω).result = 0) ∧
      ∀ ω, (f ω).covariance (exactEnv 0 0) = .ok (C ω)) := by
  have he := exactEnv_exact (le_refl (0 : ℝ)) 0
  constructor
  · have hw : ∀ i, 0 < varWt (smRaw (some ![1, 2, 3])) i := fun i => by
      fin_cases i <;> norm_num [varWt, smRaw]
    have hr : IsUnit (gram (smRaw (some ![1, 2, 3])) true).det := by
      rw [isUnit_iff_ne_zero, Matrix.det_fin_two]
      simp [gram, totalWt, freq, varWt, smRaw, Fin.sum_univ_three, design]
      norm_num
    obtain ⟨d, f, h1, h2, h3⟩ := smRaw_fits _ hw hr
    have hG := gaussian_responses (linPred (smRaw (some ![1, 2, 3])) true β)
      fun i => φ / (varWt (smRaw (some ![1, 2, 3])) i).toNNReal
    have hv : (fun i => ((φ / (varWt (smRaw (some ![1, 2, 3])) i).toNNReal : NNReal) : ℝ))
        = fun i => φ / varWt (smRaw (some ![1, 2, 3])) i := by
      funext i
      rw [NNReal.coe_div, Real.coe_toNNReal _ (hw i).le]
    rw [hv] at hG
    refine ⟨_, _, d, f, rfl, rfl, hw, hr, hG, ?_, h1, h2, h3, fun ω => ?_⟩
    · have hm : meanAt Family.linear.glm (smRaw (some ![1, 2, 3])) true β
          = linPred (smRaw (some ![1, 2, 3])) true β := funext fun i => by
        simp only [meanAt, funcInv_real]
      rw [hm]
      simpa only [varianceFn, mul_one] using hG
    · obtain ⟨-, -, h4, -⟩ := C10_external (Family.lawfulAdj .linear) (h1 ω) le_rfl (h2 ω)
      obtain ⟨H, -, hH⟩ := C40_available (h1 ω) (h2 ω) he (by
        rw [h4, lin_fisher, ridgeMat]
        simp only [exOpts, max_self, zero_mul, onSlopes_zero]
        rw [show diagonal (fun _ : Fin (ncols true 1) => (0 : ℝ)) = 0 from diagonal_zero, add_zero]
        exact hr)
      exact ⟨_, hH⟩
  · have hw : ∀ i, 0 < varWt (smRaw none) i := fun i => by norm_num [varWt, smRaw]
    have hr : IsUnit (gram (smRaw none) true).det := by
      rw [isUnit_iff_ne_zero, Matrix.det_fin_two]
      simp [gram, totalWt, freq, varWt, smRaw, Fin.sum_univ_three, design]
      norm_num
    obtain ⟨d, f, h1, h2, h3⟩ := smRaw_fits _ hw hr
    have hG := gaussian_responses (linPred (smRaw none) true β) fun _ => φ
    have hv : (fun i : Fin 3 => (φ : ℝ)) = fun i => φ / varWt (smRaw none) i := by
      funext i; simp [varWt, smRaw]
    rw [hv] at hG
    have hC : ∀ ω, ∃ C, (f ω).covariance (exactEnv 0 0) = .ok C := fun ω =>
      (C41_unregularized (Family.lawfulAdj .linear) (h1 ω) (h2 ω) he le_rfl le_rfl).2.mpr
        (by rw [lin_fisher]; exact hr)
    choose C hC using hC
    exact ⟨_, d, f, C, hr, hG, h1, h2, h3, hC⟩

end GLM
