/-
  C116: no linear unbiased estimate has a smaller variance than a Linear fit, and an L2 penalty trades variance
  for bias.
-/
import Verif.Props.Sampling
import Verif.Props.RidgeLinear

open MeasureTheory ProbabilityTheory

namespace GLM
open Spec
open Matrix hiding gram
variable {n p : ℕ} {b : Bool} {env : Env ℝ} {raw : Dataset ℝ n p false} {std : Bool}

theorem scale_withResponses {y y' : Vec ℝ n} {d d' : Dataset ℝ n p b}
    (hd : (withResponses raw y).finalize std b = some d) (hd' : (withResponses raw y').finalize std b = some d') :
    scale d = scale d' := by
  obtain ⟨-, -, -, -, h1⟩ := Dataset.finalize_cases hd
  obtain ⟨-, -, -, -, h1'⟩ := Dataset.finalize_cases hd'
  have hsd : d.standardizer = d'.standardizer := by
    rcases h1 with ⟨rfl, -, h1⟩ | ⟨rfl, s, h1, h2, -⟩ <;>
      rcases h1' with ⟨h0, -, h1'⟩ | ⟨h0, s', h1', h2', -⟩
    · rw [h1, h1']
    · simp at h0
    · simp at h0
    · rw [h2, h2', ← h1, ← h1']; rfl
  unfold scale
  rw [hsd]

theorem ridgeCurv_unit (hw : ∀ i, 0 ≤ totalWt raw i) (hr : IsUnit (gram raw b).det) (l2 : ℝ) (σ : Fin p → ℝ) :
    IsUnit (ridgeCurv raw b l2 σ).det :=
  isUnit_of_pos fun x hx => by
    rw [ridgeCurv, add_mulVec, dotProduct_add]
    exact add_pos_of_pos_of_nonneg (gram_pos hw hr hx) (ridgeMat_nonneg x)

/-- The sum of squares with which a combination of coefficients depends on the responses. -/
theorem gram_quad_apply (u : Vec ℝ (ncols b p)) :
    u ⬝ᵥ (gram raw b *ᵥ u) = ∑ i, totalWt raw i * (design b raw.x *ᵥ u) i ^ 2 := by
  rw [quad_gram]; rfl

/-- A penalized fit is linear in the responses. -/
theorem ridge_combination {y : Vec ℝ n} {d : Dataset ℝ n p b} {o : FitOptions ℝ (ncols b p)}
    {f : Fit ℝ n p b} (hd : (withResponses raw y).finalize std b = some d)
    (h : regression env Family.linear.glm d o = .ok f) (hl1 : o.l1 ≤ 0) (hs : f.score f.result = 0)
    {c u : Vec ℝ (ncols b p)} (hu : ridgeCurv raw b o.l2 (scale d) *ᵥ u = c) :
    c ⬝ᵥ f.result = -(∑ i, totalWt raw i * (design b raw.x *ᵥ u) i * offset raw i)
      + ∑ i, totalWt raw i * (design b raw.x *ᵥ u) i * y i := by
  obtain ⟨-, h2, -⟩ := C10_external (Family.lawfulAdj .linear) hd hl1 h
  have h3 : scoreVec linG (withResponses raw y) b f.result - ridgeMat o.l2 (scale d) b *ᵥ f.result = 0 := by
    rw [← penScore_eq hl1, ← hs, h2]
  rw [lin_score_eq] at h3
  have h4 : ridgeCurv raw b o.l2 (scale d) *ᵥ f.result
      = ((design b raw.x)ᵀ * diagonal (totalWt raw)) *ᵥ fun i => y i - offset raw i := by
    rw [ridgeCurv, add_mulVec]
    have h5 : ((design b raw.x)ᵀ * diagonal (totalWt raw)) *ᵥ (fun i => y i - offset raw i)
      - gram raw b *ᵥ f.result - ridgeMat o.l2 (scale d) b *ᵥ f.result = 0 := h3
    rw [sub_sub, sub_eq_zero] at h5
    exact h5.symm
  rw [← hu, dotProduct_comm, dot_mulVec_comm ridgeCurv_symm, h4, ← Finset.sum_neg_distrib,
    ← Finset.sum_add_distrib, ← mulVec_mulVec, dotProduct_mulVec, vecMul_transpose, dotProduct]
  refine Finset.sum_congr rfl fun i _ => ?_
  rw [mulVec_diagonal]; ring

variable {Ω : Type*} [MeasurableSpace Ω] {P : Measure Ω} {Y : Ω → Vec ℝ n}
  {d : Ω → Dataset ℝ n p b} {o : FitOptions ℝ (ncols b p)} {f : Ω → Fit ℝ n p b}
  {φ : ℝ} {β : Vec ℝ (ncols b p)}

section
variable (hfr : raw.freqs = none) (hw : ∀ i, 0 < varWt raw i)
  (hY : RandomResponses P Y (linPred raw b β) fun i => φ / varWt raw i)
  (hd : ∀ ω, (withResponses raw (Y ω)).finalize std b = some (d ω))
  (h : ∀ ω, regression env Family.linear.glm (d ω) o = .ok (f ω))
  (hl1 : o.l1 ≤ 0) (hs : ∀ ω, (f ω).score (f ω).result = 0)

include hfr hw hY hd h hl1 hs in
theorem ridge_moments {c u : Vec ℝ (ncols b p)}
    (hu : ∀ ω, ridgeCurv raw b o.l2 (scale (d ω)) *ᵥ u = c) :
    ∫ ω, c ⬝ᵥ (f ω).result ∂P = (gram raw b *ᵥ u) ⬝ᵥ β ∧
    Var[fun ω => c ⬝ᵥ (f ω).result; P] = φ * (u ⬝ᵥ (gram raw b *ᵥ u)) := by
  have hwt : ∀ i, totalWt raw i = varWt raw i := fun i => by simp [totalWt, freq, hfr]
  have e : ∀ ω, c ⬝ᵥ (f ω).result = _ := fun ω => ridge_combination (hd ω) (h ω) hl1 (hs ω) (hu ω)
  simp only [e]
  constructor
  · rw [hY.mean_affine, ← Finset.sum_neg_distrib, ← Finset.sum_add_distrib, dotProduct_comm,
      dot_mulVec_comm gram_symm, gram_eq, ← mulVec_mulVec, ← mulVec_mulVec, dotProduct_mulVec,
      vecMul_transpose, dotProduct]
    refine Finset.sum_congr rfl fun i _ => ?_
    rw [mulVec_diagonal, linPred]
    change _ = _ * (_ * ∑ j, design b raw.x i j * β j)
    ring
  · rw [← covariance_self (hY.memLp_affine _ _).aestronglyMeasurable.aemeasurable, hY.cov_affine,
      gram_quad_apply, Finset.mul_sum]
    refine Finset.sum_congr rfl fun i _ => ?_
    rw [hwt]
    have := (hw i).ne'
    field_simp

end

/-- **C116** (Gauss and Markov).  Let `c ⬝ β` be a combination of the coefficients, such as one of them, a
difference of two or the prediction for given features.  The estimate `c ⬝ f.result` by an unpenalized Linear fit
has the expectation `c ⬝ β`; and any other affine function `a₀ + ∑ a_i Y_i` of the responses whose expectation
is `c ⬝ γ` whatever the true coefficients `γ` are has a larger variance, unless it is the same function. -/
theorem C116_best (hfr : raw.freqs = none) (hw : ∀ i, 0 < varWt raw i) (hr : IsUnit (gram raw b).det)
    (hφ : 0 < φ) (hY : RandomResponses P Y (linPred raw b β) fun i => φ / varWt raw i)
    (hd : ∀ ω, (withResponses raw (Y ω)).finalize std b = some (d ω))
    (h : ∀ ω, regression env Family.linear.glm (d ω) o = .ok (f ω))
    (hl1 : o.l1 ≤ 0) (hl2 : o.l2 ≤ 0) (hs : ∀ ω, (f ω).score (f ω).result = 0) (c : Vec ℝ (ncols b p)) :
    ∫ ω, c ⬝ᵥ (f ω).result ∂P = c ⬝ᵥ β ∧
    ∀ (a₀ : ℝ) (a : Fin n → ℝ), (∀ γ, a₀ + ∑ i, a i * linPred raw b γ i = c ⬝ᵥ γ) →
      Var[fun ω => c ⬝ᵥ (f ω).result; P] ≤ Var[fun ω => a₀ + ∑ i, a i * Y ω i; P] ∧
      (Var[fun ω => a₀ + ∑ i, a i * Y ω i; P] = Var[fun ω => c ⬝ᵥ (f ω).result; P] →
        ∀ ω, a₀ + ∑ i, a i * Y ω i = c ⬝ᵥ (f ω).result) := by
  have hwt : ∀ i, totalWt raw i = varWt raw i := fun i => by simp [totalWt, freq, hfr]
  set u := (gram raw b)⁻¹ *ᵥ c with hudef
  have hGu : gram raw b *ᵥ u = c := by rw [hudef, mulVec_mulVec, mul_nonsing_inv _ hr, one_mulVec]
  have hcurv : ∀ σ, ridgeCurv raw b o.l2 σ = gram raw b := fun σ => by
    rw [ridgeCurv, ridgeMat, max_eq_right hl2]
    simp only [zero_mul, onSlopes_zero]
    rw [show diagonal (fun _ : Fin (ncols b p) => (0 : ℝ)) = 0 from diagonal_zero, add_zero]
  have hu : ∀ ω, ridgeCurv raw b o.l2 (scale (d ω)) *ᵥ u = c := fun ω => by rw [hcurv, hGu]
  obtain ⟨hm, hv⟩ := ridge_moments hfr hw hY hd h hl1 hs hu
  refine ⟨by rw [hm, hGu], fun a₀ a ha => ?_⟩
  set g : Fin n → ℝ := fun i => totalWt raw i * (design b raw.x *ᵥ u) i with hg
  have hx : ∀ γ, ∑ i, a i * (design b raw.x *ᵥ γ) i = c ⬝ᵥ γ := fun γ => by
    have h1 := ha γ
    have h0 := ha 0
    have : ∑ i, a i * linPred raw b γ i
        = ∑ i, a i * (design b raw.x *ᵥ γ) i + ∑ i, a i * linPred raw b 0 i := by
      rw [← Finset.sum_add_distrib]
      refine Finset.sum_congr rfl fun i _ => ?_
      simp only [linPred, mulVec, dotProduct, Pi.zero_apply, mul_zero, Finset.sum_const_zero]
      ring
    rw [dotProduct_zero] at h0
    linarith
  have hoff : a₀ = -∑ i, a i * offset raw i := by
    have h0 := ha 0
    rw [dotProduct_zero] at h0
    have : ∀ i, linPred raw b 0 i = offset raw i := fun i => by simp [linPred]
    simp only [this] at h0
    linarith
  have hva : Var[fun ω => a₀ + ∑ i, a i * Y ω i; P]
      = φ * (u ⬝ᵥ (gram raw b *ᵥ u)) + ∑ i, (a i - g i) ^ 2 * (φ / varWt raw i) := by
    rw [← covariance_self (hY.memLp_affine _ _).aestronglyMeasurable.aemeasurable, hY.cov_affine]
    have h1 : ∀ i, a i * a i * (φ / varWt raw i) = (a i - g i) ^ 2 * (φ / varWt raw i)
        + φ * (2 * (a i * (design b raw.x *ᵥ u) i) - totalWt raw i * (design b raw.x *ᵥ u) i ^ 2) := fun i => by
      rw [hg]
      simp only [hwt]
      have := (hw i).ne'
      field_simp
      ring
    simp only [h1, Finset.sum_add_distrib, ← Finset.mul_sum, Finset.sum_sub_distrib]
    rw [hx, ← gram_quad_apply, hGu, dotProduct_comm u c]
    ring
  have hnn : ∀ i ∈ Finset.univ, 0 ≤ (a i - g i) ^ 2 * (φ / varWt raw i) := fun i _ =>
    mul_nonneg (sq_nonneg _) (div_pos hφ (hw i)).le
  rw [hva, hv]
  refine ⟨le_add_of_nonneg_right (Finset.sum_nonneg hnn), fun heq ω => ?_⟩
  have hz := (Finset.sum_eq_zero_iff_of_nonneg hnn).mp (by linarith)
  have hag : ∀ i, a i = g i := fun i => by
    have h1 := hz i (Finset.mem_univ i)
    rcases mul_eq_zero.mp h1 with h2 | h2
    · exact sub_eq_zero.mp (pow_eq_zero_iff two_ne_zero |>.mp h2)
    · exact absurd h2 (div_pos hφ (hw i)).ne'
  rw [ridge_combination (hd ω) (h ω) hl1 (hs ω) (hu ω), hoff]
  simp only [hag, hg]

/-- **C116**.  What an L2 penalty does to a Linear fit: the expectation of the coefficients is the ridge solution
for responses equal to their means, and each combination of the coefficients has at most the variance it has
without the penalty. -/
theorem C116_ridge {f' : Ω → Fit ℝ n p b} {o' : FitOptions ℝ (ncols b p)}
    (hfr : raw.freqs = none) (hw : ∀ i, 0 < varWt raw i) (hr : IsUnit (gram raw b).det)
    (hφ : 0 ≤ φ) (hY : RandomResponses P Y (linPred raw b β) fun i => φ / varWt raw i)
    (hd : ∀ ω, (withResponses raw (Y ω)).finalize std b = some (d ω))
    (h : ∀ ω, regression env Family.linear.glm (d ω) o = .ok (f ω))
    (hl1 : o.l1 ≤ 0) (hl2 : o.l2 ≤ 0) (hs : ∀ ω, (f ω).score (f ω).result = 0)
    (h' : ∀ ω, regression env Family.linear.glm (d ω) o' = .ok (f' ω))
    (hl1' : o'.l1 ≤ 0) (hs' : ∀ ω, (f' ω).score (f' ω).result = 0) (ω₀ : Ω) :
    IsRidge (withResponses raw (linPred raw b β)) b o'.l2 (scale (d ω₀)) (fun j => ∫ ω, (f' ω).result j ∂P) ∧
    ∀ c : Vec ℝ (ncols b p),
      Var[fun ω => c ⬝ᵥ (f' ω).result; P] ≤ Var[fun ω => c ⬝ᵥ (f ω).result; P] := by
  have hwt : ∀ i, totalWt raw i = varWt raw i := fun i => by simp [totalWt, freq, hfr]
  have hwn : ∀ i, 0 ≤ totalWt raw i := fun i => by rw [hwt]; exact (hw i).le
  obtain ⟨σ, hσ0⟩ : ∃ σ, σ = scale (d ω₀) := ⟨_, rfl⟩
  have hσ : ∀ ω, scale (d ω) = σ := fun ω => hσ0 ▸ scale_withResponses (hd ω) (hd ω₀)
  rw [← hσ0]
  set R := ridgeCurv raw b o'.l2 σ with hR
  have hRu : IsUnit R.det := ridgeCurv_unit hwn hr _ _
  have hRc : ∀ c, R *ᵥ (R⁻¹ *ᵥ c) = c := fun c => by rw [mulVec_mulVec, mul_nonsing_inv _ hRu, one_mulVec]
  have hmom := fun c => ridge_moments hfr hw hY hd h' hl1' hs' (c := c) (u := R⁻¹ *ᵥ c)
    fun ω => by rw [hσ, hRc]
  have hcurv : ∀ σ, ridgeCurv raw b o.l2 σ = gram raw b := fun σ => by
    rw [ridgeCurv, ridgeMat, max_eq_right hl2]
    simp only [zero_mul, onSlopes_zero]
    rw [show diagonal (fun _ : Fin (ncols b p) => (0 : ℝ)) = 0 from diagonal_zero, add_zero]
  have hGc : ∀ c, gram raw b *ᵥ ((gram raw b)⁻¹ *ᵥ c) = c := fun c => by
    rw [mulVec_mulVec, mul_nonsing_inv _ hr, one_mulVec]
  have hmom0 := fun c => ridge_moments hfr hw hY hd h hl1 hs (c := c) (u := (gram raw b)⁻¹ *ᵥ c)
    fun ω => by rw [hcurv, hGc]
  constructor
  · obtain ⟨e, he⟩ : ∃ e : Vec ℝ (ncols b p), e = fun j => ∫ ω, (f' ω).result j ∂P := ⟨_, rfl⟩
    rw [← he]
    refine (isRidge_iff (raw := withResponses raw (linPred raw b β)) (l1 := 0) le_rfl hwn e).mpr ?_
    have hRinv : (R⁻¹).IsSymm := by
      rw [Matrix.IsSymm, transpose_nonsing_inv]
      exact congrArg _ (ridgeCurv_symm (raw := raw))
    have he' : e = R⁻¹ *ᵥ (gram raw b *ᵥ β) := by
      funext j
      have h1 := (hmom (Pi.single j 1)).1
      simp only [single_one_dotProduct] at h1
      rw [he]
      refine h1.trans ?_
      rw [dotProduct_comm, dot_mulVec_comm gram_symm, dotProduct_comm, dotProduct_comm (gram raw b *ᵥ β),
        dotProduct_comm, dot_mulVec_comm hRinv, single_one_dotProduct]
    have hRe : R *ᵥ e = gram raw b *ᵥ β := by rw [he', hRc]
    rw [penScore_eq le_rfl, lin_score_eq]
    have h2 : ((design b raw.x)ᵀ * diagonal (totalWt raw)) *ᵥ (fun i => linPred raw b β i - offset raw i)
        = gram raw b *ᵥ β := by
      rw [gram_eq, ← mulVec_mulVec β]
      congr 1
      funext i
      simp [linPred, mulVec, dotProduct]
    rw [hR, ridgeCurv, add_mulVec] at hRe
    have h3 : ((design b raw.x)ᵀ * diagonal (totalWt raw)) *ᵥ (fun i => linPred raw b β i - offset raw i)
        - gram raw b *ᵥ e - ridgeMat o'.l2 σ b *ᵥ e = 0 := by
      rw [h2, ← hRe]; abel
    exact h3
  · intro c
    rw [(hmom c).2, (hmom0 c).2]
    refine mul_le_mul_of_nonneg_left ?_ hφ
    set v := R⁻¹ *ᵥ c with hv
    set u := (gram raw b)⁻¹ *ᵥ c with hu
    have h1 : gram raw b *ᵥ (u - v) = ridgeMat o'.l2 σ b *ᵥ v := by
      rw [mulVec_sub, hu, hGc, sub_eq_iff_eq_add, add_comm, ← add_mulVec]
      exact (hRc c).symm
    have h2 : u = v + (u - v) := by abel
    rw [h2, mulVec_add, add_dotProduct, dotProduct_add, dotProduct_add,
      dot_mulVec_comm gram_symm (u - v) v, h1]
    have h3 := ridgeMat_nonneg (l2 := o'.l2) (σ := σ) (b := b) v
    have h4 := gram_nonneg hwn (u - v)
    rw [h1] at h4
    linarith

/-- The mean squared error is variance plus squared bias. -/
theorem mse_eq {X : Ω → ℝ} [IsProbabilityMeasure P] (hX : MemLp X 2 P) (t : ℝ) :
    ∫ ω, (X ω - t) ^ 2 ∂P = Var[X; P] + (∫ ω, X ω ∂P - t) ^ 2 := by
  have h1 := variance_eq_sub (X := fun ω => X ω - t) (hX.sub (memLp_const t))
  rw [variance_sub_const hX.aestronglyMeasurable t,
    integral_sub (hX.integrable (by norm_num)) (integrable_const t), integral_const] at h1
  simp only [probReal_univ, one_smul] at h1
  have h4 : ∫ ω, ((fun ω => X ω - t) ^ 2) ω ∂P = ∫ ω, (X ω - t) ^ 2 ∂P := rfl
  rw [h4] at h1
  linarith

/-- **C116**.  An L2 penalty that is small compared with the dispersion pays: if `l2_reg` times the sum of the
squared true slopes, in the units of the penalty, is at most `2 φ`, the mean squared error of each combination of
the coefficients is at most that of the fit without penalty. -/
theorem C116_ridge_error {f' : Ω → Fit ℝ n p b} {o' : FitOptions ℝ (ncols b p)}
    (hfr : raw.freqs = none) (hw : ∀ i, 0 < varWt raw i) (hr : IsUnit (gram raw b).det)
    (hY : RandomResponses P Y (linPred raw b β) fun i => φ / varWt raw i)
    (hd : ∀ ω, (withResponses raw (Y ω)).finalize std b = some (d ω))
    (h : ∀ ω, regression env Family.linear.glm (d ω) o = .ok (f ω))
    (hl1 : o.l1 ≤ 0) (hl2 : o.l2 ≤ 0) (hs : ∀ ω, (f ω).score (f ω).result = 0)
    (h' : ∀ ω, regression env Family.linear.glm (d ω) o' = .ok (f' ω))
    (hl1' : o'.l1 ≤ 0) (hs' : ∀ ω, (f' ω).score (f' ω).result = 0) (ω₀ : Ω)
    (hl2' : 0 ≤ o'.l2) (hsmall : o'.l2 * ∑ j, (scale (d ω₀) j * slopes b β j) ^ 2 ≤ 2 * φ)
    (c : Vec ℝ (ncols b p)) :
    ∫ ω, (c ⬝ᵥ (f' ω).result - c ⬝ᵥ β) ^ 2 ∂P ≤ ∫ ω, (c ⬝ᵥ (f ω).result - c ⬝ᵥ β) ^ 2 ∂P := by
  have hwt : ∀ i, totalWt raw i = varWt raw i := fun i => by simp [totalWt, freq, hfr]
  have hwn : ∀ i, 0 ≤ totalWt raw i := fun i => by rw [hwt]; exact (hw i).le
  have := hY.prob
  obtain ⟨σ, hσ0⟩ : ∃ σ, σ = scale (d ω₀) := ⟨_, rfl⟩
  have hσ : ∀ ω, scale (d ω) = σ := fun ω => hσ0 ▸ scale_withResponses (hd ω) (hd ω₀)
  rw [← hσ0] at hsmall
  have hφ : 0 ≤ φ := by
    have : 0 ≤ o'.l2 * ∑ j, (σ j * slopes b β j) ^ 2 :=
      mul_nonneg hl2' (Finset.sum_nonneg fun j _ => sq_nonneg _)
    linarith
  set R := ridgeCurv raw b o'.l2 σ with hR
  have hRu : IsUnit R.det := ridgeCurv_unit hwn hr _ _
  have hRc : R *ᵥ (R⁻¹ *ᵥ c) = c := by rw [mulVec_mulVec, mul_nonsing_inv _ hRu, one_mulVec]
  have hcurv : ∀ σ, ridgeCurv raw b o.l2 σ = gram raw b := fun σ => by
    rw [ridgeCurv, ridgeMat, max_eq_right hl2]
    simp only [zero_mul, onSlopes_zero]
    rw [show diagonal (fun _ : Fin (ncols b p) => (0 : ℝ)) = 0 from diagonal_zero, add_zero]
  have hGc : gram raw b *ᵥ ((gram raw b)⁻¹ *ᵥ c) = c := by
    rw [mulVec_mulVec, mul_nonsing_inv _ hr, one_mulVec]
  obtain ⟨m1, v1⟩ := ridge_moments hfr hw hY hd h' hl1' hs' (c := c) (u := R⁻¹ *ᵥ c)
    fun ω => by rw [hσ, hRc]
  obtain ⟨m0, v0⟩ := ridge_moments hfr hw hY hd h hl1 hs (c := c) (u := (gram raw b)⁻¹ *ᵥ c)
    fun ω => by rw [hcurv, hGc]
  have hL1 : MemLp (fun ω => c ⬝ᵥ (f' ω).result) 2 P := by
    have e : ∀ ω, c ⬝ᵥ (f' ω).result = _ := fun ω =>
      ridge_combination (hd ω) (h' ω) hl1' (hs' ω) (u := R⁻¹ *ᵥ c) (by rw [hσ, hRc])
    simp only [e]
    exact hY.memLp_affine _ _
  have hL0 : MemLp (fun ω => c ⬝ᵥ (f ω).result) 2 P := by
    have e : ∀ ω, c ⬝ᵥ (f ω).result = _ := fun ω =>
      ridge_combination (hd ω) (h ω) hl1 (hs ω) (u := (gram raw b)⁻¹ *ᵥ c) (by rw [hcurv, hGc])
    simp only [e]
    exact hY.memLp_affine _ _
  rw [mse_eq hL1, mse_eq hL0, m0, m1, v0, v1, hGc, sub_self]
  set v := R⁻¹ *ᵥ c with hv
  set u := (gram raw b)⁻¹ *ᵥ c with hu
  set L := ridgeMat o'.l2 σ b with hL
  have hc : c = gram raw b *ᵥ v + L *ᵥ v := by rw [← add_mulVec]; exact hRc.symm
  have h1 : gram raw b *ᵥ (u - v) = L *ᵥ v := by
    rw [mulVec_sub, hGc, sub_eq_iff_eq_add, add_comm]; exact hc
  have hbias : (gram raw b *ᵥ v) ⬝ᵥ β - c ⬝ᵥ β = -((L *ᵥ v) ⬝ᵥ β) := by
    rw [hc, add_dotProduct]; ring
  have hquad : u ⬝ᵥ (gram raw b *ᵥ u) = v ⬝ᵥ (gram raw b *ᵥ v) + 2 * (v ⬝ᵥ (L *ᵥ v))
      + (u - v) ⬝ᵥ (gram raw b *ᵥ (u - v)) := by
    have h2 : u = v + (u - v) := by abel
    have h3 : (v + (u - v)) ⬝ᵥ (gram raw b *ᵥ (v + (u - v))) = v ⬝ᵥ (gram raw b *ᵥ v)
        + 2 * (v ⬝ᵥ (L *ᵥ v)) + (u - v) ⬝ᵥ (gram raw b *ᵥ (u - v)) := by
      rw [mulVec_add, add_dotProduct, dotProduct_add, dotProduct_add,
        dot_mulVec_comm gram_symm (u - v) v, h1]
      ring
    rwa [← h2] at h3
  have hB : β ⬝ᵥ (L *ᵥ β) ≤ 2 * φ := by
    refine le_trans (le_of_eq ?_) hsmall
    rw [hL, quad_ridge, max_eq_left hl2', Finset.mul_sum]
    exact Finset.sum_congr rfl fun j _ => by ring
  have hA0 : 0 ≤ v ⬝ᵥ (L *ᵥ v) := ridgeMat_nonneg v
  have hB0 : 0 ≤ β ⬝ᵥ (L *ᵥ β) := ridgeMat_nonneg β
  have hpoly : ∀ s t : ℝ, 0 ≤ s ^ 2 * (v ⬝ᵥ (L *ᵥ v)) + 2 * (s * t) * ((L *ᵥ v) ⬝ᵥ β)
      + t ^ 2 * (β ⬝ᵥ (L *ᵥ β)) := by
    intro s t
    have h2 := ridgeMat_nonneg (l2 := o'.l2) (σ := σ) (b := b) (s • v + t • β)
    rw [← hL, mulVec_add, mulVec_smul, mulVec_smul, add_dotProduct, dotProduct_add, dotProduct_add] at h2
    simp only [smul_dotProduct, dotProduct_smul, smul_eq_mul] at h2
    rw [dot_mulVec_comm ridgeMat_symm v β, dotProduct_comm β] at h2
    linarith
  set A := v ⬝ᵥ (L *ᵥ v)
  set B := β ⬝ᵥ (L *ᵥ β)
  set C := (L *ᵥ v) ⬝ᵥ β
  have hCS : C ^ 2 ≤ A * B := by
    rcases hB0.eq_or_lt with h0 | h0
    · have h2 := hpoly C (-(A + 1) / 2)
      have h3 := hpoly 1 (-(A + 1) * C / 2)
      rw [← h0] at h3 ⊢
      nlinarith [sq_nonneg C]
    · have h2 := hpoly B (-C)
      have h3 : 0 ≤ B * (A * B - C ^ 2) := by nlinarith
      nlinarith [nonneg_of_mul_nonneg_right h3 h0]
  have h5 := gram_nonneg hwn (u - v)
  have h6 : 0 ≤ φ * ((u - v) ⬝ᵥ (gram raw b *ᵥ (u - v))) := mul_nonneg hφ h5
  have h7 : A * B ≤ A * (2 * φ) := mul_le_mul_of_nonneg_left hB hA0
  rw [hGc] at hquad
  rw [hbias, hquad]
  nlinarith

/-! ### Non-vacuity -/

/-- Normal responses of variance 1 around a line of slope 1, observed at 0, 1 and 2.  The slope fitted with the
penalty 2 is on average closer to 1 than the one fitted without, which is in turn the best unbiased one: the
slope through the two outer observations, `(Y₂ - Y₀)/2`, is no better. -/
example : ∃ (P : Measure (Fin 3 → ℝ)) (f f' : (Fin 3 → ℝ) → Fit ℝ 3 1 true),
    (∀ ω, ∃ d, (withResponses (smRaw none) ω).finalize false true = some d ∧
      regression (exactEnv 0 0) Family.linear.glm d (exOpts 0 0 none 1) = .ok (f ω) ∧
      regression (exactEnv 0 0) Family.linear.glm d (exOpts 0 2 none 1) = .ok (f' ω)) ∧
    Var[fun ω => ![0, 1] ⬝ᵥ (f ω).result; P]
      ≤ Var[fun ω => 0 + ∑ i, ![-1 / 2, 0, 1 / 2] i * ω i; P] ∧
    ∫ ω, (![0, 1] ⬝ᵥ (f' ω).result - ![0, 1] ⬝ᵥ ![5, 1]) ^ 2 ∂P
      ≤ ∫ ω, (![0, 1] ⬝ᵥ (f ω).result - ![0, 1] ⬝ᵥ ![5, 1]) ^ 2 ∂P := by
  have hw : ∀ i, 0 < varWt (smRaw none) i := fun i => by norm_num [varWt, smRaw]
  have hr : IsUnit (gram (smRaw none) true).det := by
    rw [isUnit_iff_ne_zero, Matrix.det_fin_two]
    simp [gram, totalWt, freq, varWt, smRaw, Fin.sum_univ_three, design]
    norm_num
  obtain ⟨d, f, h1, h2, h3⟩ := smRaw_fits _ hw hr
  have hwt : ∀ ω i, 0 ≤ totalWt (withResponses (smRaw none) ω) i := fun ω i => by
    simp [totalWt, freq, withResponses, smRaw, varWt]
  have key : ∀ ω, ∃ f', regression (exactEnv 0 0) Family.linear.glm (d ω) (exOpts 0 2 none 1) = .ok f' ∧
      f'.score f'.result = 0 := by
    intro ω
    obtain ⟨βs, hβs, -⟩ := C78_solution (raw := withResponses (smRaw none) ω) (b := true) (l2 := 2)
      (Dataset.scale_pos (h1 ω)) (hwt ω) (Or.inl hr)
    have hS : RidgeSetting (exactEnv 0 0) (withResponses (smRaw none) ω) false (d ω) (exOpts 0 2 none 1) βs :=
      ⟨exactEnv_exact le_rfl 0, h1 ω, le_rfl, hwt ω, Or.inl hr, hβs⟩
    obtain ⟨f', hf', hres, -⟩ := C78_exact_ridge hS rfl le_rfl
    refine ⟨f', hf', ?_⟩
    obtain ⟨-, h4, -⟩ := C10_external (Family.lawfulAdj .linear) hS.built hS.noL1 hf'
    rw [h4, hres]
    exact hS.score_eq
  choose f' hf' hs' using key
  have hG := gaussian_responses (linPred (smRaw none) true (![5, 1] : Vec ℝ (ncols true 1))) fun _ => 1
  have hv : (fun i : Fin 3 => ((1 : NNReal) : ℝ)) = fun i => (1 : ℝ) / varWt (smRaw none) i := by
    funext i; simp [varWt, smRaw]
  rw [hv] at hG
  obtain ⟨P, hP⟩ : ∃ P, P = Measure.pi fun i => gaussianReal
    (linPred (smRaw none) true (![5, 1] : Vec ℝ (ncols true 1)) i) 1 := ⟨_, rfl⟩
  rw [← hP] at hG
  refine ⟨P, f, f', fun ω => ⟨d ω, h1 ω, h2 ω, hf' ω⟩, ?_, ?_⟩
  · refine ((C116_best rfl hw hr one_pos hG h1 h2 le_rfl le_rfl h3 ![0, 1]).2 0 ![-1 / 2, 0, 1 / 2]
      fun γ => ?_).1
    have e : ∀ i, linPred (smRaw none) true γ i = γ (0 : Fin 2) + ![0, 1, 2] i * γ (1 : Fin 2) := fun i => by
      simp [linPred, offset, smRaw, design, ncols, Fin.sum_univ_two]
    have e2 : (![0, 1] : Fin 2 → ℝ) ⬝ᵥ γ = γ (1 : Fin 2) := by
      simp [dotProduct, Fin.sum_univ_two]
    refine Eq.trans ?_ e2.symm
    simp only [e, Fin.sum_univ_three]
    simp
    ring
  · refine C116_ridge_error rfl hw hr hG h1 h2 le_rfl le_rfl h3 hf' le_rfl hs' 0 (by norm_num [exOpts]) ?_ _
    have hσ : scale (d 0) = fun _ => 1 := by
      obtain ⟨-, -, -, -, h4⟩ := Dataset.finalize_cases (h1 0)
      rcases h4 with ⟨-, -, h4⟩ | ⟨h4, -⟩
      · funext j; simp [scale, h4]
      · simp at h4
    rw [hσ]
    simp [exOpts, slopes]

end GLM
