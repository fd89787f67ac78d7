/-
  The Linear family in closed form.
-/
import Verif.Lemmas.Quad
import Verif.Spec.LeastSquares
import Mathlib.Algebra.BigOperators.Field

namespace GLM
open Spec Matrix
variable {n p : ℕ} {b : Bool} {raw : Dataset ℝ n p false}

/-- The Linear family over the reals. -/
noncomputable abbrev linG : Glm ℝ := Family.linear.glm

theorem linG_mean (ω : ℝ) : linG.link.funcInv ω = ω := by rw [funcInv_real]
theorem linG_dNat (ω : ℝ) : linG.link.dNatParam ω = 1 := by rw [dNatParam_real]
theorem linG_nat (ω : ℝ) : linG.link.natParam ω = ω := by rw [natParam_real]
theorem linG_var (μ : ℝ) : linG.variance μ = 1 := by rw [variance_real]; rfl
theorem linG_like (y η : ℝ) : linG.logLikeNatural y η = y * η - η ^ 2 / 2 := by
  rw [logLikeNatural_real]; rfl

theorem linPred_add (β δ : Vec ℝ (ncols b p)) (i : Fin n) :
    linPred raw b (β + δ) i = linPred raw b β i + ∑ j, design b raw.x i j * δ j := by
  simp only [linPred, Pi.add_apply, mul_add, Finset.sum_add_distrib]; ring

theorem lin_fisher (β : Vec ℝ (ncols b p)) : fisherMat linG raw b β = gram raw b := by
  ext j k
  simp only [fisherMat, gram, linG_dNat, linG_var, one_pow, mul_one]

theorem lin_score (β : Vec ℝ (ncols b p)) (j : Fin (ncols b p)) : scoreVec linG raw b β j
    = ∑ i, totalWt raw i * (raw.y i - linPred raw b β i) * design b raw.x i j := by
  simp only [scoreVec, meanAt, linG_dNat, linG_mean, mul_one]

theorem lin_score_add (β δ : Vec ℝ (ncols b p)) :
    scoreVec linG raw b (β + δ) = scoreVec linG raw b β - gram raw b *ᵥ δ := by
  funext j
  simp only [lin_score, Pi.sub_apply, linPred_add, mulVec, dotProduct, gram, Finset.sum_mul]
  rw [Finset.sum_comm, ← Finset.sum_sub_distrib]
  refine Finset.sum_congr rfl fun i _ => ?_
  have : ∑ k, totalWt raw i * design b raw.x i j * design b raw.x i k * δ k
      = totalWt raw i * design b raw.x i j * ∑ k, design b raw.x i k * δ k := by
    rw [Finset.mul_sum]; exact Finset.sum_congr rfl fun k _ => by ring
  rw [this]; ring

theorem sse_add (β δ : Vec ℝ (ncols b p)) : sse raw b (β + δ) =
    sse raw b β - 2 * (scoreVec linG raw b β ⬝ᵥ δ) + δ ⬝ᵥ (gram raw b *ᵥ δ) := by
  rw [quad_gram]
  simp only [sse, linPred_add, dotProduct, lin_score, Finset.sum_mul]
  rw [Finset.sum_comm, Finset.mul_sum, ← Finset.sum_sub_distrib, ← Finset.sum_add_distrib]
  refine Finset.sum_congr rfl fun i _ => ?_
  have : ∑ j, totalWt raw i * (raw.y i - linPred raw b β i) * design b raw.x i j * δ j
      = totalWt raw i * (raw.y i - linPred raw b β i) * ∑ j, design b raw.x i j * δ j := by
    rw [Finset.mul_sum]; exact Finset.sum_congr rfl fun k _ => by ring
  rw [this]; ring

theorem lin_logLik (β : Vec ℝ (ncols b p)) : logLik linG raw b β =
    (∑ i, totalWt raw i * raw.y i ^ 2) / 2 - sse raw b β / 2 := by
  simp only [logLik, logLikAt, linG_nat, linG_like, sse, Finset.sum_div]
  rw [← Finset.sum_sub_distrib]
  exact Finset.sum_congr rfl fun i _ => by ring

/-- The normal equations characterise weighted least squares. -/
theorem isLeastSquares_iff (hw : ∀ i, 0 ≤ totalWt raw i) (β : Vec ℝ (ncols b p)) :
    IsLeastSquares raw b β ↔ scoreVec linG raw b β = 0 := by
  constructor
  · intro h
    set s := scoreVec linG raw b β with hs
    set q := s ⬝ᵥ (gram raw b *ᵥ s) with hq
    have hq0 : 0 ≤ q := gram_nonneg hw s
    have key : ∀ t : ℝ, 0 ≤ t * t * q - 2 * t * (s ⬝ᵥ s) := by
      intro t
      have := h (β + t • s)
      rw [sse_add, dotProduct_smul, mulVec_smul, smul_dotProduct, dotProduct_smul] at this
      simp only [smul_eq_mul, ← hs, ← hq] at this
      nlinarith
    have h0 : s ⬝ᵥ s ≤ 0 := by
      by_contra hpos
      push Not at hpos
      have h1 : 0 < q + 1 := by linarith
      have := key (s ⬝ᵥ s / (q + 1))
      have e : s ⬝ᵥ s / (q + 1) * (s ⬝ᵥ s / (q + 1)) * q - 2 * (s ⬝ᵥ s / (q + 1)) * (s ⬝ᵥ s)
          = -((s ⬝ᵥ s) ^ 2 * (q + 2) / (q + 1) ^ 2) := by field_simp; ring
      rw [e] at this
      have : 0 < (s ⬝ᵥ s) ^ 2 * (q + 2) / (q + 1) ^ 2 := by positivity
      linarith
    have h1 : s ⬝ᵥ s = 0 := le_antisymm h0 (Finset.sum_nonneg fun i _ => mul_self_nonneg _)
    exact dotProduct_self_eq_zero.mp h1
  · intro h β'
    have := sse_add (raw := raw) β (β' - β)
    rw [add_sub_cancel, h, zero_dotProduct] at this
    have := gram_nonneg hw (β' - β)
    linarith

end GLM
