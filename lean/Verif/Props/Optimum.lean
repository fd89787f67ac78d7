/-
  C29: a stationary fit is the global optimum, for log-concave families.
-/
import Verif.Lemmas.Concave
import Verif.Props.Convergence

namespace GLM
open Spec Matrix
variable {n p : ℕ} {b : Bool} {env : Env ℝ} {raw : Dataset ℝ n p false} {std : Bool}
  {d : Dataset ℝ n p b} {options : FitOptions ℝ (ncols b p)}

namespace Spec

/-- Coefficients at which every observation has an admissible mean. -/
def Admissible (fam : Family) (raw : Dataset ℝ n p false) (b : Bool) (β : Vec ℝ (ncols b p)) :
    Prop := ∀ i, linPred raw b β i ∈ predDom fam

/-- Setting in which the log-likelihood is concave: valid pair other than inverse Gaussian with log
link, non-negative weights, and responses in the family's domain if the link is not canonical. -/
structure Concave (fam : Family) (raw : Dataset ℝ n p false) : Prop where
  valid : ValidFamily fam
  pair : ConcavePair fam
  y : IsCanonical fam ∨ ∀ i, raw.y i ∈ yDom fam
  weights : ∀ i, 0 ≤ totalWt raw i

end Spec

theorem linPred_diff (β β' : Vec ℝ (ncols b p)) (i : Fin n) :
    linPred raw b β' i - linPred raw b β i = ∑ j, design b raw.x i j * (β' - β) j := by
  simp only [linPred, Pi.sub_apply, mul_sub, Finset.sum_sub_distrib]
  ring

theorem scoreVec_dot (g : Glm ℝ) (β x : Vec ℝ (ncols b p)) :
    scoreVec g raw b β ⬝ᵥ x = ∑ i, totalWt raw i * (g.link.dNatParam (linPred raw b β i)
      * (raw.y i - meanAt g raw b β i) * ∑ j, design b raw.x i j * x j) := by
  simp only [dotProduct, scoreVec, Finset.sum_mul, Finset.mul_sum]
  rw [Finset.sum_comm]
  exact Finset.sum_congr rfl fun i _ => Finset.sum_congr rfl fun j _ => by ring

/-- Gap between the tangent plane and the log-likelihood, observation by observation. -/
noncomputable def gapAt (fam : Family) (raw : Dataset ℝ n p false) (b : Bool)
    (β β' : Vec ℝ (ncols b p)) (i : Fin n) : ℝ :=
  totalWt raw i * (logLikAt fam.glm raw b β i + fam.glm.link.dNatParam (linPred raw b β i)
      * (raw.y i - meanAt fam.glm raw b β i) * (linPred raw b β' i - linPred raw b β i)
      - logLikAt fam.glm raw b β' i)

theorem logLik_gap (fam : Family) (β β' : Vec ℝ (ncols b p)) :
    logLik fam.glm raw b β + scoreVec fam.glm raw b β ⬝ᵥ (β' - β) - logLik fam.glm raw b β'
      = ∑ i, gapAt fam raw b β β' i := by
  rw [scoreVec_dot]
  simp only [logLik, ← Finset.sum_add_distrib, ← Finset.sum_sub_distrib, gapAt]
  exact Finset.sum_congr rfl fun i _ => by rw [linPred_diff]; ring

theorem gapAt_nonneg {fam : Family} (h : Spec.Concave fam raw) {β β' : Vec ℝ (ncols b p)}
    (hβ : Admissible fam raw b β) (hβ' : Admissible fam raw b β') (i : Fin n) :
    0 ≤ gapAt fam raw b β β' i := by
  refine mul_nonneg (h.weights i) ?_
  have := logLikeAt_tangent_le fam h.valid h.pair (h.y.imp_right fun hy => hy i) (hβ' i) (hβ i)
  simp only [logLikAt, meanAt]
  linarith

theorem gapAt_pos {fam : Family} (h : Spec.Concave fam raw) {β β' : Vec ℝ (ncols b p)}
    (hβ : Admissible fam raw b β) (hβ' : Admissible fam raw b β') {i : Fin n}
    (hw : 0 < totalWt raw i) (hne : linPred raw b β' i ≠ linPred raw b β i) :
    0 < gapAt fam raw b β β' i := by
  refine mul_pos hw ?_
  have := logLikeAt_tangent_lt fam h.valid h.pair (h.y.imp_right fun hy => hy i) (hβ' i) (hβ i) hne
  simp only [logLikAt, meanAt]
  linarith

/-- The penalty lies above its tangent plane by at least the curvature of its L2 part. -/
theorem penalty_gap (l1 l2 : ℝ) {σ : Fin p → ℝ} (hσ : ∀ j, 0 < σ j) (β β' : Vec ℝ (ncols b p)) :
    penalty l1 l2 σ b β + onSlopes b (fun j =>
        max l1 0 * (σ j * SignType.sign (slopes b β j)) + max l2 0 * (σ j ^ 2 * slopes b β j))
        ⬝ᵥ (β' - β)
      + ((β' - β) ⬝ᵥ (ridgeMat l2 σ b *ᵥ (β' - β))) / 2 ≤ penalty l1 l2 σ b β' := by
  have hs : slopes b (β' - β) = slopes b β' - slopes b β := by cases b <;> rfl
  rw [onSlopes_dot _ _ _ hs, quad_ridge, hs]
  simp only [penalty, Finset.mul_sum, Finset.sum_div, ← Finset.sum_add_distrib]
  refine Finset.sum_le_sum fun j _ => ?_
  simp only [Pi.sub_apply]
  have habs : |σ j * slopes b β j| + σ j * SignType.sign (slopes b β j)
      * (slopes b β' j - slopes b β j) ≤ |σ j * slopes b β' j| := by
    rw [abs_mul, abs_mul, abs_of_pos (hσ j)]
    have h1 : (SignType.sign (slopes b β j) : ℝ) * slopes b β j = |slopes b β j| := by
      rw [mul_comm]; exact self_mul_sign _
    have h2 : (SignType.sign (slopes b β j) : ℝ) * slopes b β' j ≤ |slopes b β' j| := by
      rcases lt_trichotomy (slopes b β j) 0 with h | h | h
      · simp only [sign_neg h, SignType.coe_neg_one]; linarith [neg_le_abs (slopes b β' j)]
      · simp [h]
      · simp only [sign_pos h, SignType.coe_one]; linarith [le_abs_self (slopes b β' j)]
    have := mul_le_mul_of_nonneg_left h2 (hσ j).le
    have e : σ j * (SignType.sign (slopes b β j) : ℝ) * (slopes b β' j - slopes b β j)
        = σ j * (SignType.sign (slopes b β j) * slopes b β' j)
          - σ j * (SignType.sign (slopes b β j) * slopes b β j) := by ring
    rw [e, h1]
    linarith
  have h1 := mul_le_mul_of_nonneg_left habs (le_max_right l1 0)
  nlinarith [h1]

/-- The penalized log-likelihood lies below its tangent plane, by at least the curvature of the L2
penalty; the L1 part contributes a subgradient. -/
theorem penLogLik_gap {fam : Family} (l1 l2 : ℝ) {σ : Fin p → ℝ} (hσ : ∀ j, 0 < σ j)
    (β β' : Vec ℝ (ncols b p)) :
    penLogLik fam.glm raw b l1 l2 σ β' + (∑ i, gapAt fam raw b β β' i
        + ((β' - β) ⬝ᵥ (ridgeMat l2 σ b *ᵥ (β' - β))) / 2)
      ≤ penLogLik fam.glm raw b l1 l2 σ β + penScore fam.glm raw b l1 l2 σ β ⬝ᵥ (β' - β) := by
  have h1 := logLik_gap (raw := raw) fam β β'
  have h2 := penalty_gap (b := b) l1 l2 hσ β β'
  have h3 : penScore fam.glm raw b l1 l2 σ β = scoreVec fam.glm raw b β - onSlopes b (fun j =>
    max l1 0 * (σ j * SignType.sign (slopes b β j)) + max l2 0 * (σ j ^ 2 * slopes b β j)) := rfl
  rw [h3, sub_dotProduct (scoreVec _ _ _ _) (onSlopes _ _)]
  simp only [penLogLik]
  linarith

theorem ridge_nonneg (l2 : ℝ) (σ : Fin p → ℝ) (x : Vec ℝ (ncols b p)) :
    0 ≤ x ⬝ᵥ (ridgeMat l2 σ b *ᵥ x) := by
  rw [quad_ridge]
  exact Finset.sum_nonneg fun j _ =>
    mul_nonneg (mul_nonneg (le_max_right _ _) (sq_nonneg _)) (sq_nonneg _)

/-- C29.  For every pair except inverse Gaussian with log link: admissible coefficients with zero
penalized score maximize the penalized log-likelihood over all admissible coefficients. -/
theorem C29_global_optimum {fam : Family} (h : Spec.Concave fam raw) {l1 l2 : ℝ} {σ : Fin p → ℝ}
    (hσ : ∀ j, 0 < σ j) {β : Vec ℝ (ncols b p)} (hβ : Admissible fam raw b β)
    (hs : penScore fam.glm raw b l1 l2 σ β = 0) (β' : Vec ℝ (ncols b p))
    (hβ' : Admissible fam raw b β') :
    penLogLik fam.glm raw b l1 l2 σ β' ≤ penLogLik fam.glm raw b l1 l2 σ β := by
  have h1 := penLogLik_gap (raw := raw) (fam := fam) l1 l2 hσ β β'
  have h2 := Finset.sum_nonneg fun i (_ : i ∈ Finset.univ) => gapAt_nonneg h hβ hβ' i
  have h3 := ridge_nonneg (b := b) l2 σ (β' - β)
  rw [hs, zero_dotProduct] at h1
  linarith

/-- C29 (uniqueness).  If moreover `XᵀWX` plus the L2 curvature is positive definite, every other
admissible coefficient vector is strictly worse. -/
theorem C29_unique_optimum {fam : Family} (h : Spec.Concave fam raw) {l1 l2 : ℝ} {σ : Fin p → ℝ}
    (hσ : ∀ j, 0 < σ j) (hpd : (gram raw b + ridgeMat l2 σ b).PosDef) {β : Vec ℝ (ncols b p)}
    (hβ : Admissible fam raw b β) (hs : penScore fam.glm raw b l1 l2 σ β = 0)
    {β' : Vec ℝ (ncols b p)} (hβ' : Admissible fam raw b β') (hne : β' ≠ β) :
    penLogLik fam.glm raw b l1 l2 σ β' < penLogLik fam.glm raw b l1 l2 σ β := by
  have h1 := penLogLik_gap (raw := raw) (fam := fam) l1 l2 hσ β β'
  have h2 := Finset.sum_nonneg fun i (_ : i ∈ Finset.univ) => gapAt_nonneg h hβ hβ' i
  have h3 := ridge_nonneg (b := b) l2 σ (β' - β)
  rw [hs, zero_dotProduct] at h1
  have hpos := hpd.dotProduct_mulVec_pos (sub_ne_zero.mpr hne)
  rw [show star (β' - β) = β' - β from by ext; simp, add_mulVec, dotProduct_add, quad_gram] at hpos
  by_contra hcon
  push Not at hcon
  have h4 : ∑ i, gapAt fam raw b β β' i = 0 := by linarith
  have h5 : (β' - β) ⬝ᵥ (ridgeMat l2 σ b *ᵥ (β' - β)) = 0 := by linarith
  rw [Finset.sum_eq_zero_iff_of_nonneg fun i _ => gapAt_nonneg h hβ hβ' i] at h4
  rw [h5, add_zero] at hpos
  refine hpos.ne' (Finset.sum_eq_zero fun i _ => ?_)
  rcases (h.weights i).eq_or_lt with hw | hw
  · rw [← hw, zero_mul]
  · rw [← linPred_diff]
    by_cases hl : linPred raw b β' i = linPred raw b β i
    · rw [hl]; simp
    · exact absurd (h4 i (Finset.mem_univ _)) (gapAt_pos h hβ hβ' hw hl).ne'

/-- C29 (algorithm).  A point that the solver maps to itself, and at which every observation has an
admissible mean, maximizes the penalized log-likelihood. -/
theorem C29_fixed_point {fam : Family} (he : env.Exact) (hd : raw.finalize std b = some d)
    (h : Spec.Concave fam raw) (hl1 : options.l1 ≤ 0) {β : Vec ℝ (ncols b p)}
    (hβ : Admissible fam raw b β)
    (hu : IsUnit (newtonMat env.eps fam.glm raw b options.l2 (scale d) β).det)
    (hfix : newtonPoint env fam.glm d options β = .ok β) (β' : Vec ℝ (ncols b p))
    (hβ' : Admissible fam raw b β') :
    penLogLik fam.glm raw b options.l1 options.l2 (scale d) β'
      ≤ penLogLik fam.glm raw b options.l1 options.l2 (scale d) β := by
  obtain ⟨β'', h1, -, h2⟩ := C22_fixed_point he (Family.lawfulAdj fam) hd hl1 β hu
  rw [hfix] at h1
  cases h1
  exact C29_global_optimum h (Dataset.scale_pos hd) hβ (h2.mp rfl) β' hβ'

/-! ### Concrete cases -/

/-- Poisson regression of all-one counts: zero is the unique optimum, with and without ridge. -/
example (l2 : ℝ) (β' : Vec ℝ (ncols true 1)) (hne : β' ≠ 0) :
    penLogLik Family.poisson.glm (exRaw ![1, 1, 1]) true 0 l2 (fun _ => 1) β'
      < penLogLik Family.poisson.glm (exRaw ![1, 1, 1]) true 0 l2 (fun _ => 1) 0 := by
  refine C29_unique_optimum (fam := .poisson)
    ⟨trivial, trivial, Or.inl trivial, fun i => (exRaw_totalWt_pos _ i).le⟩ (fun _ => one_pos) ?_
    (fun _ => trivial) (exPoisson_stationary _ _) (fun _ => trivial) hne
  refine PosDef.of_dotProduct_mulVec_pos
    (isHermitian_of_symm (gram_symm.add (isSymm_diagonal _))) fun x hx => ?_
  rw [show star x = x from by ext; simp, add_mulVec, dotProduct_add]
  have h1 := gram_pos (raw := exRaw ![1, 1, 1]) (b := true)
    (fun i => (exRaw_totalWt_pos _ i).le) (exRaw_gram_det _) hx
  have h2 := ridge_nonneg (b := true) l2 (fun _ => 1) x
  linarith

end GLM
