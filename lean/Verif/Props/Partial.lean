/-
  C113: what one coefficient means in the presence of the other features.
-/
import Verif.Spec.Partial
import Verif.Props.Exposure
import Verif.Props.OneFeature

namespace GLM
open Spec Matrix
variable {n p : ℕ} {b : Bool} {env env' env₁ env₂ : Env ℝ} {fam : Family}

/-- The position of the coefficient of feature `j`. -/
def slopeIdx : (b : Bool) → Fin (p + 1) → Fin (ncols b (p + 1))
  | true, j => (j.succ : Fin (p + 2))
  | false, j => j

/-- The positions of the other coefficients. -/
def otherIdx : (b : Bool) → Fin (p + 1) → Fin (ncols b p) → Fin (ncols b (p + 1))
  | true, j => fun k : Fin (p + 1) => ((j.succ : Fin (p + 2)).succAbove k : Fin (p + 2))
  | false, j => fun k => j.succAbove k

theorem slope_idx (j : Fin (p + 1)) (β : Vec ℝ (ncols b (p + 1))) : slope β j = β (slopeIdx b j) := by
  cases b <;> rfl

theorem without_idx (j : Fin (p + 1)) (β : Vec ℝ (ncols b (p + 1))) (k : Fin (ncols b p)) :
    without b j β k = β (otherIdx b j k) := by
  cases b <;> rfl

theorem sum_idx (j : Fin (p + 1)) (G : Fin (ncols b (p + 1)) → ℝ) :
    ∑ k, G k = G (slopeIdx b j) + ∑ k, G (otherIdx b j k) := by
  cases b
  · exact Fin.sum_univ_succAbove (n := p) G j
  · exact Fin.sum_univ_succAbove (n := p + 1) G (j.succ : Fin (p + 2))

theorem idx_cases (j : Fin (p + 1)) (k : Fin (ncols b (p + 1))) :
    k = slopeIdx b j ∨ ∃ k', k = otherIdx b j k' := by
  cases b
  · by_cases hk : k = j
    · exact .inl hk
    · obtain ⟨k', rfl⟩ := Fin.exists_succAbove_eq hk
      exact .inr ⟨k', rfl⟩
  · by_cases hk : k = (j.succ : Fin (p + 2))
    · exact .inl hk
    · obtain ⟨k', rfl⟩ := Fin.exists_succAbove_eq hk
      exact .inr ⟨k', rfl⟩

theorem otherIdx_ne (j : Fin (p + 1)) (k : Fin (ncols b p)) : otherIdx b j k ≠ slopeIdx b j := by
  cases b
  · exact Fin.succAbove_ne j k
  · exact Fin.succAbove_ne (j.succ : Fin (p + 2)) k

theorem design_slope (x : Mat ℝ n (p + 1)) (i : Fin n) (j : Fin (p + 1)) :
    design b x i (slopeIdx b j) = x i j := by
  cases b <;> rfl

theorem design_other {x : Mat ℝ n (p + 1)} {x' : Mat ℝ n p} {j : Fin (p + 1)}
    (h : ∀ i k, x' i k = x i (j.succAbove k)) (i : Fin n) (k : Fin (ncols b p)) :
    design b x i (otherIdx b j k) = design b x' i k := by
  cases b
  · exact (h i k).symm
  · change Fin (p + 1) at k
    refine Fin.cases ?_ (fun k => ?_) k
    · change (Fin.cons 1 (x i) : Fin (p + 2) → ℝ) ((j.succ : Fin (p + 2)).succAbove 0) = 1
      rw [Fin.succ_succAbove_zero]; rfl
    · change (Fin.cons 1 (x i) : Fin (p + 2) → ℝ) ((j.succ : Fin (p + 2)).succAbove k.succ) = x' i k
      rw [Fin.succ_succAbove_succ, h]; rfl

namespace Spec.PlainFit
variable {raw : Dataset ℝ n p false} {std : Bool} {d : Dataset ℝ n p b} {o : FitOptions ℝ (ncols b p)}
  {f : Fit ℝ n p b} (h : PlainFit env fam raw std d o f)
include h

theorem score_eq : scoreVec fam.glm raw b f.result = 0 := by
  rw [← h.score, (C10_external (Family.lawfulAdj fam) h.built h.l1 h.fit).2.1]
  funext j
  simp only [penScore, max_eq_right h.l1, max_eq_right h.l2, zero_mul, add_zero, onSlopes_zero,
    sub_zero]

theorem fisher_eq : Matrix.of (f.fisher f.result) = fisherMat fam.glm raw b f.result := by
  rw [(C10_external (Family.lawfulAdj fam) h.built h.l1 h.fit).2.2.1, ridgeMat, max_eq_right h.l2]
  simp [onSlopes_zero]

end Spec.PlainFit

theorem plain_deviance {raw : Dataset ℝ n p false} {std : Bool} {d : Dataset ℝ n p b}
    {o : FitOptions ℝ (ncols b p)} {f : Fit ℝ n p b} (h : PlainFit env .linear raw std d o f) :
    f.deviance = sse raw b f.result := by
  have hsat : satLik linG raw = (∑ i, totalWt raw i * raw.y i ^ 2) / 2 := by
    rw [satLik, Finset.sum_div]
    refine Finset.sum_congr rfl fun i _ => ?_
    rw [show (Family.linear.glm (F := ℝ)).logLikeSat (raw.y i) = raw.y i ^ 2 / 2 from ?_]
    · ring
    · rw [logLikeSat_real]
  rw [C36_deviance h.built h.fit, lin_logLik, hsat]
  ring

section
variable {raw : Dataset ℝ n (p + 1) false} {j : Fin (p + 1)} {ω : Fin n → ℝ} {aux : Dataset ℝ n p false}
  {std std₁ std₂ : Bool} {d : Dataset ℝ n (p + 1) b} {d₁ d₂ : Dataset ℝ n p b}
  {o : FitOptions ℝ (ncols b (p + 1))} {o₁ o₂ : FitOptions ℝ (ncols b p)}
  {f : Fit ℝ n (p + 1) b} {g e : Fit ℝ n p b}

/-- The residual of the auxiliary regression. -/
noncomputable def auxRes (raw : Dataset ℝ n (p + 1) false) (j : Fin (p + 1)) (aux : Dataset ℝ n p false)
    (γ : Vec ℝ (ncols b p)) (i : Fin n) : ℝ := raw.x i j - ∑ k, design b aux.x i k * γ k

theorem aux_orthogonal (ha : Auxiliary raw j ω aux) (hg : PlainFit env₁ .linear aux std₁ d₁ o₁ g)
    (k : Fin (ncols b p)) : ∑ i, ω i * auxRes raw j aux g.result i * design b aux.x i k = 0 := by
  have := congrFun hg.score_eq k
  rw [lin_score, Pi.zero_apply] at this
  rw [← this]
  refine Finset.sum_congr rfl fun i _ => ?_
  rw [ha.weight, ha.response, linPred, offset_none ha.offset, add_zero, auxRes]

theorem aux_deviance (ha : Auxiliary raw j ω aux) (hg : PlainFit env₁ .linear aux std₁ d₁ o₁ g) :
    g.deviance = ∑ i, ω i * auxRes raw j aux g.result i ^ 2 := by
  rw [plain_deviance hg, sse]
  refine Finset.sum_congr rfl fun i _ => ?_
  rw [ha.weight, ha.response, linPred, offset_none ha.offset, add_zero, auxRes]

theorem aux_resid (ha : Auxiliary raw j ω aux) (hg : PlainFit env₁ .linear aux std₁ d₁ o₁ g) (i : Fin n) :
    g.residResp i = auxRes raw j aux g.result i := by
  obtain ⟨g1, -, -, hf⟩ := regression_ofRaw hg.built hg.fit
  rw [hf.residResp, g1, ha.response, meanAt, linG_mean, linPred, offset_none ha.offset, add_zero, auxRes]

/-- Sums over the columns against the auxiliary residual: only column `j` counts. -/
theorem aux_column (ha : Auxiliary raw j ω aux) (hg : PlainFit env₁ .linear aux std₁ d₁ o₁ g)
    (δ : Vec ℝ (ncols b (p + 1))) :
    ∑ i, ω i * auxRes raw j aux g.result i * ∑ k, design b raw.x i k * δ k = g.deviance * slope δ j := by
  have h0 : ∀ η : Vec ℝ (ncols b p),
      ∑ i, ω i * auxRes raw j aux g.result i * ∑ k, design b aux.x i k * η k = 0 := by
    intro η
    simp only [Finset.mul_sum]
    rw [Finset.sum_comm]
    refine Finset.sum_eq_zero fun k _ => ?_
    have := congrArg (· * η k) (aux_orthogonal ha hg k)
    rw [zero_mul, Finset.sum_mul] at this
    rw [← this]
    exact Finset.sum_congr rfl fun i _ => by ring
  have e1 : ∀ i, ∑ k, design b raw.x i k * δ k
      = auxRes raw j aux g.result i * slope δ j
        + ∑ k, design b aux.x i k * (slope δ j * g.result k + without b j δ k) := by
    intro i
    rw [sum_idx j, design_slope, ← slope_idx j δ, auxRes]
    simp only [design_other ha.features, without_idx, mul_add, Finset.sum_add_distrib]
    have : ∑ k, design b aux.x i k * (slope δ j * g.result k)
        = slope δ j * ∑ k, design b aux.x i k * g.result k := by
      rw [Finset.mul_sum]; exact Finset.sum_congr rfl fun k _ => by ring
    rw [this]; ring
  simp only [e1, mul_add _ (_ * slope δ j), Finset.sum_add_distrib, h0 fun k => _]
  rw [add_zero, aux_deviance ha hg, Finset.sum_mul]
  exact Finset.sum_congr rfl fun i _ => by ring

/-- **C113** (partial regression).  The coefficient of feature `j` of a linear model is found by regressing the
responses on what the other features leave of feature `j`: the residuals `r` of the linear regression of
feature `j` on the others. -/
theorem C113_slope (hf : PlainFit env .linear raw std d o f) (ha : Auxiliary raw j (totalWt raw) aux)
    (hg : PlainFit env₁ .linear aux std₁ d₁ o₁ g) :
    slope f.result j * ∑ i, totalWt raw i * g.residResp i ^ 2
      = ∑ i, totalWt raw i * g.residResp i * (raw.y i - offset raw i) := by
  have h1 := aux_column ha hg f.result
  have h2 : ∑ i, totalWt raw i * auxRes raw j aux g.result i * (raw.y i - linPred raw b f.result i) = 0 := by
    have s : ∀ k, ∑ i, totalWt raw i * (raw.y i - linPred raw b f.result i) * design b raw.x i k = 0 := fun k => by
      have := congrFun hf.score_eq k
      rwa [lin_score] at this
    have s0 := s (slopeIdx b j)
    simp only [design_slope] at s0
    have s1 : ∑ i, totalWt raw i * (raw.y i - linPred raw b f.result i) * ∑ k, design b aux.x i k * g.result k
        = 0 := by
      simp only [Finset.mul_sum]
      rw [Finset.sum_comm]
      refine Finset.sum_eq_zero fun k _ => ?_
      have := congrArg (· * g.result k) (s (otherIdx b j k))
      simp only [design_other ha.features, zero_mul, Finset.sum_mul] at this
      rw [← this]
      exact Finset.sum_congr rfl fun i _ => by ring
    rw [← sub_zero (0 : ℝ)]
    nth_rw 1 [← s0]
    rw [← s1, ← Finset.sum_sub_distrib]
    exact Finset.sum_congr rfl fun i _ => by rw [auxRes]; ring
  simp only [aux_resid ha hg]
  rw [← aux_deviance ha hg, mul_comm, ← h1, ← sub_eq_zero, ← Finset.sum_sub_distrib, ← neg_eq_zero, ← h2,
    ← Finset.sum_neg_distrib]
  refine Finset.sum_congr rfl fun i _ => ?_
  rw [linPred]; ring

/-- **C113** (variance).  For every family and link, the variance of the coefficient of feature `j` is the
dispersion over the residual sum of squares of the regression of feature `j` on the others, with the weights
of the observations in the information.  The better the other features predict feature `j`, the larger it is. -/
theorem C113_variance (hf : PlainFit env fam raw std d o f) (ha : Auxiliary raw j (infoWt fam raw b f.result) aux)
    (hg : PlainFit env₁ .linear aux std₁ d₁ o₁ g) (he : env'.Exact)
    (hu : IsUnit (fisherMat fam.glm raw b f.result).det) :
    g.deviance ≠ 0 ∧ ∃ cov, f.covariance env' = .ok cov ∧
      slope (fun k => cov k k) j = f.dispersion / g.deviance ∧
      ∃ z, f.waldZ env' = .ok z ∧ slope z j = slope f.result j / √(f.dispersion / g.deviance) := by
  have hdet : IsUnit (Matrix.of (f.fisher f.result)).det := by rw [hf.fisher_eq]; exact hu
  obtain ⟨cov, hcov⟩ : ∃ cov, f.covariance env' = .ok cov := by
    unfold Fit.covariance Fit.fisherInv
    rw [he.inv_eq hdet]
    exact ⟨_, rfl⟩
  obtain ⟨-, hc⟩ := covariance_eq (Family.lawfulAdj fam) hf.built hf.fit he hcov
  rw [← hf.fisher_eq, nonsing_inv_mul _ hdet, Matrix.one_mul, hf.fisher_eq] at hc
  set A := fisherMat fam.glm raw b f.result with hA
  have hw : ∀ δ : Vec ℝ (ncols b (p + 1)), ∀ k, (A *ᵥ δ) k
      = ∑ i, infoWt fam raw b f.result i * design b raw.x i k * ∑ l, design b raw.x i l * δ l := by
    intro δ k
    simp only [mulVec, dotProduct, hA, fisherMat, Finset.sum_mul, Finset.mul_sum]
    rw [Finset.sum_comm]
    refine Finset.sum_congr rfl fun i _ => Finset.sum_congr rfl fun l _ => ?_
    rw [infoWt, variance_real]; ring
  -- the column of the inverse
  set δ : Vec ℝ (ncols b (p + 1)) := fun k => A⁻¹ k (slopeIdx b j) with hδ
  have hAδ : ∀ k, (A *ᵥ δ) k = if k = slopeIdx b j then 1 else 0 := by
    intro k
    have := congrFun (congrFun (mul_nonsing_inv A hu) k) (slopeIdx b j)
    rw [one_apply] at this
    rw [← this]; rfl
  have key : g.deviance * slope δ j = 1 := by
    rw [← aux_column ha hg δ]
    have e : ∑ i, infoWt fam raw b f.result i * auxRes raw j aux g.result i * ∑ k, design b raw.x i k * δ k
        = (A *ᵥ δ) (slopeIdx b j) - ∑ k, g.result k * (A *ᵥ δ) (otherIdx b j k) := by
      simp only [hw, design_slope, design_other ha.features, Finset.mul_sum (s := Finset.univ (α := Fin n))]
      rw [Finset.sum_comm (s := Finset.univ (α := Fin (ncols b p))), ← Finset.sum_sub_distrib]
      refine Finset.sum_congr rfl fun i _ => ?_
      rw [auxRes]
      generalize ∑ l, design b raw.x i l * δ l = t
      have : ∑ k, g.result k * (infoWt fam raw b f.result i * design b aux.x i k * t)
          = infoWt fam raw b f.result i * t * ∑ k, design b aux.x i k * g.result k := by
        rw [Finset.mul_sum]; exact Finset.sum_congr rfl fun k _ => by ring
      rw [this]; ring
    rw [e, hAδ, if_pos rfl, Finset.sum_eq_zero fun k _ => by rw [hAδ, if_neg (otherIdx_ne j k), mul_zero],
      sub_zero]
  have h0 : g.deviance ≠ 0 := left_ne_zero_of_mul_eq_one key
  have hv : slope (fun k => cov k k) j = f.dispersion / g.deviance := by
    rw [slope_idx, eq_div_iff h0]
    have := congrFun (congrFun hc (slopeIdx b j)) (slopeIdx b j)
    rw [Matrix.smul_apply, smul_eq_mul] at this
    refine (congrArg (· * g.deviance) this).trans ?_
    rw [slope_idx] at key
    have e : A⁻¹ (slopeIdx b j) (slopeIdx b j) = δ (slopeIdx b j) := rfl
    rw [e, mul_assoc, mul_comm (δ _), key, mul_one]
  refine ⟨h0, cov, hcov, hv, fun k => f.result k / √(cov k k), ?_, ?_⟩
  · unfold Fit.waldZ
    rw [hcov]
    rfl
  · rw [← hv]
    cases b <;> rfl

/-- **C113** (leaving a feature out).  The coefficients of the linear model without feature `j` are the other
coefficients of the model with it, plus its coefficient times the coefficients of the regression of feature `j`
on the others. -/
theorem C113_omitted (hf : PlainFit env .linear raw std d o f) (ha : Auxiliary raw j (totalWt raw) aux)
    (hg : PlainFit env₁ .linear aux std₁ d₁ o₁ g) (he : PlainFit env₂ .linear (dropFeature raw j) std₂ d₂ o₂ e)
    (hu : IsUnit (gram (dropFeature raw j) b).det) :
    e.result = without b j f.result + slope f.result j • g.result := by
  have hk : scoreVec linG (dropFeature raw j) b (without b j f.result + slope f.result j • g.result) = 0 := by
    funext k
    have h1 := congrFun hf.score_eq (otherIdx b j k)
    rw [lin_score, Pi.zero_apply] at h1
    have h2 := congrArg (slope f.result j * ·) (aux_orthogonal ha hg k)
    rw [mul_zero, Finset.mul_sum] at h2
    rw [lin_score, Pi.zero_apply, ← add_zero (0 : ℝ)]
    nth_rw 2 [← h2]
    rw [← h1, ← Finset.sum_add_distrib]
    refine Finset.sum_congr rfl fun i _ => ?_
    have hx : ∀ k : Fin (ncols b p), design b (dropFeature raw j).x i k = design b aux.x i k := fun k =>
      (design_other (x := raw.x) (x' := (dropFeature raw j).x) (j := j) (fun _ _ => rfl) i k).symm.trans
        (design_other ha.features i k)
    have hl : linPred (dropFeature raw j) b (without b j f.result + slope f.result j • g.result) i
        = linPred raw b f.result i - slope f.result j * auxRes raw j aux g.result i := by
      rw [linPred, linPred, sum_idx j, design_slope, ← slope_idx j f.result, auxRes]
      simp only [hx, design_other ha.features, Pi.add_apply, Pi.smul_apply, smul_eq_mul, mul_add,
        Finset.sum_add_distrib, without_idx]
      have : ∑ k, design b aux.x i k * (slope f.result j * g.result k)
          = slope f.result j * ∑ k, design b aux.x i k * g.result k := by
        rw [Finset.mul_sum]; exact Finset.sum_congr rfl fun k _ => by ring
      rw [this, show offset (dropFeature raw j) i = offset raw i from rfl]; ring
    rw [hl, hx, design_other ha.features, show totalWt (dropFeature raw j) i = totalWt raw i from rfl,
      show (dropFeature raw j).y i = raw.y i from rfl]
    ring
  have h3 := he.score_eq
  have h4 := lin_score_add (raw := dropFeature raw j) (b := b) e.result
    (without b j f.result + slope f.result j • g.result - e.result)
  rw [add_sub_cancel, hk, h3, zero_sub, zero_eq_neg] at h4
  have := congrArg ((gram (dropFeature raw j) b)⁻¹ *ᵥ ·) h4
  simp only [mulVec_mulVec, nonsing_inv_mul _ hu, one_mulVec, mulVec_zero] at this
  exact (sub_eq_zero.mp this).symm

/-- **C113** (uncorrelated features).  If feature `j` is uncorrelated with the other columns, its coefficient
does not depend on them, and leaving it out does not change theirs. -/
theorem C113_uncorrelated (hf : PlainFit env .linear raw std d o f)
    (he : PlainFit env₂ .linear (dropFeature raw j) std₂ d₂ o₂ e)
    (hx : ∀ k, ∑ i, totalWt raw i * raw.x i j * design b (dropFeature raw j).x i k = 0)
    (hu : IsUnit (gram (dropFeature raw j) b).det) :
    e.result = without b j f.result ∧ slope f.result j * ∑ i, totalWt raw i * raw.x i j ^ 2
      = ∑ i, totalWt raw i * raw.x i j * (raw.y i - offset raw i) := by
  have ho : ∀ i (k : Fin (ncols b p)), design b raw.x i (otherIdx b j k) = design b (dropFeature raw j).x i k :=
    fun i k => design_other (x := raw.x) (x' := (dropFeature raw j).x) (j := j) (fun _ _ => rfl) i k
  have hlin : ∀ i, linPred raw b f.result i = raw.x i j * slope f.result j
      + linPred (dropFeature raw j) b (without b j f.result) i := by
    intro i
    rw [linPred, linPred, sum_idx j, design_slope, ← slope_idx j f.result,
      show offset (dropFeature raw j) i = offset raw i from rfl, add_assoc]
    congr 2
    exact Finset.sum_congr rfl fun k _ => by rw [ho, without_idx]
  have hs : ∀ k, ∑ i, totalWt raw i * (raw.y i - linPred raw b f.result i) * design b raw.x i k = 0 := fun k => by
    have := congrFun hf.score_eq k
    rwa [lin_score] at this
  constructor
  · have hk : scoreVec linG (dropFeature raw j) b (without b j f.result) = 0 := by
      funext k
      have h1 := hs (otherIdx b j k)
      have h2 := congrArg (slope f.result j * ·) (hx k)
      rw [mul_zero, Finset.mul_sum] at h2
      rw [lin_score, Pi.zero_apply, ← add_zero (0 : ℝ)]
      nth_rw 2 [← h2]
      rw [← h1, ← Finset.sum_add_distrib]
      refine Finset.sum_congr rfl fun i _ => ?_
      rw [hlin, ho, show totalWt (dropFeature raw j) i = totalWt raw i from rfl,
        show (dropFeature raw j).y i = raw.y i from rfl]
      ring
    have h3 := he.score_eq
    have h4 := lin_score_add (raw := dropFeature raw j) (b := b) e.result (without b j f.result - e.result)
    rw [add_sub_cancel, hk, h3, zero_sub, zero_eq_neg] at h4
    have := congrArg ((gram (dropFeature raw j) b)⁻¹ *ᵥ ·) h4
    simp only [mulVec_mulVec, nonsing_inv_mul _ hu, one_mulVec, mulVec_zero] at this
    exact (sub_eq_zero.mp this).symm
  · have h1 := hs (slopeIdx b j)
    simp only [design_slope] at h1
    have h2 : ∑ i, totalWt raw i * raw.x i j
        * ∑ k, design b (dropFeature raw j).x i k * without b j f.result k = 0 := by
      simp only [Finset.mul_sum]
      rw [Finset.sum_comm]
      refine Finset.sum_eq_zero fun k _ => ?_
      have := congrArg (· * without b j f.result k) (hx k)
      rw [zero_mul, Finset.sum_mul] at this
      rw [← this]
      exact Finset.sum_congr rfl fun i _ => by ring
    rw [← sub_eq_zero, Finset.mul_sum, ← Finset.sum_sub_distrib, ← neg_eq_zero, ← sub_zero (-_)]
    nth_rw 2 [← h2]
    rw [← h1, ← Finset.sum_neg_distrib, ← Finset.sum_sub_distrib]
    refine Finset.sum_congr rfl fun i _ => ?_
    rw [hlin, linPred, show offset (dropFeature raw j) i = offset raw i from rfl]
    ring

end

/-- **C113** (variance inflation).  With an intercept, the residual sum of squares in `C113_variance` is
`1 - R²` times the sum of squares of feature `j` about its mean, where `R²` is reported by `r_sq()` of the
regression of feature `j` on the others. -/
theorem C113_inflation {raw : Dataset ℝ n (p + 1) false} {j : Fin (p + 1)} {ω : Fin n → ℝ}
    {aux : Dataset ℝ n p false} {std : Bool} {d : Dataset ℝ n p true} {o : FitOptions ℝ (ncols true p)}
    {g : Fit ℝ n p true} (ha : Auxiliary raw j ω aux) (hg : PlainFit env .linear aux std d o g)
    (hW : ∑ i, ω i ≠ 0) :
    let m := (∑ i, ω i * raw.x i j) / ∑ i, ω i
    let S := ∑ i, ω i * (raw.x i j - m) ^ 2
    S ≠ 0 → ∃ R, g.rSq env' = .ok R ∧ g.deviance = (1 - R) * S := by
  intro m S hS
  have hw : weightSum aux ≠ 0 := by simpa only [weightSum, ha.weight] using hW
  have hn := (C37_intercept (env' := env') hg.built hg.fit ha.offset hw).1
  have hm : meanY aux = m := by simp only [meanY, weightSum, ha.weight, ha.response, m]
  have hsat : satLik linG aux = (∑ i, totalWt aux i * aux.y i ^ 2) / 2 := by
    rw [satLik, Finset.sum_div]
    refine Finset.sum_congr rfl fun i _ => ?_
    rw [show (Family.linear.glm (F := ℝ)).logLikeSat (aux.y i) = aux.y i ^ 2 / 2 from ?_]
    · ring
    · rw [logLikeSat_real]
  have hnull : devianceOf linG aux true (interceptOnly (linkFn .linear (meanY aux))) = S := by
    rw [devianceOf, lin_logLik, hsat, sse]
    have : ∀ i, linPred aux true (interceptOnly (linkFn .linear (meanY aux))) i = m := fun i => by
      rw [linPred_interceptOnly, offset_none ha.offset, add_zero, ← hm]; rfl
    simp only [this, ha.weight, ha.response, S]
    ring
  refine ⟨_, C39_rsq hg.built hg.fit (fun _ => hw) hn hg.l1 hg.l2 (by rw [hnull]; exact hS), ?_⟩
  rw [hnull]
  field_simp
  ring

/-- A linear fit that starts at the solution of the normal equations. -/
theorem plain_exists {raw : Dataset ℝ n p false} {β : Vec ℝ (ncols true p)} (m : ℕ)
    (hw : ∀ i, 0 ≤ totalWt raw i) (hs : scoreVec linG raw true β = 0) (hu : IsUnit (gram raw true).det) :
    ∃ d f, PlainFit (exactEnv (1 / 1000) 7) .linear raw false d (exOpts 0 0 (some β) m) f ∧ f.result = β := by
  have hp : ∀ σ, penScore linG raw true 0 0 σ β = 0 := by
    intro σ
    rw [← hs]
    funext j
    simp only [penScore, max_self, zero_mul, add_zero, onSlopes_zero, sub_zero]
  obtain ⟨d, hd⟩ : ∃ d, raw.finalize false true = some d := ⟨_, rfl⟩
  obtain ⟨f, hf, -, -, hr⟩ := C22_stationary_start (options := exOpts 0 0 (some β) m)
    (exactEnv_exact (by norm_num : (0 : ℝ) ≤ 1 / 1000) 7) (Family.lawfulAdj .linear) hd le_rfl rfl
    ((isUnit_iff_isUnit_det _).mp
      (C30_fullRank_posDef (by norm_num [exactEnv]) hw
      (fun _ => Family.variance_nonneg .linear trivial _) hu).isUnit) (hp _)
  refine ⟨d, f, ⟨hd, le_rfl, le_rfl, hf, ?_⟩, hr⟩
  rw [(C10_external (Family.lawfulAdj .linear) hd le_rfl hf).2.1 f.result, hr]
  exact hp _

/-- Two correlated features. -/
noncomputable def exTwoFeatures : Dataset ℝ 4 2 false where
  y := ![-1, 2, 4, 3]
  x := (![![0, 0], ![1, 0], ![1, 1], ![2, 1]] : Fin 4 → Fin 2 → ℝ)
  linearOffset := none
  weights := none
  freqs := none
  standardizer := none

/-- The second feature as response to the first. -/
noncomputable def exSecond : Dataset ℝ 4 1 false where
  y := ![0, 0, 1, 1]
  x := fun i _ => (![0, 1, 1, 2] : Fin 4 → ℝ) i
  linearOffset := none
  weights := none
  freqs := none
  standardizer := none

/-- `C113_slope`, `C113_variance`, `C113_omitted` and `C113_inflation`: the coefficient of the second feature
is 2, its variance 4 / (1/2), and leaving it out changes the coefficient of the first from 1 to 2. -/
theorem C113_example (m : ℕ) : ∃ d f d₁ g d₂ e,
    PlainFit (b := true) (exactEnv (1 / 1000) 7) .linear exTwoFeatures false d
      (exOpts 0 0 (some (![0, 1, 2] : Fin 3 → ℝ)) m) f ∧
    PlainFit (b := true) (exactEnv (1 / 1000) 7) .linear exSecond false d₁
      (exOpts 0 0 (some (![0, 1 / 2] : Fin 2 → ℝ)) m) g ∧
    PlainFit (b := true) (exactEnv (1 / 1000) 7) .linear (dropFeature exTwoFeatures (1 : Fin 2)) false d₂
      (exOpts 0 0 (some (![0, 2] : Fin 2 → ℝ)) m) e ∧
    Auxiliary exTwoFeatures (1 : Fin 2) (totalWt exTwoFeatures) exSecond ∧
    slope f.result (1 : Fin 2) = 2 ∧ f.dispersion = 4 ∧ g.deviance = 1 / 2 ∧
    (∃ cov, f.covariance (exactEnv 0 0) = .ok cov ∧ slope (fun k => cov k k) (1 : Fin 2) = 8) ∧
    e.result = without true (1 : Fin 2) f.result + slope f.result (1 : Fin 2) • g.result ∧
    g.rSq (exactEnv 0 0) = .ok (1 / 2) := by
  have w1 : ∀ i, totalWt exTwoFeatures i = 1 := fun i => by simp [totalWt, freq, varWt, exTwoFeatures]
  have w2 : ∀ i, totalWt exSecond i = 1 := fun i => by simp [totalWt, freq, varWt, exSecond]
  have w3 : ∀ i, totalWt (dropFeature exTwoFeatures (1 : Fin 2)) i = 1 := w1
  have hx : (dropFeature exTwoFeatures (1 : Fin 2)).x = exSecond.x := by
    funext i k
    fin_cases i <;> fin_cases k <;> rfl
  have ha : Auxiliary exTwoFeatures (1 : Fin 2) (totalWt exTwoFeatures) exSecond := {
    features := fun i k => by rw [← hx]; rfl
    response := fun i => by fin_cases i <;> rfl
    offset := rfl
    weight := fun i => by rw [w1, w2] }
  have g2 : IsUnit (gram exSecond true).det := by
    rw [isUnit_iff_ne_zero]
    refine (Matrix.det_fin_two _).trans_ne ?_
    simp only [gram, w2, Fin.sum_univ_four]
    simp [design, exSecond]
    norm_num
  have g3 : IsUnit (gram (dropFeature exTwoFeatures (1 : Fin 2)) true).det := by
    have : gram (dropFeature exTwoFeatures (1 : Fin 2)) true = gram exSecond true := by
      funext k l
      simp only [gram, w2, w3, hx]
    rw [this]; exact g2
  have g1 : IsUnit (gram exTwoFeatures true).det := by
    rw [isUnit_iff_ne_zero]
    refine (Matrix.det_fin_three _).trans_ne ?_
    simp only [gram, w1, Fin.sum_univ_four]
    simp [design, exTwoFeatures]
    norm_num
  have l1 : ∀ i : Fin 4, linPred exTwoFeatures true (![0, 1, 2] : Fin 3 → ℝ) i
      = (![0, 1, 3, 4] : Fin 4 → ℝ) i := by
    intro i
    refine (congrArg (· + offset exTwoFeatures i) (Fin.sum_univ_three _)).trans ?_
    fin_cases i <;> simp [design, exTwoFeatures, offset] <;> norm_num
  have l2 : ∀ i : Fin 4, linPred exSecond true (![0, 1 / 2] : Fin 2 → ℝ) i
      = (![0, 1 / 2, 1 / 2, 1] : Fin 4 → ℝ) i := by
    intro i
    refine (congrArg (· + offset exSecond i) (Fin.sum_univ_two _)).trans ?_
    fin_cases i <;> simp [design, exSecond, offset]
  have l3 : ∀ i : Fin 4, linPred (dropFeature exTwoFeatures (1 : Fin 2)) true (![0, 2] : Fin 2 → ℝ) i
      = (![0, 2, 2, 4] : Fin 4 → ℝ) i := by
    intro i
    refine (congrArg (· + offset (dropFeature exTwoFeatures (1 : Fin 2)) i) (Fin.sum_univ_two _)).trans ?_
    rw [hx]
    fin_cases i <;> simp [design, exSecond, offset, dropFeature, exTwoFeatures]; norm_num
  obtain ⟨d, f, hf, rf⟩ := plain_exists (raw := exTwoFeatures) (β := (![0, 1, 2] : Fin 3 → ℝ)) m (fun i => by rw [w1]; norm_num) (by
    funext k
    change Fin 3 at k
    rw [lin_score, Fin.sum_univ_four, l1, l1, l1, l1, w1, w1, w1, w1]
    fin_cases k <;> simp [design, exTwoFeatures] <;> norm_num) g1
  obtain ⟨d₁, g, hg, rg⟩ := plain_exists (raw := exSecond) (β := (![0, 1 / 2] : Fin 2 → ℝ)) m (fun i => by rw [w2]; norm_num) (by
    funext k
    change Fin 2 at k
    rw [lin_score, Fin.sum_univ_four, l2, l2, l2, l2, w2, w2, w2, w2]
    fin_cases k <;> simp [design, exSecond] <;> norm_num) g2
  obtain ⟨d₂, e, he, re⟩ := plain_exists (raw := dropFeature exTwoFeatures (1 : Fin 2))
    (β := (![0, 2] : Fin 2 → ℝ)) m (fun i => by rw [w3]; norm_num) (by
    funext k
    change Fin 2 at k
    rw [lin_score, Fin.sum_univ_four, l3, l3, l3, l3, w3, w3, w3, w3, hx]
    fin_cases k <;> simp [design, exSecond, dropFeature, exTwoFeatures] <;> norm_num) g3
  have hD : g.deviance = 1 / 2 := by
    rw [plain_deviance hg, rg, sse, Fin.sum_univ_four, l2, l2, l2, l2, w2, w2, w2, w2]
    simp [exSecond]; norm_num
  have hDf : f.deviance = 4 := by
    rw [plain_deviance hf, rf, sse, Fin.sum_univ_four, l1, l1, l1, l1, w1, w1, w1, w1]
    simp [exTwoFeatures]; norm_num
  have hphi : f.dispersion = 4 := by
    have hN : obsCount exTwoFeatures = 4 := by simp [obsCount, freq, exTwoFeatures]
    have hK : (ncols true 2 : ℝ) = 3 := by norm_num [ncols]
    rw [C42_no_weights hf.built hf.fit rfl rfl (by rw [hN, hK]; norm_num), hN, hK, devianceOf,
      ← C36_deviance hf.built hf.fit, hDf]
    norm_num
  have hinfo : ∀ i, totalWt exTwoFeatures i = infoWt .linear exTwoFeatures true f.result i := fun i => by
    rw [infoWt, linG_dNat, one_pow, mul_one]; exact (mul_one _).symm
  obtain ⟨-, cov, hc, v, -⟩ := C113_variance (env' := exactEnv 0 0) hf (funext hinfo ▸ ha) hg
    (exactEnv_exact le_rfl 0) (by rw [lin_fisher]; exact g1)
  have hS : ∑ i, totalWt exTwoFeatures i * (exTwoFeatures.x i (1 : Fin 2)
      - (∑ i, totalWt exTwoFeatures i * exTwoFeatures.x i (1 : Fin 2)) / ∑ i, totalWt exTwoFeatures i) ^ 2 = 1 := by
    simp only [w1, Fin.sum_univ_four]
    simp [exTwoFeatures]; norm_num
  obtain ⟨R, hR, hR'⟩ := C113_inflation (env' := exactEnv 0 0) ha hg
    (by simp only [w1, Fin.sum_univ_four]; norm_num) (by rw [hS]; norm_num)
  rw [hS, hD] at hR'
  refine ⟨d, f, d₁, g, d₂, e, hf, hg, he, ha, by rw [rf]; rfl, hphi, hD, ⟨cov, hc, ?_⟩,
    C113_omitted hf ha hg he g3, ?_⟩
  · rw [v, hphi, hD]; norm_num
  · rw [hR]; congr 1; linarith

end GLM
