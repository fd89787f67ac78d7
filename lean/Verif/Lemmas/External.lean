/-
  Likelihood, score, information and penalty of a built model in terms of the user's data.
-/
import Verif.Lemmas.Data
import Verif.Lemmas.Regression
import Verif.Spec.Glm
import Verif.Props.Families

namespace GLM
open Spec Matrix
variable {n p : ℕ} {b : Bool}

theorem Family.lawfulAdj (fam : Family) : LawfulAdj fam.glm where
  errors e ω := (C55_adjustments fam e 0 ω).1
  variance v ω := (C55_adjustments fam 0 v ω).2.1
  both e v ω := (C55_adjustments fam e v ω).2.2

namespace Dataset

/-- The data part of the internal score. -/
noncomputable def scoreInt (g : Glm ℝ) (d : Dataset ℝ n p b) (γ : Vec ℝ (ncols b p)) :
    Vec ℝ (ncols b p) :=
  d.xConj.dotV fun i => g.link.adjustErrors
    (vsub d.y (g.mean (d.linearPredictorStd γ)) i) (d.linearPredictorStd γ i)

/-- The data part of the internal information. -/
noncomputable def fisherInt (g : Glm ℝ) (d : Dataset ℝ n p b) (γ : Vec ℝ (ncols b p)) :
    Mat ℝ (ncols b p) (ncols b p) :=
  Mat.dotM (fun j i => d.xConj j i * g.adjustedVarianceDiag (d.linearPredictorStd γ) i) d.x

theorem scoreInt_apply {g : Glm ℝ} (hg : LawfulAdj g) (d : Dataset ℝ n p b)
    (γ : Vec ℝ (ncols b p)) (j : Fin (ncols b p)) :
    d.scoreInt g γ j = ∑ i, totalWt d i * g.link.dNatParam (d.linearPredictorStd γ i) *
      (d.y i - g.link.funcInv (d.linearPredictorStd γ i)) * d.x i j := by
  simp only [scoreInt, Mat.dotV, vdotBy_real, xConj_real, hg.errors, vsub, Glm.mean]
  exact Finset.sum_congr rfl fun i _ => by ring

theorem fisherInt_apply {g : Glm ℝ} (hg : LawfulAdj g) (d : Dataset ℝ n p b)
    (γ : Vec ℝ (ncols b p)) (j k : Fin (ncols b p)) :
    d.fisherInt g γ j k = ∑ i, totalWt d i * g.link.dNatParam (d.linearPredictorStd γ i) ^ 2 *
      g.variance (g.link.funcInv (d.linearPredictorStd γ i)) * d.x i j * d.x i k := by
  simp only [fisherInt, Mat.dotM, vdotBy_real, xConj_real, Glm.adjustedVarianceDiag, hg.variance,
    Glm.mean]
  exact Finset.sum_congr rfl fun i _ => by ring

theorem logLike_apply (g : Glm ℝ) (d : Dataset ℝ n p b) (γ : Vec ℝ (ncols b p)) :
    g.logLike d γ = ∑ i, totalWt d i *
      g.logLikeNatural (d.y i) (g.link.natParam (d.linearPredictorStd γ i)) := by
  simp only [Glm.logLike, vsum_real, applyTotalWeights_real, Glm.logLikeTerms]

variable {raw : Dataset ℝ n p false} {std : Bool} {d : Dataset ℝ n p b}

theorem finalize_logLike (g : Glm ℝ) (h : raw.finalize std b = some d) (β : Vec ℝ (ncols b p)) :
    g.logLike d (d.transformBeta β) = logLik g raw b β := by
  simp only [logLike_apply, logLik, logLikAt, finalize_linPred h, finalize_totalWt h, finalize_y h]

theorem finalize_logLike' (g : Glm ℝ) (h : raw.finalize std b = some d) (γ : Vec ℝ (ncols b p)) :
    g.logLike d γ = logLik g raw b (d.inverseTransformBeta γ) := by
  rw [← finalize_logLike g h, (finalize_wf h).transformBeta_inverseTransformBeta]

theorem finalize_linPred' (h : raw.finalize std b = some d) (γ : Vec ℝ (ncols b p)) (i : Fin n) :
    d.linearPredictorStd γ i = linPred raw b (d.inverseTransformBeta γ) i := by
  rw [← finalize_linPred h, (finalize_wf h).transformBeta_inverseTransformBeta]

/-- The internal columns, transformed, are the user's design matrix. -/
theorem finalize_design (h : raw.finalize std b = some d) :
    design b raw.x = (Matrix.of d.x * d.tmat : Matrix _ _ ℝ) := by
  rw [← finalize_xExt h, (finalize_wf h).xExt_eq]

theorem finalize_design_apply (h : raw.finalize std b = some d) (i : Fin n)
    (k : Fin (ncols b p)) : design b raw.x i k = ∑ j, d.x i j * d.tmat j k := by
  rw [finalize_design h, Matrix.mul_apply]; rfl

theorem finalize_score {g : Glm ℝ} (hg : LawfulAdj g) (h : raw.finalize std b = some d)
    (β : Vec ℝ (ncols b p)) :
    d.tmatᵀ *ᵥ d.scoreInt g (d.transformBeta β) = scoreVec g raw b β := by
  funext k
  simp only [mulVec, dotProduct, transpose_apply, scoreInt_apply hg, scoreVec, meanAt,
    finalize_design_apply h, finalize_linPred h, finalize_totalWt h, finalize_y h, Finset.mul_sum]
  rw [Finset.sum_comm]
  exact Finset.sum_congr rfl fun i _ => Finset.sum_congr rfl fun j _ => by ring

theorem finalize_fisher {g : Glm ℝ} (hg : LawfulAdj g) (h : raw.finalize std b = some d)
    (β : Vec ℝ (ncols b p)) :
    d.tmatᵀ * Matrix.of (d.fisherInt g (d.transformBeta β)) * d.tmat = fisherMat g raw b β := by
  ext k l
  simp only [Matrix.mul_apply, transpose_apply, of_apply, fisherInt_apply hg, fisherMat, meanAt,
    finalize_design_apply h, finalize_linPred h, finalize_totalWt h]
  simp only [Finset.mul_sum, Finset.sum_mul]
  calc _ = ∑ j, ∑ j', ∑ i, _ := rfl
    _ = ∑ j, ∑ i, ∑ j', _ := Finset.sum_congr rfl fun j _ => Finset.sum_comm
    _ = ∑ i, ∑ j, ∑ j', _ := Finset.sum_comm
    _ = _ := by
      refine Finset.sum_congr rfl fun i _ => Finset.sum_congr rfl fun j _ =>
        Finset.sum_congr rfl fun j' _ => by ring

theorem scale_pos (h : raw.finalize std b = some d) (j : Fin p) : 0 < scale d j := by
  unfold scale
  cases hs : d.standardizer with
  | none => exact one_pos
  | some s => exact (finalize_wf h).scales_pos s hs j

/-- The non-intercept internal coefficients are the external ones times the scale. -/
theorem slopes_transformBeta (d : Dataset ℝ n p b) (β : Vec ℝ (ncols b p)) (j : Fin p) :
    slopes b (d.transformBeta β) j = scale d j * slopes b β j := by
  cases b
  · unfold transformBeta slopes scale
    dsimp only
    cases d.standardizer with
    | none => simp
    | some s => exact mul_comm _ _
  · unfold transformBeta slopes scale
    dsimp only
    cases d.standardizer with
    | none => simp
    | some s => exact mul_comm _ _

end Dataset

/-! ### The penalty -/

theorem zeroFirst_slopes (c : ℝ) (γ : Vec ℝ (ncols b p)) (φ : ℝ → ℝ) :
    ∑ j, zeroFirstMaybe (p := p) (b := b) (vfill c) j * φ (γ j)
      = c * ∑ j, φ (slopes b γ j) := by
  cases b
  · simp only [zeroFirstMaybe, vfill, Finset.mul_sum, slopes]
  · rw [Fin.sum_univ_succ (n := p)]
    simp [zeroFirstMaybe, vfill, Finset.mul_sum, slopes, Fin.tail]

/-- The penalty of a regularizer built by `get_reg`. -/
theorem getReg_likelihood (options : FitOptions ℝ (ncols b p)) (γ : Vec ℝ (ncols b p)) :
    (getReg options).likelihood γ = -penalty options.l1 options.l2 (fun _ => 1) b γ := by
  have hsq : ∑ j, zeroFirstMaybe (p := p) (b := b) (vfill options.l2) j * (γ j * γ j)
      = options.l2 * ∑ j, slopes b γ j ^ 2 := by
    rw [zeroFirst_slopes options.l2 γ fun x => x * x]
    simp only [sq]
  have habs : ∑ j, zeroFirstMaybe (p := p) (b := b) (vfill options.l1) j * |γ j|
      = options.l1 * ∑ j, |slopes b γ j| := zeroFirst_slopes options.l1 γ fun x => |x|
  unfold getReg penalty
  simp only [Scalar.gt, one_mul]
  by_cases h1 : 0 < options.l1 <;> by_cases h2 : 0 < options.l2
  · have e1 : Scalar.lt 0 options.l1 = true := by rw [lt_real]; exact h1
    have e2 : Scalar.lt 0 options.l2 = true := by rw [lt_real]; exact h2
    simp only [e1, e2, Bool.and_self, if_true, Reg.likelihood, sumL1, sumL2, vsum_real, abs_real,
      hsq, habs, max_eq_left h1.le, max_eq_left h2.le, half_real]
    ring
  · have e1 : Scalar.lt 0 options.l1 = true := by rw [lt_real]; exact h1
    have e2 : Scalar.lt 0 options.l2 = false := by rw [Bool.eq_false_iff, ne_eq, lt_real]; exact h2
    simp only [e1, e2, Bool.and_false, Bool.false_eq_true, if_false, if_true, Reg.likelihood, sumL1,
      vsum_real, abs_real, habs, max_eq_left h1.le, max_eq_right (not_lt.mp h2)]
    ring
  · have e1 : Scalar.lt 0 options.l1 = false := by rw [Bool.eq_false_iff, ne_eq, lt_real]; exact h1
    have e2 : Scalar.lt 0 options.l2 = true := by rw [lt_real]; exact h2
    simp only [e1, e2, Bool.and_true, Bool.false_eq_true, if_false, if_true, Reg.likelihood, sumL2,
      vsum_real, hsq, half_real, max_eq_left h2.le, max_eq_right (not_lt.mp h1)]
    ring
  · have e1 : Scalar.lt 0 options.l1 = false := by rw [Bool.eq_false_iff, ne_eq, lt_real]; exact h1
    have e2 : Scalar.lt 0 options.l2 = false := by rw [Bool.eq_false_iff, ne_eq, lt_real]; exact h2
    simp only [e1, e2, Bool.and_false, Bool.false_eq_true, if_false, Reg.likelihood,
      max_eq_right (not_lt.mp h1), max_eq_right (not_lt.mp h2)]
    ring

/-- The penalty of external coefficients. -/
theorem getReg_likelihood_ext (d : Dataset ℝ n p b) (options : FitOptions ℝ (ncols b p))
    (β : Vec ℝ (ncols b p)) :
    (getReg options).likelihood (d.transformBeta β)
      = -penalty options.l1 options.l2 (scale d) b β := by
  rw [getReg_likelihood]
  unfold penalty
  simp only [one_mul, Dataset.slopes_transformBeta]

/-! ### Gradient and curvature of the penalty -/

theorem zeroFirst_eq (c : ℝ) :
    zeroFirstMaybe (p := p) (b := b) (vfill c) = onSlopes b fun _ => c := by
  cases b <;> rfl

theorem onSlopes_mul (c : Vec ℝ p) (γ : Vec ℝ (ncols b p)) (φ : ℝ → ℝ) :
    (fun j => onSlopes b c j * φ (γ j)) = onSlopes b fun j => c j * φ (slopes b γ j) := by
  cases b
  · rfl
  · funext j
    refine Fin.cases ?_ (fun j => ?_) (j : Fin (p + 1))
    · simp [onSlopes]
    · simp [onSlopes, slopes]

theorem onSlopes_add (u v : Vec ℝ p) (j : Fin (ncols b p)) :
    onSlopes b u j + onSlopes b v j = onSlopes b (fun i => u i + v i) j := by
  cases b
  · rfl
  · refine Fin.cases ?_ (fun j => ?_) (j : Fin (p + 1)) <;> simp [onSlopes]

theorem onSlopes_zero : onSlopes b (fun _ : Fin p => 0) = fun _ => 0 := by
  cases b
  · rfl
  · funext j
    refine Fin.cases ?_ (fun j => ?_) (j : Fin (p + 1)) <;> simp [onSlopes]

/-- The gradient of the regularizer built by `get_reg`. -/
theorem getReg_gradient (options : FitOptions ℝ (ncols b p)) (s γ : Vec ℝ (ncols b p)) :
    (getReg options).gradient s γ = fun j => s j - onSlopes b (fun j =>
      max options.l1 0 * SignType.sign (slopes b γ j) + max options.l2 0 * slopes b γ j) j := by
  have hl1 : (fun j => zeroFirstMaybe (p := p) (b := b) (vfill options.l1) j * Scalar.sign (γ j))
      = onSlopes b fun j => options.l1 * SignType.sign (slopes b γ j) := by
    rw [zeroFirst_eq]
    simp only [sign_real]
    exact onSlopes_mul (fun _ => options.l1) γ fun x => SignType.sign x
  have hl2 : (fun j => zeroFirstMaybe (p := p) (b := b) (vfill options.l2) j * γ j)
      = onSlopes b fun j => options.l2 * slopes b γ j := by
    rw [zeroFirst_eq]
    exact onSlopes_mul (fun _ => options.l2) γ fun x => x
  unfold getReg
  funext j
  rw [← onSlopes_add]
  have hl1' := congrFun hl1 j
  have hl2' := congrFun hl2 j
  simp only [Scalar.gt]
  by_cases h1 : 0 < options.l1 <;> by_cases h2 : 0 < options.l2
  · have e1 : Scalar.lt 0 options.l1 = true := by rw [lt_real]; exact h1
    have e2 : Scalar.lt 0 options.l2 = true := by rw [lt_real]; exact h2
    simp only [e1, e2, Bool.and_self, if_true, Reg.gradient, hl1', hl2', max_eq_left h1.le,
      max_eq_left h2.le]
    ring
  · have e1 : Scalar.lt 0 options.l1 = true := by rw [lt_real]; exact h1
    have e2 : Scalar.lt 0 options.l2 = false := by rw [Bool.eq_false_iff, ne_eq, lt_real]; exact h2
    simp only [e1, e2, Bool.and_false, Bool.false_eq_true, if_false, if_true, Reg.gradient, hl1',
      max_eq_left h1.le, max_eq_right (not_lt.mp h2), zero_mul, onSlopes_zero, add_zero]
  · have e1 : Scalar.lt 0 options.l1 = false := by rw [Bool.eq_false_iff, ne_eq, lt_real]; exact h1
    have e2 : Scalar.lt 0 options.l2 = true := by rw [lt_real]; exact h2
    simp only [e1, e2, Bool.and_true, Bool.false_eq_true, if_false, if_true, Reg.gradient, hl2',
      max_eq_left h2.le, max_eq_right (not_lt.mp h1), zero_mul, onSlopes_zero, zero_add]
  · have e1 : Scalar.lt 0 options.l1 = false := by rw [Bool.eq_false_iff, ne_eq, lt_real]; exact h1
    have e2 : Scalar.lt 0 options.l2 = false := by rw [Bool.eq_false_iff, ne_eq, lt_real]; exact h2
    simp only [e1, e2, Bool.and_false, Bool.false_eq_true, if_false, Reg.gradient,
      max_eq_right (not_lt.mp h1), max_eq_right (not_lt.mp h2), zero_mul, onSlopes_zero, add_zero,
      sub_zero]

/-- The curvature added by a regularizer without L1. -/
theorem getReg_irlsMat {r : Reg ℝ (ncols b p)} {options : FitOptions ℝ (ncols b p)}
    (hr : Reg.Same r (getReg options)) (hl1 : options.l1 ≤ 0) (m : Mat ℝ (ncols b p) (ncols b p))
    (γ : Vec ℝ (ncols b p)) :
    Matrix.of (r.irlsMat m γ)
      = Matrix.of m + diagonal (onSlopes b fun _ : Fin p => max options.l2 0) := by
  have e1 : Scalar.lt 0 options.l1 = false := by
    rw [Bool.eq_false_iff, ne_eq, lt_real]; exact not_lt.mpr hl1
  unfold getReg at hr
  by_cases h2 : 0 < options.l2
  · have e2 : Scalar.lt 0 options.l2 = true := by rw [lt_real]; exact h2
    simp only [Scalar.gt, e1, e2, Bool.and_true, Bool.false_eq_true, if_false, if_true] at hr
    cases hr
    ext i j
    simp only [Reg.irlsMat, Mat.addDiag, zeroFirst_eq, of_apply, Matrix.add_apply, diagonal_apply,
      max_eq_left h2.le]
    split <;> simp
  · have e2 : Scalar.lt 0 options.l2 = false := by
      rw [Bool.eq_false_iff, ne_eq, lt_real]; exact h2
    simp only [Scalar.gt, e1, e2, Bool.and_false, Bool.false_eq_true, if_false] at hr
    cases hr
    ext i j
    simp [Reg.irlsMat, max_eq_right (not_lt.mp h2), onSlopes_zero]

namespace Dataset
variable (d : Dataset ℝ n p b)

theorem tmat_transpose_onSlopes (v : Vec ℝ p) :
    d.tmatᵀ *ᵥ onSlopes b v = onSlopes b fun j => scale d j * v j := by
  rw [← inverseTransformScore_eq]
  cases b
  · unfold inverseTransformScore scale
    dsimp only
    cases d.standardizer with
    | none => simp
    | some s =>
      funext j
      simp [Standardizer.inverseTransformScoreNoInt, onSlopes, mul_comm]
  · unfold inverseTransformScore scale
    dsimp only
    cases d.standardizer with
    | none => simp
    | some s =>
      funext j
      refine Fin.cases ?_ (fun j => ?_) (j : Fin (p + 1)) <;>
        simp [Standardizer.inverseTransformScore, onSlopes, mul_comm]

theorem tmat_conj_onSlopes (v : Vec ℝ p) :
    d.tmatᵀ * diagonal (onSlopes b v) * d.tmat
      = diagonal (onSlopes b fun j => scale d j ^ 2 * v j) := by
  cases b
  · unfold tmat scale
    dsimp only
    cases d.standardizer with
    | none => simp
    | some s =>
      change (diagonal s.scales)ᵀ * diagonal v * diagonal s.scales = _
      rw [diagonal_transpose, diagonal_mul_diagonal, diagonal_mul_diagonal]
      congr 1; funext j; simp only [onSlopes]; ring
  · unfold tmat scale
    dsimp only
    cases d.standardizer with
    | none => simp
    | some s =>
      change (s.tmatInt)ᵀ * diagonal (Fin.cons 0 v : Fin (p + 1) → ℝ) * s.tmatInt
        = diagonal (Fin.cons 0 fun j => s.scales j ^ 2 * v j : Fin (p + 1) → ℝ)
      ext i j
      rw [Matrix.mul_apply]
      simp only [mul_diagonal, transpose_apply]
      rw [Fin.sum_univ_succ]
      refine Fin.cases ?_ (fun i => ?_) i <;> refine Fin.cases ?_ (fun j => ?_) j
      · simp
      · simp [(Fin.succ_ne_zero _).symm]
      · simp [Fin.succ_ne_zero]
      · simp only [Standardizer.tmatInt_0s, Fin.cons_zero, mul_zero, zero_mul, Fin.cons_succ,
          zero_add, diagonal_apply, Fin.succ_inj]
        have : ∀ x, s.tmatInt x.succ i.succ * v x * s.tmatInt x.succ j.succ
            = if x = i then (if i = j then s.scales i ^ 2 * v i else 0) else 0 := by
          intro x
          simp only [Standardizer.tmatInt, of_apply, Fin.cons_succ, diagonal_apply]
          by_cases h : x = i
          · subst h
            by_cases h' : x = j
            · subst h'; simp; ring
            · simp [h']
          · simp [h]
        simp only [this]
        simp

theorem tmat_gradient {d : Dataset ℝ n p b} {raw : Dataset ℝ n p false} {std : Bool} {g : Glm ℝ}
    (hd : raw.finalize std b = some d) (hg : LawfulAdj g) (options : FitOptions ℝ (ncols b p))
    (β : Vec ℝ (ncols b p)) :
    d.tmatᵀ *ᵥ ((getReg options).gradient (d.scoreInt g (d.transformBeta β)) (d.transformBeta β))
      = penScore g raw b options.l1 options.l2 (scale d) β := by
  rw [getReg_gradient]
  have h2 : (fun j => d.scoreInt g (d.transformBeta β) j - onSlopes b (fun j =>
      max options.l1 0 * SignType.sign (slopes b (d.transformBeta β) j)
        + max options.l2 0 * slopes b (d.transformBeta β) j) j)
      = d.scoreInt g (d.transformBeta β) - onSlopes b (fun j =>
      max options.l1 0 * SignType.sign (slopes b (d.transformBeta β) j)
        + max options.l2 0 * slopes b (d.transformBeta β) j) := rfl
  rw [h2, mulVec_sub, Dataset.finalize_score hg hd, Dataset.tmat_transpose_onSlopes]
  funext j
  rw [Pi.sub_apply, penScore]
  congr 2
  funext j
  rw [Dataset.slopes_transformBeta]
  have hpos := Dataset.scale_pos hd j
  have : SignType.sign (scale d j * slopes b β j) = SignType.sign (slopes b β j) := by
    rw [sign_mul, sign_pos hpos, one_mul]
  rw [this]
  ring

end Dataset

/-- The public score of a fit, on the user's scale. -/
theorem Fit.score_ext {raw : Dataset ℝ n p false} {std : Bool} {f : Fit ℝ n p b}
    (hd : raw.finalize std b = some f.data) (hg : LawfulAdj f.g)
    (hr : Reg.Same f.reg (getReg f.options)) (β : Vec ℝ (ncols b p)) :
    f.score β = penScore f.g raw b f.options.l1 f.options.l2 (scale f.data) β := by
  have h1 : f.score β = f.data.tmatᵀ *ᵥ
      (f.reg.gradient (f.data.scoreInt f.g (f.data.transformBeta β)) (f.data.transformBeta β)) := by
    rw [← Dataset.inverseTransformScore_eq]; rfl
  rw [h1, hr.gradient, Dataset.tmat_gradient hd hg]

/-- The public Fisher information of a fit without L1, on the user's scale. -/
theorem Fit.fisher_ext {raw : Dataset ℝ n p false} {std : Bool} {f : Fit ℝ n p b}
    (hd : raw.finalize std b = some f.data) (hg : LawfulAdj f.g)
    (hr : Reg.Same f.reg (getReg f.options)) (hl1 : f.options.l1 ≤ 0) (β : Vec ℝ (ncols b p)) :
    Matrix.of (f.fisher β) = fisherMat f.g raw b β + ridgeMat f.options.l2 (scale f.data) b := by
  have h1 : f.fisher β = (f.data.tmatᵀ * Matrix.of (f.reg.irlsMat
      (f.data.fisherInt f.g (f.data.transformBeta β)) (f.data.transformBeta β)) * f.data.tmat :
        Matrix _ _ ℝ) := by
    rw [← Dataset.inverseTransformFisher_eq]; rfl
  rw [h1, getReg_irlsMat hr hl1, Matrix.mul_add, Matrix.add_mul, Dataset.tmat_conj_onSlopes]
  have := Dataset.finalize_fisher hg hd β
  rw [this]
  have hc : (fun j => scale f.data j ^ 2 * max f.options.l2 0)
      = fun j => max f.options.l2 0 * scale f.data j ^ 2 := by funext j; ring
  rw [hc]
  rfl

end GLM
