/-
  The IRLS equation at `ℝ` without L1 regularization.
-/
import Verif.Lemmas.External
import Verif.Spec.Exact

namespace GLM
open Spec Matrix
variable {n p : ℕ} {b : Bool}

namespace Dataset

/-- The internal weighted Gram matrix. -/
def gramInt (d : Dataset ℝ n p b) : Matrix (Fin (ncols b p)) (Fin (ncols b p)) ℝ := fun j k =>
  ∑ i, totalWt d i * d.x i j * d.x i k

theorem finalize_gram {raw : Dataset ℝ n p false} {std : Bool} {d : Dataset ℝ n p b}
    (h : raw.finalize std b = some d) : d.tmatᵀ * d.gramInt * d.tmat = gram raw b := by
  ext k l
  simp only [Matrix.mul_apply, transpose_apply, gramInt, gram, finalize_design_apply h,
    finalize_totalWt h]
  simp only [Finset.mul_sum, Finset.sum_mul]
  calc _ = ∑ j, ∑ j', ∑ i, _ := rfl
    _ = ∑ j, ∑ i, ∑ j', _ := Finset.sum_congr rfl fun j _ => Finset.sum_comm
    _ = ∑ i, ∑ j, ∑ j', _ := Finset.sum_comm
    _ = _ := by
      refine Finset.sum_congr rfl fun i _ => Finset.sum_congr rfl fun j _ =>
        Finset.sum_congr rfl fun j' _ => by ring

end Dataset

variable {g : Glm ℝ} {d : Dataset ℝ n p b}

theorem irlsMat_real (hg : LawfulAdj g) (eps : ℝ) (γ : Vec ℝ (ncols b p)) :
    Matrix.of (Irls.irlsMatVec eps g d γ).1 = Matrix.of (d.fisherInt g γ) + eps • d.gramInt := by
  ext j k
  simp only [Matrix.add_apply, Matrix.smul_apply, of_apply, smul_eq_mul]
  have h : (Irls.irlsMatVec eps g d γ).1 j k = ∑ i, totalWt d i * d.x i j *
      (g.link.dNatParam (d.linearPredictorStd γ i) ^ 2 *
        g.variance (g.link.funcInv (d.linearPredictorStd γ i)) + eps) * d.x i k := by
    change vdotBy (.matMat _ _ _ _) (fun i => d.xConj j i * ((g.link.adjustErrorsVariance
      (vsub d.y (g.mean (d.linearPredictorStd γ)) i)
      (g.variance (g.mean (d.linearPredictorStd γ) i)) (d.linearPredictorStd γ i)).2 + eps))
      (fun i => d.x i k) = _
    simp only [vdotBy_real, Dataset.xConj_real, hg.both, hg.variance, Glm.mean]
  rw [h, Dataset.fisherInt_apply hg, Dataset.gramInt, Finset.mul_sum, ← Finset.sum_add_distrib]
  exact Finset.sum_congr rfl fun i _ => by ring

theorem irlsVec_real (hg : LawfulAdj g) (eps : ℝ) (γ : Vec ℝ (ncols b p)) :
    (Irls.irlsMatVec eps g d γ).2
      = Matrix.of (Irls.irlsMatVec eps g d γ).1 *ᵥ γ + d.scoreInt g γ := by
  funext j
  have hM : ∀ k, (Irls.irlsMatVec eps g d γ).1 j k = ∑ i, totalWt d i * d.x i j *
      (g.link.dNatParam (d.linearPredictorStd γ i) ^ 2 *
        g.variance (g.link.funcInv (d.linearPredictorStd γ i)) + eps) * d.x i k := by
    intro k
    change vdotBy (.matMat _ _ _ _) (fun i => d.xConj j i * ((g.link.adjustErrorsVariance
      (vsub d.y (g.mean (d.linearPredictorStd γ)) i)
      (g.variance (g.mean (d.linearPredictorStd γ) i)) (d.linearPredictorStd γ i)).2 + eps))
      (fun i => d.x i k) = _
    simp only [vdotBy_real, Dataset.xConj_real, hg.both, hg.variance, Glm.mean]
  have h : (Irls.irlsMatVec eps g d γ).2 j = ∑ i, totalWt d i * d.x i j *
      ((g.link.dNatParam (d.linearPredictorStd γ i) ^ 2 *
        g.variance (g.link.funcInv (d.linearPredictorStd γ i)) + eps) * (∑ k, d.x i k * γ k)
      + g.link.dNatParam (d.linearPredictorStd γ i) *
        (d.y i - g.link.funcInv (d.linearPredictorStd γ i))) := by
    change vdotBy (.matVec _ _) (fun i => d.xConj j i) (fun i => (((g.link.adjustErrorsVariance
      (vsub d.y (g.mean (d.linearPredictorStd γ)) i)
      (g.variance (g.mean (d.linearPredictorStd γ) i)) (d.linearPredictorStd γ i)).2 + eps)
      * vdotBy (.matVec _ _) (d.x i) γ + (g.link.adjustErrorsVariance
      (vsub d.y (g.mean (d.linearPredictorStd γ)) i)
      (g.variance (g.mean (d.linearPredictorStd γ) i)) (d.linearPredictorStd γ i)).1)) = _
    simp only [vdotBy_real, Dataset.xConj_real, hg.both, hg.variance, hg.errors, Glm.mean, vsub]
  rw [h, Pi.add_apply, Dataset.scoreInt_apply hg]
  simp only [mulVec, dotProduct, of_apply, hM, Finset.sum_mul]
  rw [Finset.sum_comm, ← Finset.sum_add_distrib]
  refine Finset.sum_congr rfl fun i _ => ?_
  rw [mul_add, Finset.mul_sum, Finset.mul_sum]
  congr 1
  · exact Finset.sum_congr rfl fun k _ => by ring
  · ring

theorem fisherInt_symm (hg : LawfulAdj g) (γ : Vec ℝ (ncols b p)) :
    (Matrix.of (d.fisherInt g γ)).IsSymm := by
  ext j k
  simp only [transpose_apply, of_apply, Dataset.fisherInt_apply hg]
  exact Finset.sum_congr rfl fun i _ => by ring

theorem gramInt_symm : d.gramInt.IsSymm := by
  ext j k
  simp only [transpose_apply, Dataset.gramInt]
  exact Finset.sum_congr rfl fun i _ => by ring

variable {options : FitOptions ℝ (ncols b p)} {r : Reg ℝ (ncols b p)} {eps : ℝ}

/-- The internal matrix of the IRLS equation. -/
noncomputable def lhsInt (eps : ℝ) (g : Glm ℝ) (d : Dataset ℝ n p b) (l2 : ℝ)
    (γ : Vec ℝ (ncols b p)) : Matrix (Fin (ncols b p)) (Fin (ncols b p)) ℝ :=
  Matrix.of (d.fisherInt g γ) + eps • d.gramInt + diagonal (onSlopes b fun _ : Fin p => max l2 0)

theorem lhsInt_eq (hg : LawfulAdj g) (hr : Reg.Same r (getReg options)) (hl1 : options.l1 ≤ 0)
    (γ : Vec ℝ (ncols b p)) :
    Matrix.of (r.irlsMat (Irls.irlsMatVec eps g d γ).1 γ) = lhsInt eps g d options.l2 γ := by
  rw [getReg_irlsMat hr hl1, irlsMat_real hg]; rfl

theorem lhsInt_symm (hg : LawfulAdj g) (l2 : ℝ) (γ : Vec ℝ (ncols b p)) :
    (lhsInt eps g d l2 γ).IsSymm :=
  ((fisherInt_symm hg γ).add (gramInt_symm.smul eps)).add (isSymm_diagonal _)

theorem rhsInt_eq (hg : LawfulAdj g) (hr : Reg.Same r (getReg options)) (hl1 : options.l1 ≤ 0)
    (γ : Vec ℝ (ncols b p)) :
    r.irlsVec (Irls.irlsMatVec eps g d γ).2 γ =
      lhsInt eps g d options.l2 γ *ᵥ γ + (getReg options).gradient (d.scoreInt g γ) γ := by
  have h1 : r.irlsVec (Irls.irlsMatVec eps g d γ).2 γ = (Irls.irlsMatVec eps g d γ).2 := by
    have e1 : Scalar.lt 0 options.l1 = false := by
      rw [Bool.eq_false_iff, ne_eq, lt_real]; exact not_lt.mpr hl1
    unfold getReg at hr
    simp only [Scalar.gt, e1, Bool.false_and, Bool.false_eq_true, if_false] at hr
    split at hr <;> cases hr <;> rfl
  rw [h1, irlsVec_real hg, irlsMat_real hg, getReg_gradient, lhsInt,
    add_mulVec (_ + _) (diagonal _)]
  funext j
  simp only [Pi.add_apply, mulVec_diagonal, max_eq_right hl1, zero_mul, zero_add]
  have := congrFun (onSlopes_mul (fun _ : Fin p => max options.l2 0) γ fun x => x) j
  rw [this]
  ring

/-- The IRLS equation as a Newton equation, on the internal scale. -/
theorem newton_int (hg : LawfulAdj g) (hr : Reg.Same r (getReg options)) (hl1 : options.l1 ≤ 0)
    {γ v : Vec ℝ (ncols b p)}
    (h : Matrix.of (r.irlsMat (Irls.irlsMatVec eps g d γ).1 γ) *ᵥ v
      = r.irlsVec (Irls.irlsMatVec eps g d γ).2 γ) :
    lhsInt eps g d options.l2 γ *ᵥ (v - γ) = (getReg options).gradient (d.scoreInt g γ) γ := by
  rw [lhsInt_eq hg hr hl1, rhsInt_eq hg hr hl1] at h
  rw [mulVec_sub, h, add_sub_cancel_left]

variable {raw : Dataset ℝ n p false} {std : Bool}

/-- The matrix of the IRLS equation on the user's scale. -/
theorem newtonMat_eq (hd : raw.finalize std b = some d) (hg : LawfulAdj g) (l2 : ℝ)
    (β : Vec ℝ (ncols b p)) :
    newtonMat eps g raw b l2 (scale d) β
      = d.tmatᵀ * lhsInt eps g d l2 (d.transformBeta β) * d.tmat := by
  rw [lhsInt, Matrix.mul_add, Matrix.mul_add, Matrix.add_mul, Matrix.add_mul,
    Dataset.finalize_fisher hg hd, Matrix.mul_smul, Matrix.smul_mul, Dataset.finalize_gram hd,
    Dataset.tmat_conj_onSlopes, newtonMat, ridgeMat]
  congr 3
  funext j; ring

theorem newtonMat_det (hd : raw.finalize std b = some d) (hg : LawfulAdj g) (l2 : ℝ)
    (β : Vec ℝ (ncols b p)) :
    IsUnit (newtonMat eps g raw b l2 (scale d) β).det ↔
      IsUnit (lhsInt eps g d l2 (d.transformBeta β)).det := by
  have hT := (Dataset.finalize_wf hd).det_tmat
  rw [newtonMat_eq hd hg, det_mul, det_mul, det_transpose, isUnit_iff_ne_zero, isUnit_iff_ne_zero]
  constructor
  · intro h h0; rw [h0] at h; simp at h
  · intro h; exact mul_ne_zero (mul_ne_zero hT h) hT

/-- The solution of the IRLS system at an internal point, as a Newton step on the user's scale. -/
theorem newton_ext (hd : raw.finalize std b = some d) (hg : LawfulAdj g)
    (hr : Reg.Same r (getReg options)) (hl1 : options.l1 ≤ 0) {γ v : Vec ℝ (ncols b p)}
    (h : Matrix.of (r.irlsMat (Irls.irlsMatVec eps g d γ).1 γ) *ᵥ v
      = r.irlsVec (Irls.irlsMatVec eps g d γ).2 γ) :
    newtonMat eps g raw b options.l2 (scale d) (d.inverseTransformBeta γ)
        *ᵥ (d.inverseTransformBeta v - d.inverseTransformBeta γ)
      = penScore g raw b options.l1 options.l2 (scale d) (d.inverseTransformBeta γ) := by
  have hwf := Dataset.finalize_wf hd
  have h1 : ∀ u, d.tmat *ᵥ d.inverseTransformBeta u = u := by
    intro u; rw [← Dataset.transformBeta_eq, hwf.transformBeta_inverseTransformBeta]
  rw [newtonMat_eq hd hg, ← Dataset.tmat_gradient hd hg,
    hwf.transformBeta_inverseTransformBeta, ← mulVec_mulVec, ← mulVec_mulVec, mulVec_sub d.tmat,
    h1, h1, newton_int hg hr hl1 h]

end GLM
