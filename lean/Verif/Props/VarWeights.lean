/-
  C13: multiplying all variance weights by a constant.
-/
import Verif.Props.Weights

namespace GLM
open Spec Matrix
variable {n p : ℕ} {b : Bool} {c : ℝ}

section
variable (d : Dataset ℝ n p b)

theorem scaleWeights_varWt (i : Fin n) : varWt (scaleWeights d c) i = c * varWt d i := rfl

theorem scaleWeights_freq (i : Fin n) : freq (scaleWeights d c) i = freq d i := rfl

theorem scaleWeights_totalWt (i : Fin n) : totalWt (scaleWeights d c) i = c * totalWt d i := by
  simp only [totalWt, scaleWeights_varWt, scaleWeights_freq]; ring

theorem scaleWeights_sum (φ : Fin n → ℝ) :
    ∑ i, totalWt (scaleWeights d c) i * φ i = c * ∑ i, totalWt d i * φ i := by
  simp only [scaleWeights_totalWt, Finset.mul_sum, mul_assoc]

theorem scaleWeights_linPred (γ : Vec ℝ (ncols b p)) :
    (scaleWeights d c).linearPredictorStd γ = d.linearPredictorStd γ := rfl

/-- **C13**: the effective number of observations does not change. -/
theorem C13_nEff (hc : 0 < c) : (scaleWeights d c).nEff = d.nEff := by
  have h1 : (scaleWeights d c).nEff
      = (c * ∑ i, freq d i * varWt d i) * (c * ∑ i, freq d i * varWt d i)
        / (c * c * ∑ i, freq d i * (varWt d i * varWt d i)) := by
    change (scaleWeights d c).freqSum (fun i => c * varWt d i)
      * (scaleWeights d c).freqSum (fun i => c * varWt d i)
      / (scaleWeights d c).freqSum (vmul (fun i => c * varWt d i) fun i => c * varWt d i) = _
    simp only [Dataset.freqSum_real, vmul, scaleWeights_freq]
    have e1 : ∑ i, freq d i * (c * varWt d i) = c * ∑ i, freq d i * varWt d i := by
      rw [Finset.mul_sum]; exact Finset.sum_congr rfl fun i _ => by ring
    have e2 : ∑ i, freq d i * (c * varWt d i * (c * varWt d i))
        = c * c * ∑ i, freq d i * (varWt d i * varWt d i) := by
      rw [Finset.mul_sum]; exact Finset.sum_congr rfl fun i _ => by ring
    rw [e1, e2]
  rw [h1, mul_mul_mul_comm, mul_div_mul_left _ _ (mul_ne_zero hc.ne' hc.ne')]
  unfold Dataset.nEff
  cases hw : d.weights with
  | none =>
    have : ∀ i, varWt d i = 1 := fun i => by simp [varWt, hw]
    simp only [this, mul_one, Dataset.nObs_real]
    by_cases h0 : ∑ i, freq d i = 0
    · simp [h0]
    · field_simp
  | some w =>
    have : ∀ i, varWt d i = w i := fun i => by simp [varWt, hw]
    simp only [this, Dataset.freqSum_real, vmul]

theorem scaleWeights_sumWeights : (scaleWeights d c).sumWeights = c * d.sumWeights := by
  rw [Dataset.sumWeights_real, Dataset.sumWeights_real]
  simpa using scaleWeights_sum d (c := c) fun _ => 1

/-- **C13**: the log-likelihood is multiplied by `c`. -/
theorem C13_logLike (g : Glm ℝ) (γ : Vec ℝ (ncols b p)) :
    g.logLike (scaleWeights d c) γ = c * g.logLike d γ := by
  simp only [Dataset.logLike_apply, scaleWeights_linPred]
  exact scaleWeights_sum d _

theorem scaleWeights_xConj (j : Fin (ncols b p)) (i : Fin n) :
    (scaleWeights d c).xConj j i = c * d.xConj j i := by
  rw [Dataset.xConj_real, Dataset.xConj_real, scaleWeights_totalWt, mul_assoc]; rfl

theorem scaleWeights_xConj_dotV (v : Vec ℝ n) :
    (scaleWeights d c).xConj.dotV v = fun j => c * d.xConj.dotV v j := by
  funext j
  simp only [Mat.dotV, vdotBy_real, scaleWeights_xConj, Finset.mul_sum, mul_assoc]

theorem scaleWeights_xConj_dotM (v : Vec ℝ n) :
    Mat.dotM (fun j i => (scaleWeights d c).xConj j i * v i) (scaleWeights d c).x
      = fun j k => c * Mat.dotM (fun j i => d.xConj j i * v i) d.x j k := by
  funext j k
  simp only [Mat.dotM, vdotBy_real, scaleWeights_xConj, Finset.mul_sum, mul_assoc]
  rfl

/-- **C13**: both sides of the iteration equation are multiplied by `c`. -/
theorem C13_irls (eps : ℝ) (g : Glm ℝ) (γ : Vec ℝ (ncols b p)) :
    Irls.irlsMatVec eps g (scaleWeights d c) γ
      = (fun j k => c * (Irls.irlsMatVec eps g d γ).1 j k,
         fun j => c * (Irls.irlsMatVec eps g d γ).2 j) := by
  refine Prod.ext ?_ ?_
  · refine Eq.trans ?_ (scaleWeights_xConj_dotM d (fun i => (g.link.adjustErrorsVariance
      (d.y i - g.mean (d.linearPredictorStd γ) i) (g.variance (g.mean (d.linearPredictorStd γ) i))
      (d.linearPredictorStd γ i)).2 + eps))
    rfl
  · refine Eq.trans ?_ (scaleWeights_xConj_dotV d (fun i => ((g.link.adjustErrorsVariance
      (d.y i - g.mean (d.linearPredictorStd γ) i) (g.variance (g.mean (d.linearPredictorStd γ) i))
      (d.linearPredictorStd γ i)).2 + eps) * d.x.dotV γ i + (g.link.adjustErrorsVariance
      (d.y i - g.mean (d.linearPredictorStd γ) i) (g.variance (g.mean (d.linearPredictorStd γ) i))
      (d.linearPredictorStd γ i)).1))
    rfl

end

/-- **C13**: without regularization the proposed coefficients do not change. -/
theorem C13_step {env : Env ℝ} (he : env.Exact) (hc : 0 < c) (d : Dataset ℝ n p b) {g : Glm ℝ}
    (hg : LawfulAdj g) (γ : Vec ℝ (ncols b p))
    (hu : IsUnit (Matrix.of (Irls.irlsMatVec env.eps g d γ).1).det) :
    let mv := Irls.irlsMatVec env.eps g d γ
    let mv' := Irls.irlsMatVec env.eps g (scaleWeights d c) γ
    (Reg.null.nextGuess env γ mv'.2 mv'.1).2 = (Reg.null.nextGuess env γ mv.2 mv.1).2 ∧
    ∃ v, (Reg.null.nextGuess env γ mv.2 mv.1).2 = .ok v := by
  have hs : (Matrix.of (Irls.irlsMatVec env.eps g d γ).1).IsSymm := by
    rw [irlsMat_real hg]
    exact (fisherInt_symm hg γ).add (gramInt_symm.smul _)
  obtain ⟨x, hx⟩ := he.solveh_complete (Irls.irlsMatVec env.eps g d γ).2 hs hu
  have h1 := he.solveh_sound hs hx
  dsimp only
  rw [C13_irls]
  simp only [Reg.nextGuess, Reg.prepare, Reg.irlsMat, Reg.irlsVec]
  refine ⟨?_, x, hx⟩
  rw [hx]
  have hm : Matrix.of (fun j k => c * (Irls.irlsMatVec env.eps g d γ).1 j k)
      = c • Matrix.of (Irls.irlsMatVec env.eps g d γ).1 := by
    ext j k; rfl
  refine he.solveh_eq ?_ ?_ ?_
  · rw [hm]; exact hs.smul c
  · rw [hm, det_smul]
    exact ((isUnit_iff_ne_zero.mpr hc.ne').pow _).mul hu
  · rw [hm, smul_mulVec, h1]; rfl

/-- **C13**: the standardization does not change: the rescaled user data build to the rescaled data
set. -/
theorem C13_build {raw : Dataset ℝ n p false} (hc : 0 < c) {std : Bool} {d : Dataset ℝ n p b}
    (hd : raw.finalize std b = some d) :
    (scaleWeights raw c).finalize std b = some (scaleWeights d c) := by
  have hvw : (fun i => c * varWt d i) = fun i => c * varWt raw i := by
    rw [Dataset.finalize_varWt hd]
  unfold Dataset.finalize at hd ⊢
  cases std
  · simp only [Bool.false_eq_true, if_false, Option.some.injEq] at hd ⊢
    subst hd
    rfl
  · simp only [if_true, Option.map_eq_some_iff] at hd ⊢
    obtain ⟨s, hs, rfl⟩ := hd
    refine ⟨s, ?_, ?_⟩
    · rw [← hs]
      have hW : ∀ i, (scaleWeights raw c).applyTotalWeights (vfill 1) i
          = c * raw.applyTotalWeights (vfill 1) i := by
        intro i
        simp only [Dataset.applyTotalWeights_real, scaleWeights_totalWt, mul_assoc]
      have hx : (scaleWeights raw c).x = raw.x := rfl
      unfold Standardizer.fromDataset
      simp only [C13_nEff raw hc, vsum_real, hW, mul_assoc, ← Finset.mul_sum, hx,
        mul_div_mul_left _ _ hc.ne']
    · rfl

/-- C13 applies: the iteration matrix of the small data set is regular at every point. -/
example (eps : ℝ) (heps : 0 ≤ eps) (std : Bool) (y : Vec ℝ 3) (γ : Vec ℝ (ncols true 1)) :
    ∃ d : Dataset ℝ 3 1 true, (exRaw y).finalize std true = some d ∧
      LawfulAdj Family.linear.glm ∧
      IsUnit (Matrix.of (Irls.irlsMatVec eps Family.linear.glm d γ).1).det := by
  obtain ⟨d, hd⟩ := exRaw_finalize y std true
  refine ⟨d, hd, Family.lawfulAdj .linear, ?_⟩
  have h := newtonMat_det (eps := eps) hd (Family.lawfulAdj .linear) 0 (d.inverseTransformBeta γ)
  rw [(Dataset.finalize_wf hd).transformBeta_inverseTransformBeta] at h
  have h1 : lhsInt eps Family.linear.glm d 0 γ
      = Matrix.of (Irls.irlsMatVec eps Family.linear.glm d γ).1 := by
    rw [irlsMat_real (Family.lawfulAdj .linear), lhsInt]
    simp [onSlopes_zero]
  rw [← h1, ← h]
  have h2 := lin_newtonMat (raw := exRaw y) (b := true) (eps := eps) le_rfl (scale d)
    (d.inverseTransformBeta γ)
  rw [show Family.linear.glm = linG from rfl, h2, det_smul]
  exact (isUnit_iff_ne_zero.mpr (pow_ne_zero _ (by linarith))).mul (exRaw_gram_det y)

end GLM
