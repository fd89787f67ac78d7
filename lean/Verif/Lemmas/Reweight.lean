/-
  Data sets that differ in how observations are counted.
-/
import Verif.Spec.Weights
import Verif.Spec.Units
import Verif.Lemmas.Fitted

namespace GLM
open Spec Matrix
variable {n m p : ℕ} {b : Bool}

namespace Spec.Reweights
variable {d : Dataset ℝ n p b} {d' : Dataset ℝ m p b} {r : Fin m → Fin n} (h : Reweights d d' r)
include h

/-- Sums over observations with frequencies agree. -/
theorem sum_freq (φ : Fin n → ℝ) : ∑ k, Spec.freq d' k * φ (r k) = ∑ i, Spec.freq d i * φ i := by
  rw [← Finset.sum_fiberwise_of_maps_to (s := Finset.univ) (t := Finset.univ) (g := r)
    (fun _ _ => Finset.mem_univ _)]
  refine Finset.sum_congr rfl fun i _ => ?_
  rw [h.freq, Finset.sum_mul]
  refine Finset.sum_congr rfl fun k hk => ?_
  rw [(Finset.mem_filter.mp hk).2]

theorem varWt (k : Fin m) : Spec.varWt d' k = Spec.varWt d (r k) := by
  simp only [Spec.varWt, h.weights]
  cases d.weights <;> rfl

theorem offset_eq (k : Fin m) : Spec.offset d' k = Spec.offset d (r k) := by
  simp only [Spec.offset, h.offset]
  cases d.linearOffset <;> rfl

theorem sum_total (φ : Fin n → ℝ) : ∑ k, totalWt d' k * φ (r k) = ∑ i, totalWt d i * φ i := by
  simp only [totalWt, h.varWt, mul_assoc]
  exact h.sum_freq fun i => Spec.varWt d i * φ i

theorem nObs : d'.nObs = d.nObs := by
  rw [Dataset.nObs_real, Dataset.nObs_real]
  simpa using h.sum_freq fun _ => 1

theorem sumWeights : d'.sumWeights = d.sumWeights := by
  rw [Dataset.sumWeights_real, Dataset.sumWeights_real]
  simpa using h.sum_total fun _ => 1

theorem nEff : d'.nEff = d.nEff := by
  unfold Dataset.nEff
  rw [h.weights]
  cases hw : d.weights with
  | none => exact h.nObs
  | some w =>
    simp only [Option.map_some, Dataset.freqSum_real, vmul]
    rw [h.sum_freq w, h.sum_freq fun i => w i * w i]

theorem linPred (γ : Vec ℝ (ncols b p)) (k : Fin m) :
    d'.linearPredictorStd γ k = d.linearPredictorStd γ (r k) := by
  rw [Dataset.linearPredictorStd_real, Dataset.linearPredictorStd_real, h.x, h.offset_eq]

theorem logLike (g : Glm ℝ) (γ : Vec ℝ (ncols b p)) : g.logLike d' γ = g.logLike d γ := by
  simp only [Dataset.logLike_apply, h.linPred, h.y]
  exact h.sum_total fun i => g.logLikeNatural (d.y i) (g.link.natParam (d.linearPredictorStd γ i))

theorem irlsMatVec (eps : ℝ) (g : Glm ℝ) (γ : Vec ℝ (ncols b p)) :
    Irls.irlsMatVec eps g d' γ = Irls.irlsMatVec eps g d γ := by
  have hm : ∀ {l : ℕ} (e : Dataset ℝ l p b) j k, (Irls.irlsMatVec eps g e γ).1 j k
      = ∑ i, totalWt e i * (e.x i j * ((g.link.adjustErrorsVariance
      (vsub e.y (g.mean (e.linearPredictorStd γ)) i)
      (g.variance (g.mean (e.linearPredictorStd γ) i)) (e.linearPredictorStd γ i)).2 + eps)
      * e.x i k) := by
    intro l e j k
    change vdotBy (.matMat _ _ _ _) (fun i => e.xConj j i * ((g.link.adjustErrorsVariance
      (vsub e.y (g.mean (e.linearPredictorStd γ)) i)
      (g.variance (g.mean (e.linearPredictorStd γ) i)) (e.linearPredictorStd γ i)).2 + eps))
      (fun i => e.x i k) = _
    simp only [vdotBy_real, Dataset.xConj_real]
    exact Finset.sum_congr rfl fun i _ => by ring
  have hv : ∀ {l : ℕ} (e : Dataset ℝ l p b) j, (Irls.irlsMatVec eps g e γ).2 j
      = ∑ i, totalWt e i * (e.x i j * (((g.link.adjustErrorsVariance
      (vsub e.y (g.mean (e.linearPredictorStd γ)) i)
      (g.variance (g.mean (e.linearPredictorStd γ) i)) (e.linearPredictorStd γ i)).2 + eps)
      * (∑ k, e.x i k * γ k) + (g.link.adjustErrorsVariance
      (vsub e.y (g.mean (e.linearPredictorStd γ)) i)
      (g.variance (g.mean (e.linearPredictorStd γ) i)) (e.linearPredictorStd γ i)).1)) := by
    intro l e j
    change vdotBy (.matVec _ _) (fun i => e.xConj j i) (fun i => (((g.link.adjustErrorsVariance
      (vsub e.y (g.mean (e.linearPredictorStd γ)) i)
      (g.variance (g.mean (e.linearPredictorStd γ) i)) (e.linearPredictorStd γ i)).2 + eps)
      * vdotBy (.matVec _ _) (e.x i) γ + (g.link.adjustErrorsVariance
      (vsub e.y (g.mean (e.linearPredictorStd γ)) i)
      (g.variance (g.mean (e.linearPredictorStd γ) i)) (e.linearPredictorStd γ i)).1)) = _
    simp only [vdotBy_real, Dataset.xConj_real]
    exact Finset.sum_congr rfl fun i _ => by ring
  refine Prod.ext ?_ ?_
  · funext j k
    rw [hm, hm]
    simp only [Glm.mean, vsub, h.linPred, h.y, h.x]
    exact h.sum_total fun i => d.x i j * ((g.link.adjustErrorsVariance
      (d.y i - g.link.funcInv (d.linearPredictorStd γ i))
      (g.variance (g.link.funcInv (d.linearPredictorStd γ i))) (d.linearPredictorStd γ i)).2 + eps)
      * d.x i k
  · funext j
    rw [hv, hv]
    simp only [Glm.mean, vsub, h.linPred, h.y, h.x]
    exact h.sum_total fun i => d.x i j * (((g.link.adjustErrorsVariance
      (d.y i - g.link.funcInv (d.linearPredictorStd γ i))
      (g.variance (g.link.funcInv (d.linearPredictorStd γ i))) (d.linearPredictorStd γ i)).2 + eps)
      * (∑ k, d.x i k * γ k) + (g.link.adjustErrorsVariance
      (d.y i - g.link.funcInv (d.linearPredictorStd γ i))
      (g.variance (g.link.funcInv (d.linearPredictorStd γ i))) (d.linearPredictorStd γ i)).1)

theorem transformBeta (β : Vec ℝ (ncols b p)) : d'.transformBeta β = d.transformBeta β := by
  unfold Dataset.transformBeta
  cases b <;> simp only [h.std]

theorem inverseTransformBeta (β : Vec ℝ (ncols b p)) :
    d'.inverseTransformBeta β = d.inverseTransformBeta β := by
  unfold Dataset.inverseTransformBeta
  cases b <;> simp only [h.std]

theorem inverseTransformScore (β : Vec ℝ (ncols b p)) :
    d'.inverseTransformScore β = d.inverseTransformScore β := by
  unfold Dataset.inverseTransformScore
  cases b <;> simp only [h.std]

theorem inverseTransformFisher (M : Mat ℝ (ncols b p) (ncols b p)) :
    d'.inverseTransformFisher M = d.inverseTransformFisher M := by
  unfold Dataset.inverseTransformFisher
  cases b <;> simp only [h.std]

theorem xConj_dotV (v : Vec ℝ n) : d'.xConj.dotV (fun k => v (r k)) = d.xConj.dotV v := by
  funext j
  simp only [Mat.dotV, vdotBy_real, Dataset.xConj_real, mul_assoc, h.x]
  exact h.sum_total fun i => d.x i j * v i

theorem xConj_dotM (v : Vec ℝ n) :
    Mat.dotM (fun j k => d'.xConj j k * v (r k)) d'.x
      = Mat.dotM (fun j i => d.xConj j i * v i) d.x := by
  funext j l
  simp only [Mat.dotM, vdotBy_real, Dataset.xConj_real, mul_assoc, h.x]
  exact h.sum_total fun i => d.x i j * (v i * d.x i l)

end Spec.Reweights

/-! ### Standardization -/

/-- Weighted variance of feature `j` with the effective-sample-size correction. -/
noncomputable def Spec.wVar (d : Dataset ℝ n p false) (j : Fin p) : ℝ :=
  (∑ i, totalWt d i * (d.x i j - wMean d j) ^ 2) / (∑ i, totalWt d i) * (d.nEff / (d.nEff - 1))

theorem fromDataset_eq {d : Dataset ℝ n p false} {s : Standardizer ℝ p}
    (hw : 0 < ∑ i, totalWt d i) (h : Standardizer.fromDataset d b = some s) :
    (∀ j, s.shifts j = if b then wMean d j else 0) ∧
    ∀ j, s.scales j = √(if 0 < wVar d j then wVar d j else 1) := by
  have hn : n ≠ 0 := by
    rintro rfl; simp at hw
  simp only [Standardizer.fromDataset, Option.map_eq_some_iff] at h
  obtain ⟨vars, hv, rfl⟩ := h
  constructor
  · intro j
    cases b
    · rfl
    · simp only [if_true, if_neg hn, vsum_real, Dataset.applyTotalWeights_real, vfill, mul_one]
      rfl
  · intro j
    simp only [gt_real, sqrt_real]
    congr 1
    by_cases h1 : n ≤ 1
    · have : n = 1 := by omega
      subst this
      rw [if_pos (le_refl _)] at hv
      have hvj : vars j = 1 := by
        simp only [Option.some.injEq] at hv; rw [← hv]; rfl
      have h0 : wVar d j = 0 := by
        unfold wVar wMean
        rw [Fin.sum_univ_one] at hw
        simp only [Fin.sum_univ_one]
        have : d.x 0 j - totalWt d 0 * d.x 0 j / totalWt d 0 = 0 := by
          field_simp; ring
        simp [this]
      rw [hvj, h0]; simp
    · rw [if_neg h1] at hv
      split at hv
      · simp only [Option.some.injEq] at hv
        have hvj : vars j = wVar d j := by
          rw [← hv]
          simp only [vsum_real, Dataset.applyTotalWeights_real, vfill, mul_one, ← sq]
          rfl
        rw [hvj]
      · simp at hv

end GLM
