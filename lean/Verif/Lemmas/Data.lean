/-
  Dataset operations at `ℝ` in closed form; the standardization change of basis as a matrix.
-/
import Verif.Lemmas.Real
import Verif.Spec.Data
import Mathlib.LinearAlgebra.Matrix.NonsingularInverse
import Mathlib.LinearAlgebra.Matrix.Block

namespace GLM
open Spec Matrix
variable {n p : ℕ} {b : Bool}

namespace Standardizer
variable (s : Standardizer ℝ p)

/-- Change of basis with an intercept. -/
def tmatInt : Matrix (Fin (p + 1)) (Fin (p + 1)) ℝ :=
  Matrix.of (Fin.cons (Fin.cons 1 s.shifts)
    fun i => Fin.cons 0 (Matrix.diagonal s.scales i) : Fin (p + 1) → Fin (p + 1) → ℝ)

@[simp] theorem tmatInt_00 : s.tmatInt 0 0 = 1 := rfl
@[simp] theorem tmatInt_0s (j : Fin p) : s.tmatInt 0 j.succ = s.shifts j := rfl
@[simp] theorem tmatInt_s0 (i : Fin p) : s.tmatInt i.succ 0 = 0 := rfl
@[simp] theorem tmatInt_ss (i j : Fin p) :
    s.tmatInt i.succ j.succ = if i = j then s.scales i else 0 := by
  simp [tmatInt, Matrix.diagonal_apply]

theorem transformCoefficients_eq (β : Vec ℝ (p + 1)) :
    s.transformCoefficients β = s.tmatInt *ᵥ β := by
  funext j
  refine Fin.cases ?_ (fun j => ?_) j <;>
    simp [transformCoefficients, mulVec, dotProduct, Fin.sum_univ_succ, mul_comm]

theorem inverseTransformScore_eq (v : Vec ℝ (p + 1)) :
    s.inverseTransformScore v = s.tmatIntᵀ *ᵥ v := by
  funext j
  refine Fin.cases ?_ (fun j => ?_) j <;>
    simp [inverseTransformScore, mulVec, dotProduct, Fin.sum_univ_succ, mul_comm, add_comm]

theorem inverseTransformFisher_eq (m : Mat ℝ (p + 1) (p + 1)) :
    s.inverseTransformFisher m = (s.tmatIntᵀ * Matrix.of m * s.tmatInt : Matrix _ _ ℝ) := by
  funext i j
  simp only [Matrix.mul_apply]
  refine Fin.cases ?_ (fun i => ?_) i <;> refine Fin.cases ?_ (fun j => ?_) j <;>
    simp [inverseTransformFisher, Fin.sum_univ_succ] <;> ring

theorem det_tmatInt : s.tmatInt.det = ∏ j, s.scales j := by
  rw [Matrix.det_of_isUpperTriangular, Fin.prod_univ_succ]
  · simp
  · intro i j
    refine Fin.cases (fun h => absurd h (by simp)) (fun i => ?_) i
    refine Fin.cases (fun _ => by simp) (fun j h => ?_) j
    have : i ≠ j := by
      rintro rfl; exact lt_irrefl _ h
    simp [this]

theorem transform_inverse_coefficients (h : ∀ j, s.scales j ≠ 0) (β : Vec ℝ (p + 1)) :
    s.transformCoefficients (s.inverseTransformCoefficients β) = β := by
  funext j
  refine Fin.cases ?_ (fun j => ?_) j
  · simp [transformCoefficients, inverseTransformCoefficients]
  · simp [transformCoefficients, inverseTransformCoefficients, h j]

theorem inverse_transform_coefficients (h : ∀ j, s.scales j ≠ 0) (β : Vec ℝ (p + 1)) :
    s.inverseTransformCoefficients (s.transformCoefficients β) = β := by
  funext j
  refine Fin.cases ?_ (fun j => ?_) j
  · simp [transformCoefficients, inverseTransformCoefficients, h]
  · simp [transformCoefficients, inverseTransformCoefficients, h j]

theorem transformCoefficientsNoInt_eq (β : Vec ℝ p) :
    s.transformCoefficientsNoInt β = diagonal s.scales *ᵥ β := by
  funext j; rw [mulVec_diagonal, mul_comm]; rfl

theorem inverseTransformScoreNoInt_eq (v : Vec ℝ p) :
    s.inverseTransformScoreNoInt v = (diagonal s.scales)ᵀ *ᵥ v := by
  funext j; rw [diagonal_transpose, mulVec_diagonal, mul_comm]; rfl

theorem inverseTransformFisherNoInt_eq (m : Mat ℝ p p) :
    s.inverseTransformFisherNoInt m
      = ((diagonal s.scales)ᵀ * Matrix.of m * diagonal s.scales : Matrix _ _ ℝ) := by
  funext i j
  rw [diagonal_transpose, mul_diagonal, diagonal_mul]
  simp only [inverseTransformFisherNoInt, of_apply]; ring

theorem inverseTransform_transform (h : ∀ j, s.scales j ≠ 0) (x : Mat ℝ n p) :
    s.inverseTransform (s.transform x) = x := by
  funext i j
  have := h j
  simp only [inverseTransform, transform]; field_simp; ring

theorem xExtInt_eq (x : Mat ℝ n p) :
    Matrix.of (fun i => (Fin.cons 1 (s.inverseTransform x i) : Fin (p + 1) → ℝ))
      = (Matrix.of (fun i => (Fin.cons 1 (x i) : Fin (p + 1) → ℝ)) * s.tmatInt :
        Matrix (Fin n) (Fin (p + 1)) ℝ) := by
  ext i j
  simp only [Matrix.mul_apply]
  refine Fin.cases ?_ (fun j => ?_) j <;>
    simp [inverseTransform, Fin.sum_univ_succ, add_comm]

end Standardizer

private theorem aux_one_mulVec {k : ℕ} (v : Fin k → ℝ) :
    v = (1 : Matrix (Fin k) (Fin k) ℝ) *ᵥ v := by simp
private theorem aux_oneT_mulVec {k : ℕ} (v : Fin k → ℝ) :
    v = (1 : Matrix (Fin k) (Fin k) ℝ)ᵀ *ᵥ v := by simp
private theorem aux_one_conj {k : ℕ} (m : Fin k → Fin k → ℝ) :
    m = ((1 : Matrix (Fin k) (Fin k) ℝ)ᵀ * Matrix.of m * 1 : Matrix _ _ ℝ) := by
  simp; rfl
private theorem aux_mul_one {k : ℕ} (m : Matrix (Fin n) (Fin k) ℝ) :
    m = (m * (1 : Matrix (Fin k) (Fin k) ℝ) : Matrix _ _ ℝ) := by simp
private theorem aux_det_one {k : ℕ} : (1 : Matrix (Fin k) (Fin k) ℝ).det ≠ 0 := by simp
private theorem aux_det_diag {k : ℕ} {v : Fin k → ℝ} (h : ∀ j, 0 < v j) :
    (diagonal v).det ≠ 0 := by
  rw [det_diagonal]; exact Finset.prod_ne_zero_iff.mpr fun j _ => (h j).ne'

namespace Dataset
variable (d : Dataset ℝ n p b)

theorem applyFreqWeights_real (v : Vec ℝ n) (i : Fin n) :
    d.applyFreqWeights v i = freq d i * v i := by
  unfold applyFreqWeights freq
  cases d.freqs <;> simp [vmul]

theorem applyVarWeights_real (v : Vec ℝ n) (i : Fin n) :
    d.applyVarWeights v i = varWt d i * v i := by
  unfold applyVarWeights varWt
  cases d.weights <;> simp [vmul]

theorem applyTotalWeights_real (v : Vec ℝ n) (i : Fin n) :
    d.applyTotalWeights v i = totalWt d i * v i := by
  rw [applyTotalWeights, applyFreqWeights_real, applyVarWeights_real, totalWt, mul_assoc]

theorem freqSum_real (v : Vec ℝ n) : d.freqSum v = ∑ i, freq d i * v i := by
  simp [freqSum, applyFreqWeights_real]

theorem weightedSum_real (v : Vec ℝ n) : d.weightedSum v = ∑ i, totalWt d i * v i := by
  simp [weightedSum, freqSum_real, applyVarWeights_real, totalWt, mul_assoc]

theorem nObs_real : d.nObs = ∑ i, freq d i := by
  unfold nObs freq
  cases d.freqs <;> simp

theorem sumWeights_real : d.sumWeights = ∑ i, totalWt d i := by
  unfold sumWeights
  cases h : d.weights with
  | none => simp [nObs_real, totalWt, varWt, h]
  | some w => simp [freqSum_real, totalWt, varWt, h]

theorem getVarianceWeights_real (i : Fin n) : d.getVarianceWeights i = varWt d i := by
  unfold getVarianceWeights varWt
  cases d.weights <;> simp [vfill]

theorem nEff_eq_of_sq_ne (h : ∑ i, freq d i * varWt d i ^ 2 ≠ 0) :
    d.nEff = (∑ i, totalWt d i) ^ 2 / ∑ i, freq d i * varWt d i ^ 2 := by
  unfold nEff
  cases hw : d.weights with
  | none =>
    simp only [nObs_real, totalWt, varWt, hw, mul_one, one_pow] at *
    rw [sq, mul_div_assoc, div_self h, mul_one]
  | some w =>
    simp only [freqSum_real, totalWt, varWt, hw, vmul]
    rw [sq]; congr 1; exact Finset.sum_congr rfl fun i _ => by ring

theorem weightCols_real {m : ℕ} (xt : Mat ℝ m n) (j : Fin m) (i : Fin n) :
    d.weightCols xt j i = totalWt d i * xt j i := by
  unfold weightCols totalWt freq varWt
  cases d.freqs <;> cases d.weights <;> simp <;> ring

theorem xConj_real (j : Fin (ncols b p)) (i : Fin n) : d.xConj j i = totalWt d i * d.x i j := by
  simp [xConj, weightCols_real, Mat.tr]

theorem xConjExt_real (j : Fin (ncols b p)) (i : Fin n) :
    d.xConjExt j i = totalWt d i * d.xExt i j := by
  simp [xConjExt, weightCols_real, Mat.tr]

theorem linearPredictorStd_real (β : Vec ℝ (ncols b p)) (i : Fin n) :
    d.linearPredictorStd β i = ∑ j, d.x i j * β j + offset d i := by
  unfold linearPredictorStd offset
  cases d.linearOffset <;> simp [vadd, Mat.dotV]

/-- The change of basis between external and internal coefficients. -/
def tmat : {b : Bool} → Dataset ℝ n p b → Matrix (Fin (ncols b p)) (Fin (ncols b p)) ℝ
  | true, d => match d.standardizer with
    | none => (1 : Matrix (Fin (p + 1)) (Fin (p + 1)) ℝ)
    | some s => s.tmatInt
  | false, d => match d.standardizer with
    | none => (1 : Matrix (Fin p) (Fin p) ℝ)
    | some s => Matrix.diagonal s.scales

/-- The facts about a dataset that every construction in the crate maintains. -/
structure WF : Prop where
  scales_pos : ∀ s, d.standardizer = some s → ∀ j, 0 < s.scales j
  shifts_zero : b = false → ∀ s, d.standardizer = some s → ∀ j, s.shifts j = 0
  ones : ∀ (h : b = true) (i : Fin n), d.x i ⟨0, by subst h; exact Nat.succ_pos p⟩ = 1

theorem transformBeta_eq (β : Vec ℝ (ncols b p)) : d.transformBeta β = d.tmat *ᵥ β := by
  cases b
  · unfold transformBeta tmat
    dsimp only
    cases d.standardizer with
    | none => exact aux_one_mulVec (k := p) β
    | some s => exact s.transformCoefficientsNoInt_eq β
  · unfold transformBeta tmat
    dsimp only
    cases d.standardizer with
    | none => exact aux_one_mulVec (k := p + 1) β
    | some s => exact s.transformCoefficients_eq β

theorem inverseTransformScore_eq (v : Vec ℝ (ncols b p)) :
    d.inverseTransformScore v = d.tmatᵀ *ᵥ v := by
  cases b
  · unfold inverseTransformScore tmat
    dsimp only
    cases d.standardizer with
    | none => exact aux_oneT_mulVec (k := p) v
    | some s => exact s.inverseTransformScoreNoInt_eq v
  · unfold inverseTransformScore tmat
    dsimp only
    cases d.standardizer with
    | none => exact aux_oneT_mulVec (k := p + 1) v
    | some s => exact s.inverseTransformScore_eq v

theorem inverseTransformFisher_eq (m : Mat ℝ (ncols b p) (ncols b p)) :
    d.inverseTransformFisher m = (d.tmatᵀ * Matrix.of m * d.tmat : Matrix _ _ ℝ) := by
  cases b
  · unfold inverseTransformFisher tmat
    dsimp only
    cases d.standardizer with
    | none => exact aux_one_conj (k := p) m
    | some s => exact s.inverseTransformFisherNoInt_eq m
  · unfold inverseTransformFisher tmat
    dsimp only
    cases d.standardizer with
    | none => exact aux_one_conj (k := p + 1) m
    | some s => exact s.inverseTransformFisher_eq m

variable {d}

theorem WF.det_tmat (h : WF d) : d.tmat.det ≠ 0 := by
  obtain ⟨h, -, -⟩ := h
  cases b
  · unfold tmat
    dsimp only
    cases hs : d.standardizer with
    | none => exact aux_det_one (k := p)
    | some s => exact aux_det_diag (h s hs)
  · unfold tmat
    dsimp only
    cases hs : d.standardizer with
    | none => exact aux_det_one (k := p + 1)
    | some s =>
      have : Matrix.det (n := Fin (p + 1)) s.tmatInt ≠ 0 := by
        rw [s.det_tmatInt]; exact Finset.prod_ne_zero_iff.mpr fun j _ => (h s hs j).ne'
      exact this

theorem WF.transformBeta_inverseTransformBeta (h : WF d) (β : Vec ℝ (ncols b p)) :
    d.transformBeta (d.inverseTransformBeta β) = β := by
  obtain ⟨h, -, -⟩ := h
  cases b
  · unfold transformBeta inverseTransformBeta
    dsimp only
    cases hs : d.standardizer with
    | none => rfl
    | some s =>
      funext j
      have := (h s hs j).ne'
      simp only [Standardizer.transformCoefficientsNoInt, Standardizer.inverseTransformCoefficientsNoInt]
      exact div_mul_cancel₀ _ this
  · unfold transformBeta inverseTransformBeta
    dsimp only
    cases hs : d.standardizer with
    | none => rfl
    | some s => exact s.transform_inverse_coefficients (fun j => (h s hs j).ne') β

theorem WF.inverseTransformBeta_transformBeta (h : WF d) (β : Vec ℝ (ncols b p)) :
    d.inverseTransformBeta (d.transformBeta β) = β := by
  obtain ⟨h, -, -⟩ := h
  cases b
  · unfold transformBeta inverseTransformBeta
    dsimp only
    cases hs : d.standardizer with
    | none => rfl
    | some s =>
      funext j
      have := (h s hs j).ne'
      simp only [Standardizer.transformCoefficientsNoInt, Standardizer.inverseTransformCoefficientsNoInt]
      exact mul_div_cancel_right₀ _ this
  · unfold transformBeta inverseTransformBeta
    dsimp only
    cases hs : d.standardizer with
    | none => rfl
    | some s => exact s.inverse_transform_coefficients (fun j => (h s hs j).ne') β

theorem WF.col0 {d : Dataset ℝ n p true} (h : WF d) (i : Fin n) : d.x i (0 : Fin (p + 1)) = 1 :=
  h.ones rfl i

theorem x_eq_cons {d : Dataset ℝ n p true} (h : WF d) :
    d.x = fun i => (Fin.cons 1 (d.features i) : Fin (p + 1) → ℝ) := by
  funext i j
  refine Fin.cases ?_ (fun j => ?_) (j : Fin (p + 1))
  · exact h.col0 i
  · rfl

/-- The external design matrix is the internal one after the change of basis. -/
theorem WF.xExt_eq (h : WF d) :
    Matrix.of d.xExt = (Matrix.of d.x * d.tmat : Matrix _ _ ℝ) := by
  cases b
  · obtain ⟨-, h1, -⟩ := h
    unfold xExt tmat xOrig features
    dsimp only
    cases hs : d.standardizer with
    | none => exact aux_mul_one (k := p) _
    | some s =>
      have : ∀ x : Mat ℝ n p, Matrix.of (s.inverseTransform x)
          = (Matrix.of x * diagonal s.scales : Matrix _ _ ℝ) := by
        intro x; ext i j
        rw [mul_diagonal]
        simp [Standardizer.inverseTransform, h1 rfl s hs j]
      exact this d.x
  · have hx := x_eq_cons h
    unfold xExt tmat xOrig
    dsimp only
    have h0 : ∀ i, d.x i (0 : Fin (p + 1)) = 1 := h.col0
    cases hs : d.standardizer with
    | none =>
      refine Eq.trans ?_ (aux_mul_one (k := p + 1) (Matrix.of d.x))
      simp only [h0]
      rw [hx]
    | some s =>
      simp only [h0]
      refine Eq.trans (s.xExtInt_eq d.features) ?_
      rw [hx]

/-- With an admissible dataset, the external design matrix is `design` of the original features. -/
theorem WF.xExt_design (h : WF d) : Matrix.of d.xExt = design b d.xOrig := by
  cases b
  · rfl
  · ext i j
    refine Fin.cases ?_ (fun j => ?_) (j : Fin (p + 1))
    · exact h.col0 i
    · rfl

theorem WF.linPred_transform (h : WF d) (β : Vec ℝ (ncols b p)) (i : Fin n) :
    d.linearPredictorStd (d.transformBeta β) i = ∑ j, design b d.xOrig i j * β j + offset d i := by
  rw [linearPredictorStd_real, transformBeta_eq, ← h.xExt_design, h.xExt_eq]
  congr 1
  have := congrFun (Matrix.mulVec_mulVec β (Matrix.of d.x) d.tmat) i
  simpa [mulVec, dotProduct] using this

end Dataset

/-! ### `finalize` -/

namespace Standardizer

theorem fromDataset_scales_pos {data : Dataset ℝ n p false} {icpt : Bool} {s : Standardizer ℝ p}
    (h : fromDataset data icpt = some s) (j : Fin p) : 0 < s.scales j := by
  unfold fromDataset at h
  dsimp only at h
  rw [Option.map_eq_some_iff] at h
  obtain ⟨vars, -, rfl⟩ := h
  simp only [sqrt_real, gt_real]
  apply Real.sqrt_pos.mpr
  split
  · assumption
  · exact one_pos

theorem fromDataset_shifts {data : Dataset ℝ n p false} {s : Standardizer ℝ p}
    (h : fromDataset data false = some s) (j : Fin p) : s.shifts j = 0 := by
  unfold fromDataset at h
  dsimp only at h
  rw [Option.map_eq_some_iff] at h
  obtain ⟨vars, -, rfl⟩ := h
  simp [vzeros]

end Standardizer

namespace Dataset
variable {raw : Dataset ℝ n p false} {std : Bool} {d : Dataset ℝ n p b}

/-- What a successful build sets. -/
theorem finalize_cases (h : raw.finalize std b = some d) :
    d.y = raw.y ∧ d.linearOffset = raw.linearOffset ∧ d.weights = raw.weights ∧
      d.freqs = raw.freqs ∧
    ((std = false ∧ d.x = padded b raw.x ∧ d.standardizer = none) ∨
     (std = true ∧ ∃ s, Standardizer.fromDataset raw b = some s ∧ d.standardizer = some s ∧
        d.x = padded b (s.transform raw.x))) := by
  unfold finalize at h
  cases std
  · simp only [Bool.false_eq_true, if_false, Option.some.injEq] at h
    subst h
    exact ⟨rfl, rfl, rfl, rfl, Or.inl ⟨rfl, rfl, rfl⟩⟩
  · simp only [if_true, Option.map_eq_some_iff] at h
    obtain ⟨s, hs, rfl⟩ := h
    refine ⟨rfl, rfl, rfl, rfl, Or.inr ⟨rfl, s, hs, rfl, rfl⟩⟩

theorem finalize_wf (h : raw.finalize std b = some d) : WF d := by
  obtain ⟨-, -, -, -, h⟩ := finalize_cases h
  rcases h with ⟨-, hx, hs⟩ | ⟨-, s, hs0, hs, hx⟩
  · refine ⟨by simp [hs], by simp [hs], ?_⟩
    cases b
    · intro hb; cases hb
    · intro _ i; rw [hx]; rfl
  · refine ⟨?_, ?_, ?_⟩
    · intro s' hs' j
      rw [hs] at hs'; cases hs'
      exact Standardizer.fromDataset_scales_pos hs0 j
    · rintro rfl s' hs' j
      rw [hs] at hs'; cases hs'
      exact Standardizer.fromDataset_shifts hs0 j
    · cases b
      · intro hb; cases hb
      · intro _ i; rw [hx]; rfl

theorem features_padded {x : Mat ℝ n p} (hx : d.x = padded b x) : d.features = x := by
  cases b
  · exact hx
  · unfold features; dsimp only; rw [hx]; rfl

theorem finalize_xOrig (h : raw.finalize std b = some d) : d.xOrig = raw.x := by
  have hwf := finalize_wf h
  obtain ⟨-, -, -, -, h⟩ := finalize_cases h
  rcases h with ⟨-, hx, hs⟩ | ⟨-, s, hs0, hs, hx⟩
  · unfold xOrig; rw [hs]; exact features_padded hx
  · unfold xOrig; rw [hs, features_padded hx]
    exact s.inverseTransform_transform (fun j => (hwf.scales_pos s hs j).ne') raw.x

theorem finalize_offset (h : raw.finalize std b = some d) : offset d = offset raw := by
  funext i; simp [offset, (finalize_cases h).2.1]

theorem finalize_freq (h : raw.finalize std b = some d) : freq d = freq raw := by
  funext i; simp [freq, (finalize_cases h).2.2.2.1]

theorem finalize_varWt (h : raw.finalize std b = some d) : varWt d = varWt raw := by
  funext i; simp [varWt, (finalize_cases h).2.2.1]

theorem finalize_totalWt (h : raw.finalize std b = some d) : totalWt d = totalWt raw := by
  funext i; simp [totalWt, finalize_freq h, finalize_varWt h]

theorem finalize_y (h : raw.finalize std b = some d) : d.y = raw.y := (finalize_cases h).1

theorem finalize_xExt (h : raw.finalize std b = some d) : Matrix.of d.xExt = design b raw.x := by
  rw [(finalize_wf h).xExt_design, finalize_xOrig h]

theorem finalize_linPred (h : raw.finalize std b = some d) (β : Vec ℝ (ncols b p)) (i : Fin n) :
    d.linearPredictorStd (d.transformBeta β) i = linPred raw b β i := by
  rw [(finalize_wf h).linPred_transform, finalize_xOrig h, finalize_offset h]; rfl

end Dataset
end GLM
