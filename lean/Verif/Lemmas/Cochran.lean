/-
  The squared length of the projection of a standard normal vector is chi-squared.
-/
import Verif.Lemmas.ChiSquare
import Verif.Props.Normal
import Mathlib.Analysis.Matrix.Spectrum

open MeasureTheory ProbabilityTheory

namespace GLM
open Spec
open Matrix hiding gram
variable {n k : ℕ} {Ω : Type*} [MeasurableSpace Ω] {P : Measure Ω} {Y : Ω → Vec ℝ n} {m v : Fin n → ℝ}

/-- Standardized normal responses. -/
theorem Spec.NormalResponses.standardize (hN : NormalResponses P Y m v) (hv : ∀ i, 0 < v i) :
    NormalResponses P (fun ω i => (√(v i))⁻¹ * (Y ω i - m i)) (fun _ => 0) fun _ => 1 := by
  refine ⟨fun _ => zero_le_one, hN.prob, fun i => ?_, fun i => ?_, ?_⟩
  · exact ((hN.measurable i).sub_const _).const_mul _
  · have h1 : P.map (fun ω => (√(v i))⁻¹ * (Y ω i - m i))
        = ((P.map fun ω => Y ω i).map (· - m i)).map ((√(v i))⁻¹ * ·) := by
      rw [Measure.map_map (by fun_prop) (by fun_prop),
        AEMeasurable.map_map_of_aemeasurable (by fun_prop) (hN.measurable i)]
      rfl
    rw [h1, hN.law, gaussianReal_map_sub_const, gaussianReal_map_const_mul, sub_self, mul_zero]
    congr 1
    ext
    have : (v i) ≠ 0 := (hv i).ne'
    simp [Real.coe_toNNReal _ (hv i).le, inv_pow, Real.sq_sqrt (hv i).le, this]
  · exact hN.indep.comp (fun i x => (√(v i))⁻¹ * (x - m i)) fun i => by fun_prop

theorem cochran {Z : Ω → Vec ℝ n} (hN : NormalResponses P Z (fun _ => 0) fun _ => 1)
    {B : Matrix (Fin n) (Fin n) ℝ} (hsym : Bᵀ = B) (hid : B * B = B) (hk : 0 < k)
    (htr : B.trace = k) :
    P.map (fun ω => (B *ᵥ Z ω) ⬝ᵥ (B *ᵥ Z ω)) = chi2Law k := by
  have hR := hN.random
  have hA : B.IsHermitian := by
    rw [Matrix.IsHermitian, conjTranspose_eq_transpose_of_trivial, hsym]
  set U : Matrix (Fin n) (Fin n) ℝ := hA.eigenvectorUnitary.1 with hU
  set l := hA.eigenvalues with hl
  have hUU : Uᵀ * U = 1 := by
    have := Unitary.coe_star_mul_self hA.eigenvectorUnitary
    rwa [star_eq_conjTranspose, conjTranspose_eq_transpose_of_trivial] at this
  have hB : B = U * diagonal l * Uᵀ := by
    have := hA.spectral_theorem
    rw [Unitary.conjStarAlgAut_apply, star_eq_conjTranspose, conjTranspose_eq_transpose_of_trivial] at this
    exact this
  have hD : diagonal l = Uᵀ * B * U := by
    rw [hB]
    simp only [Matrix.mul_assoc, hUU, Matrix.mul_one]
    rw [← Matrix.mul_assoc, hUU, Matrix.one_mul]
  have hUU' : U * Uᵀ = 1 := mul_eq_one_comm.mp hUU
  have hll : ∀ j, l j = 0 ∨ l j = 1 := by
    intro j
    have h1 : diagonal l * diagonal l = diagonal l := by
      have : Uᵀ * B * U * (Uᵀ * B * U) = Uᵀ * (B * (U * Uᵀ) * B) * U := by simp only [Matrix.mul_assoc]
      rw [hD, this, hUU', Matrix.mul_one, hid]
    rw [diagonal_mul_diagonal] at h1
    have h2 := congrFun (diagonal_injective h1) j
    have h3 : l j * (l j - 1) = 0 := by linarith
    rcases mul_eq_zero.mp h3 with h4 | h4
    · exact Or.inl h4
    · exact Or.inr (by linarith)
  classical
  set s : Finset (Fin n) := Finset.univ.filter fun j => l j = 1 with hs
  have hsum : ∀ g : Fin n → ℝ, ∑ j, l j * g j = ∑ j ∈ s, g j := by
    intro g
    rw [hs, Finset.sum_filter]
    refine Finset.sum_congr rfl fun j _ => ?_
    rcases hll j with h | h <;> simp [h]
  have hcard : s.card = k := by
    have h1 := hA.trace_eq_sum_eigenvalues
    have h2 := hsum fun _ => 1
    rw [htr] at h1
    simp only [mul_one, Finset.sum_const, nsmul_eq_mul] at h2
    have : (k : ℝ) = s.card := by rw [← h2]; exact h1
    exact_mod_cast this.symm
  set X : Fin n → Ω → ℝ := fun j ω => ∑ i, U i j * Z ω i with hX
  have hcov : ∀ i j, ∑ t, U t i * U t j = if i = j then 1 else 0 := fun i j => by
    have := congrFun (congrFun hUU i) j
    rwa [Matrix.mul_apply, Matrix.one_apply] at this
  have hq : ∀ ω, (B *ᵥ Z ω) ⬝ᵥ (B *ᵥ Z ω) = ∑ j ∈ s, X j ω ^ 2 := by
    intro ω
    have e : (fun j => X j ω) = Uᵀ *ᵥ Z ω := rfl
    have h1 : (B *ᵥ Z ω) ⬝ᵥ (B *ᵥ Z ω) = Z ω ⬝ᵥ (B *ᵥ Z ω) := by
      conv_lhs => rw [dotProduct_comm, dotProduct_mulVec, ← mulVec_transpose, hsym, mulVec_mulVec, hid,
        dotProduct_comm]
    have h2 : B *ᵥ Z ω = U *ᵥ (diagonal l *ᵥ (Uᵀ *ᵥ Z ω)) := by
      rw [mulVec_mulVec, mulVec_mulVec, ← hB]
    rw [h1, h2, dotProduct_mulVec, ← mulVec_transpose, ← e, ← hsum]
    refine Finset.sum_congr rfl fun j _ => ?_
    rw [mulVec_diagonal]
    ring
  have hlaw : ∀ j, P.map (X j) = gaussianReal 0 1 := by
    intro j
    have := hN.affine_law 0 fun i => U i j
    simpa [hcov] using this
  have hm : ∀ j, AEMeasurable (X j) P := fun j =>
    Finset.aemeasurable_fun_sum _ fun i _ => (hN.measurable i).const_mul _
  have hind : iIndepFun X P := by
    have hG : HasGaussianLaw (fun ω => (X · ω)) P := by
      have h1 := hN.joint.map (LinearMap.toContinuousLinearMap (Uᵀ).mulVecLin)
      exact h1.congr (Filter.Eventually.of_forall fun ω => rfl)
    refine hG.iIndepFun_of_covariance_eq_zero fun i j hij => ?_
    have := hR.cov_affine 0 0 (fun t => U t i) fun t => U t j
    simp only [zero_add, mul_one, hcov, if_neg hij] at this
    exact this
  simp only [hq]
  rw [← hcard]
  exact chi2_sum hind hm (Finset.card_pos.mp (by omega)) fun j _ => hlaw j

end GLM
