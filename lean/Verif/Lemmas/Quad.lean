/-
  Quadratic forms of the information, Gram and penalty matrices.
-/
import Verif.Lemmas.Newton
import Mathlib.LinearAlgebra.Matrix.PosDef

namespace GLM
open Spec Matrix
variable {n p k : ℕ} {b : Bool}

theorem quad_weighted (c : Fin n → ℝ) (X : Matrix (Fin n) (Fin k) ℝ) (x : Fin k → ℝ) :
    x ⬝ᵥ ((fun j l => ∑ i, c i * X i j * X i l : Matrix (Fin k) (Fin k) ℝ) *ᵥ x)
      = ∑ i, c i * (∑ j, X i j * x j) ^ 2 := by
  have h1 : ∀ i, c i * (∑ j, X i j * x j) ^ 2 = ∑ j, ∑ l, x j * (c i * X i j * X i l * x l) := by
    intro i
    rw [sq, Finset.sum_mul_sum, Finset.mul_sum]
    refine Finset.sum_congr rfl fun j _ => ?_
    rw [Finset.mul_sum]
    exact Finset.sum_congr rfl fun l _ => by ring
  simp only [h1, dotProduct, mulVec, Finset.sum_mul, Finset.mul_sum]
  rw [Finset.sum_comm]
  have h2 : ∀ i : Fin n, ∑ j, ∑ l, x j * (c i * X i j * X i l * x l)
      = ∑ l, ∑ j, x j * (c i * X i j * X i l * x l) := fun i => Finset.sum_comm
  calc _ = ∑ l, ∑ j, ∑ i, x j * (c i * X i j * X i l * x l) := rfl
    _ = ∑ l, ∑ i, ∑ j, x j * (c i * X i j * X i l * x l) :=
        Finset.sum_congr rfl fun l _ => Finset.sum_comm
    _ = ∑ i, ∑ l, ∑ j, x j * (c i * X i j * X i l * x l) := Finset.sum_comm
    _ = _ := Finset.sum_congr rfl fun i _ => (h2 i).symm

variable {g : Glm ℝ} {raw : Dataset ℝ n p false}

theorem quad_fisher (β x : Vec ℝ (ncols b p)) : x ⬝ᵥ (fisherMat g raw b β *ᵥ x) =
    ∑ i, totalWt raw i * g.link.dNatParam (linPred raw b β i) ^ 2
      * g.variance (meanAt g raw b β i) * (∑ j, design b raw.x i j * x j) ^ 2 :=
  quad_weighted _ _ _

theorem quad_gram (x : Vec ℝ (ncols b p)) : x ⬝ᵥ (gram raw b *ᵥ x) =
    ∑ i, totalWt raw i * (∑ j, design b raw.x i j * x j) ^ 2 :=
  quad_weighted _ _ _

theorem onSlopes_dot (v x : Vec ℝ p) (y : Vec ℝ (ncols b p)) (h : slopes b y = x) :
    onSlopes b v ⬝ᵥ y = ∑ j, v j * x j := by
  subst h
  cases b
  · rfl
  · change ∑ j : Fin (p + 1), _ = _
    rw [Fin.sum_univ_succ]
    simp [onSlopes, slopes]

theorem quad_ridge (l2 : ℝ) (σ : Fin p → ℝ) (x : Vec ℝ (ncols b p)) :
    x ⬝ᵥ (ridgeMat l2 σ b *ᵥ x) = ∑ j, max l2 0 * σ j ^ 2 * slopes b x j ^ 2 := by
  have h : ridgeMat l2 σ b *ᵥ x = onSlopes b fun j => max l2 0 * σ j ^ 2 * slopes b x j := by
    funext j
    rw [ridgeMat, mulVec_diagonal]
    exact congrFun (onSlopes_mul (fun j => max l2 0 * σ j ^ 2) x fun t => t) j
  rw [h, dotProduct_comm, onSlopes_dot _ (slopes b x) x rfl]
  exact Finset.sum_congr rfl fun j _ => by ring

theorem quad_newton (eps l2 : ℝ) (σ : Fin p → ℝ) (β x : Vec ℝ (ncols b p)) :
    x ⬝ᵥ (newtonMat eps g raw b l2 σ β *ᵥ x) =
      ∑ i, totalWt raw i * (g.link.dNatParam (linPred raw b β i) ^ 2
        * g.variance (meanAt g raw b β i) + eps) * (∑ j, design b raw.x i j * x j) ^ 2
      + ∑ j, max l2 0 * σ j ^ 2 * slopes b x j ^ 2 := by
  rw [newtonMat, add_mulVec, add_mulVec, dotProduct_add, dotProduct_add, quad_fisher, quad_ridge,
    smul_mulVec, dotProduct_smul, quad_gram, smul_eq_mul, Finset.mul_sum,
    ← Finset.sum_add_distrib]
  congr 1
  exact Finset.sum_congr rfl fun i _ => by ring

theorem fisherMat_symm (β : Vec ℝ (ncols b p)) : (fisherMat g raw b β).IsSymm := by
  ext j k
  simp only [transpose_apply, fisherMat]
  exact Finset.sum_congr rfl fun i _ => by ring

theorem gram_symm : (gram raw b).IsSymm := by
  ext j k
  simp only [transpose_apply, gram]
  exact Finset.sum_congr rfl fun i _ => by ring

theorem newtonMat_symm (eps l2 : ℝ) (σ : Fin p → ℝ) (β : Vec ℝ (ncols b p)) :
    (newtonMat eps g raw b l2 σ β).IsSymm :=
  ((fisherMat_symm β).add (gram_symm.smul eps)).add (isSymm_diagonal _)

theorem isHermitian_of_symm {m : Matrix (Fin k) (Fin k) ℝ} (h : m.IsSymm) : m.IsHermitian := by
  rw [IsHermitian, conjTranspose_eq_transpose_of_trivial]; exact h

/-- A coefficient vector with zero slopes on a design with zero linear predictor at some
observation is zero. -/
theorem eq_zero_of_slopes (x : Vec ℝ (ncols b p)) (h : ∀ j, slopes b x j = 0)
    (hint : b = true → ∃ i, ∑ j, design b raw.x i j * x j = 0) : x = 0 := by
  cases b
  · funext j; exact h j
  · obtain ⟨i, hi⟩ := hint rfl
    rw [Fin.sum_univ_succ] at hi
    have hz : ∀ j : Fin p, x (Fin.succ j : Fin (p + 1)) = 0 := h
    simp only [hz, mul_zero, Finset.sum_const_zero, add_zero] at hi
    funext j
    refine Fin.cases ?_ (fun j => ?_) (j : Fin (p + 1))
    · simpa [design] using hi
    · exact hz j

theorem gram_nonneg (hw : ∀ i, 0 ≤ totalWt raw i) (x : Vec ℝ (ncols b p)) :
    0 ≤ x ⬝ᵥ (gram raw b *ᵥ x) := by
  rw [quad_gram]
  exact Finset.sum_nonneg fun i _ => mul_nonneg (hw i) (sq_nonneg _)

/-- If the quadratic form of the Gram matrix vanishes, so does the matrix-vector product. -/
theorem gram_mulVec_eq_zero (hw : ∀ i, 0 ≤ totalWt raw i) {x : Vec ℝ (ncols b p)}
    (h : x ⬝ᵥ (gram raw b *ᵥ x) = 0) : gram raw b *ᵥ x = 0 := by
  rw [quad_gram, Finset.sum_eq_zero_iff_of_nonneg fun i _ => mul_nonneg (hw i) (sq_nonneg _)] at h
  funext j
  simp only [mulVec, dotProduct, gram, Finset.sum_mul, Pi.zero_apply]
  rw [Finset.sum_comm]
  refine Finset.sum_eq_zero fun i _ => ?_
  have h2 : ∑ k, totalWt raw i * design b raw.x i j * design b raw.x i k * x k
      = totalWt raw i * design b raw.x i j * ∑ k, design b raw.x i k * x k := by
    rw [Finset.mul_sum]; exact Finset.sum_congr rfl fun k _ => by ring
  rw [h2]
  rcases mul_eq_zero.mp (h i (Finset.mem_univ i)) with h3 | h3
  · simp [h3]
  · have : ∑ k, design b raw.x i k * x k = 0 := by simpa using h3
    rw [this, mul_zero]

theorem gram_pos (hw : ∀ i, 0 ≤ totalWt raw i) (hu : IsUnit (gram raw b).det)
    {x : Vec ℝ (ncols b p)} (hx : x ≠ 0) : 0 < x ⬝ᵥ (gram raw b *ᵥ x) := by
  refine lt_of_le_of_ne (gram_nonneg hw x) fun h => hx ?_
  have h1 := gram_mulVec_eq_zero hw h.symm
  have := congrArg (fun z => (gram raw b)⁻¹ *ᵥ z) h1
  simpa only [mulVec_mulVec, nonsing_inv_mul _ hu, one_mulVec, mulVec_zero] using this

end GLM
