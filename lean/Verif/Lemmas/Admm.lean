/-
  The regularizers over the reals.
-/
import Verif.Spec.Penalty
import Verif.Lemmas.Newton
import Verif.Lemmas.Trace

namespace GLM
open Spec Matrix
variable {k : ℕ}

theorem softThresh_real {x l : ℝ} (hl : 0 ≤ l) :
    softThresh x l = if l < x then x - l else if x < -l then x + l else 0 := by
  unfold softThresh
  simp only [sign_real, abs_real, lt_real]
  by_cases h1 : l < x
  · have hx : 0 < x := by linarith
    rw [if_pos h1, sign_pos hx, abs_of_pos hx, if_neg (by linarith)]
    simp
  · rw [if_neg h1]
    by_cases h2 : x < -l
    · have hx : x < 0 := by linarith
      rw [if_pos h2, sign_neg hx, abs_of_neg hx, if_neg (by linarith)]
      simp
      ring
    · rw [if_neg h2]
      have : |x| - l ≤ 0 := by
        have : |x| ≤ l := abs_le.mpr ⟨by linarith, by linarith⟩
        linarith
      rcases this.lt_or_eq with h | h
      · rw [if_pos h, mul_zero]
      · rw [h]; simp

/-- What soft thresholding removes is a subgradient at the result. -/
theorem softThresh_subgrad {x l : ℝ} (hl : 0 ≤ l) :
    IsSubgrad l (softThresh x l) (x - softThresh x l) := by
  rw [softThresh_real hl]
  split
  · rename_i h
    have hx : 0 < x - l := by linarith
    refine ⟨by rw [abs_le]; constructor <;> linarith, ?_⟩
    rw [abs_of_pos hx]; ring
  · split
    · rename_i h
      have hx : x + l < 0 := by linarith
      refine ⟨by rw [abs_le]; constructor <;> linarith, ?_⟩
      rw [abs_of_neg hx]; ring
    · rename_i h1 h2
      refine ⟨by rw [abs_le]; constructor <;> linarith, by simp⟩

theorem Spec.IsSubgrad.smul {l x u c : ℝ} (h : IsSubgrad l x u) (hc : 0 ≤ c) :
    IsSubgrad (c * l) x (c * u) := by
  refine ⟨?_, by rw [mul_assoc, mul_assoc, h.2]⟩
  rw [abs_mul, abs_of_nonneg hc]
  exact mul_le_mul_of_nonneg_left h.1 hc

/-- The subgradient inequality. -/
theorem Spec.IsSubgrad.le {l x u : ℝ} (h : IsSubgrad l x u) (z : ℝ) : l * |x| + u * (z - x) ≤ l * |z| := by
  have h1 : u * z ≤ l * |z| := by
    have := le_abs_self (u * z)
    rw [abs_mul] at this
    exact this.trans (mul_le_mul_of_nonneg_right h.1 (abs_nonneg z))
  have := h.2
  nlinarith

theorem Spec.IsSubgrad.zero {x u : ℝ} (h : IsSubgrad 0 x u) : u = 0 := abs_nonpos_iff.mp h.1

/-- What every ADMM state reached by the crate satisfies. -/
structure AdmmInv (l1 : Vec ℝ k) (st : Admm ℝ k) : Prop where
  rho : ∃ z : ℤ, st.rho = 2 ^ z
  sub : ∀ j, IsSubgrad (l1 j) (st.dual j) (st.rho * st.cumRes j)

namespace AdmmInv
variable {l1 : Vec ℝ k} {st : Admm ℝ k}

theorem rho_pos (h : AdmmInv l1 st) : 0 < st.rho := by
  obtain ⟨z, hz⟩ := h.rho
  rw [hz]; positivity

theorem init (hl : ∀ j, 0 ≤ l1 j) : AdmmInv l1 (Admm.init : Admm ℝ k) where
  rho := ⟨0, by simp [Admm.init]⟩
  sub j := by
    simp only [Admm.init, vzeros]
    exact ⟨by simpa using hl j, by simp⟩

theorem updateRho (h : ∃ z : ℤ, st.rho = 2 ^ z) : (∃ z : ℤ, st.updateRho.rho = 2 ^ z) ∧
    st.updateRho.dual = st.dual ∧
    ∀ j, st.updateRho.rho * st.updateRho.cumRes j = st.rho * st.cumRes j := by
  obtain ⟨z, hz⟩ := h
  have h2 : (Scalar.ofNat 2 : ℝ) = 2 := by norm_num [ofNat_real]
  unfold Admm.updateRho
  cases st.rSq with
  | none => exact ⟨⟨z, hz⟩, rfl, fun _ => rfl⟩
  | some r => cases st.sSq with
    | none => exact ⟨⟨z, hz⟩, rfl, fun _ => rfl⟩
    | some s =>
      dsimp only
      rw [h2]
      split <;> split
      · refine ⟨⟨z, ?_⟩, rfl, fun j => ?_⟩
        · simp only [hz]; field_simp
        · simp only; field_simp
      · refine ⟨⟨z - 1, ?_⟩, rfl, fun j => ?_⟩
        · simp only [hz]; rw [zpow_sub_one₀ two_ne_zero]; field_simp
        · simp only; field_simp
      · refine ⟨⟨z + 1, ?_⟩, rfl, fun j => ?_⟩
        · simp only [hz]; rw [zpow_add_one₀ two_ne_zero]
        · simp only; field_simp
      · exact ⟨⟨z, hz⟩, rfl, fun _ => rfl⟩

theorem prepare (hl : ∀ j, 0 ≤ l1 j) (h : ∃ z : ℤ, st.rho = 2 ^ z) (β : Vec ℝ k) :
    AdmmInv l1 (st.prepare l1 β) := by
  obtain ⟨h1, -, -⟩ := updateRho h
  have hpos : 0 < st.updateRho.rho := by obtain ⟨z, hz⟩ := h1; rw [hz]; positivity
  refine ⟨h1, fun j => ?_⟩
  simp only [Admm.prepare]
  have := (softThresh_subgrad (x := β j + st.updateRho.cumRes j)
    (div_nonneg (hl j) hpos.le)).smul hpos.le
  rw [mul_div_cancel₀ _ hpos.ne'] at this
  convert this using 2
  ring

end AdmmInv

section
variable {n p : ℕ} {b : Bool} {options : FitOptions ℝ (ncols b p)} {r : Reg ℝ (ncols b p)}

/-- `r` is a regularizer with the L1 (and L2) strengths of `options` and ADMM state `st`. -/
def RegL1 (options : FitOptions ℝ (ncols b p)) (r : Reg ℝ (ncols b p)) (st : Admm ℝ (ncols b p)) :
    Prop :=
  (options.l2 ≤ 0 ∧ r = .lasso (onSlopes b fun _ : Fin p => options.l1) st) ∨
  (0 < options.l2 ∧ r = .elastic (onSlopes b fun _ : Fin p => options.l1)
    (onSlopes b fun _ => options.l2) st)

theorem getReg_regL1 (hl1 : 0 < options.l1) : RegL1 options (getReg options) Admm.init := by
  have e1 : Scalar.lt 0 options.l1 = true := by rw [lt_real]; exact hl1
  unfold getReg RegL1
  simp only [Scalar.gt, e1, Bool.true_and, zeroFirst_eq, if_true]
  by_cases h2 : 0 < options.l2
  · have e2 : Scalar.lt 0 options.l2 = true := by rw [lt_real]; exact h2
    simp only [e2, if_true]
    exact Or.inr ⟨h2, trivial⟩
  · have e2 : Scalar.lt 0 options.l2 = false := by rw [Bool.eq_false_iff, ne_eq, lt_real]; exact h2
    simp only [e2, Bool.false_eq_true, if_false]
    exact Or.inl ⟨not_lt.mp h2, trivial⟩

theorem Reg.Same.regL1 (hl1 : 0 < options.l1) (hr : Reg.Same r (getReg options)) :
    ∃ st, RegL1 options r st := by
  rcases getReg_regL1 hl1 with ⟨h2, h⟩ | ⟨h2, h⟩ <;> rw [h] at hr <;> cases hr
  · exact ⟨_, Or.inl ⟨h2, rfl⟩⟩
  · exact ⟨_, Or.inr ⟨h2, rfl⟩⟩

namespace RegL1
variable {st : Admm ℝ (ncols b p)} (h : RegL1 options r st)
include h

theorem unique {st' : Admm ℝ (ncols b p)} (h' : RegL1 options r st') : st' = st := by
  rcases h with ⟨h2, rfl⟩ | ⟨h2, rfl⟩ <;> rcases h' with ⟨h2', h'⟩ | ⟨h2', h'⟩ <;> cases h' <;> rfl

theorem prepare (γ : Vec ℝ (ncols b p)) :
    RegL1 options (r.prepare γ) (st.prepare (onSlopes b fun _ : Fin p => options.l1) γ) := by
  rcases h with ⟨h2, rfl⟩ | ⟨h2, rfl⟩
  · exact Or.inl ⟨h2, rfl⟩
  · exact Or.inr ⟨h2, rfl⟩

theorem irlsMat (m : Mat ℝ (ncols b p) (ncols b p)) (γ : Vec ℝ (ncols b p)) :
    Matrix.of (r.irlsMat m γ) = Matrix.of m
      + diagonal (onSlopes b fun _ : Fin p => max options.l2 0) + st.rho • (1 : Matrix _ _ ℝ) := by
  rcases h with ⟨h2, rfl⟩ | ⟨h2, rfl⟩
  · rw [max_eq_right h2, onSlopes_zero]
    ext i j
    simp only [Reg.irlsMat, Mat.addDiag, vfill, of_apply, Matrix.add_apply, diagonal_apply,
      Matrix.smul_apply, one_apply, smul_eq_mul]
    split <;> simp
  · rw [max_eq_left h2.le]
    ext i j
    simp only [Reg.irlsMat, Mat.addDiag, vfill, of_apply, Matrix.add_apply, diagonal_apply,
      Matrix.smul_apply, one_apply, smul_eq_mul]
    split <;> simp

theorem irlsVec (v γ : Vec ℝ (ncols b p)) :
    r.irlsVec v γ = v + st.rho • (st.dual - st.cumRes) := by
  rcases h with ⟨h2, rfl⟩ | ⟨h2, rfl⟩ <;> funext j <;>
    simp [Reg.irlsVec, Admm.irlsVec, mul_comm]

theorem terminateOk (tol : ℝ) : r.terminateOk tol = st.terminateOk tol := by
  rcases h with ⟨h2, rfl⟩ | ⟨h2, rfl⟩ <;> rfl

variable {g : Glm ℝ} {d : Dataset ℝ n p b} {eps : ℝ}

/-- The matrix of the ADMM system. -/
theorem mat_eq (hg : LawfulAdj g) (γ : Vec ℝ (ncols b p)) :
    Matrix.of (r.irlsMat (Irls.irlsMatVec eps g d γ).1 γ)
      = lhsInt eps g d options.l2 γ + st.rho • (1 : Matrix _ _ ℝ) := by
  rw [h.irlsMat, irlsMat_real hg]; rfl

theorem mat_symm (hg : LawfulAdj g) (γ : Vec ℝ (ncols b p)) :
    (Matrix.of (r.irlsMat (Irls.irlsMatVec eps g d γ).1 γ)).IsSymm := by
  rw [h.mat_eq hg]
  exact (lhsInt_symm hg _ _).add (isSymm_one.smul _)

/-- The ADMM system as an equation for the step. -/
theorem step_int (hg : LawfulAdj g) {γ v : Vec ℝ (ncols b p)}
    (hv : Matrix.of (r.irlsMat (Irls.irlsMatVec eps g d γ).1 γ) *ᵥ v
      = r.irlsVec (Irls.irlsMatVec eps g d γ).2 γ) :
    lhsInt eps g d options.l2 γ *ᵥ (v - γ) + st.rho • (v - st.dual)
      = d.scoreInt g γ - onSlopes b (fun j => max options.l2 0 * slopes b γ j)
        - st.rho • st.cumRes := by
  rw [h.mat_eq hg, h.irlsVec, irlsVec_real hg, irlsMat_real hg, Matrix.add_mulVec, smul_mulVec,
    one_mulVec] at hv
  have h1 : lhsInt eps g d options.l2 γ *ᵥ γ
      = (Matrix.of (d.fisherInt g γ) + eps • d.gramInt) *ᵥ γ
        + onSlopes b (fun j => max options.l2 0 * slopes b γ j) := by
    rw [lhsInt, Matrix.add_mulVec (_ + _)]
    congr 1
    funext j
    rw [mulVec_diagonal]
    exact congrFun (onSlopes_mul (fun _ : Fin p => max options.l2 0) γ fun x => x) j
  rw [mulVec_sub, h1]
  funext j
  have := congrFun hv j
  simp only [Pi.add_apply, Pi.sub_apply, Pi.smul_apply, smul_eq_mul] at this ⊢
  linarith

end RegL1

end

end GLM
