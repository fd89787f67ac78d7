/-
  The iteration of an L1 fit of the Linear family, in closed form.
-/
import Verif.Spec.Admm
import Verif.Lemmas.AdmmLyapunov
import Verif.Lemmas.Twin
import Verif.Props.RidgeLinear
import Verif.Props.Lasso

namespace GLM
open Spec Matrix
variable {n p : ℕ} {b : Bool} {env : Env ℝ} {raw : Dataset ℝ n p false} {std : Bool}
  {d : Dataset ℝ n p b} {options : FitOptions ℝ (ncols b p)}

/-- Curvature of the loss. -/
noncomputable def curvInt (d : Dataset ℝ n p b) (l2 : ℝ) :
    Matrix (Fin (ncols b p)) (Fin (ncols b p)) ℝ :=
  d.gramInt + diagonal (onSlopes b fun _ : Fin p => max l2 0)

/-- Its gradient at zero. -/
noncomputable def grad0 (d : Dataset ℝ n p b) : Vec ℝ (ncols b p) := d.scoreInt linG 0

/-- One iteration. -/
noncomputable def admmNext (eps : ℝ) (d : Dataset ℝ n p b) (options : FitOptions ℝ (ncols b p))
    (s : Vec ℝ (ncols b p) × Admm ℝ (ncols b p)) : Vec ℝ (ncols b p) × Admm ℝ (ncols b p) :=
  let P := s.2.prepare (l1Vec b p options.l1) s.1
  (s.1 + (curvInt d options.l2 + eps • d.gramInt + P.rho • (1 : Matrix _ _ ℝ))⁻¹ *ᵥ
    (grad0 d - curvInt d options.l2 *ᵥ s.1 - P.rho • P.cumRes - P.rho • (s.1 - P.dual)), P)

/-- The iterates from `γ`. -/
noncomputable def admmTraj (eps : ℝ) (d : Dataset ℝ n p b) (options : FitOptions ℝ (ncols b p))
    (γ : Vec ℝ (ncols b p)) : ℕ → Vec ℝ (ncols b p) × Admm ℝ (ncols b p)
  | 0 => (γ, Admm.init)
  | t + 1 => admmNext eps d options (admmTraj eps d options γ t)

section quadratic

theorem std_add (γ δ : Vec ℝ (ncols b p)) (i : Fin n) : d.linearPredictorStd (γ + δ) i
    = d.linearPredictorStd γ i + ∑ j, d.x i j * δ j := by
  rw [Dataset.linearPredictorStd_real, Dataset.linearPredictorStd_real]
  simp only [Pi.add_apply, mul_add, Finset.sum_add_distrib]
  ring

theorem gramInt_quad (x : Vec ℝ (ncols b p)) :
    x ⬝ᵥ (d.gramInt *ᵥ x) = ∑ i, totalWt d i * (∑ j, d.x i j * x j) ^ 2 := by
  unfold Dataset.gramInt
  simp only [dotProduct, mulVec, Finset.sum_mul, Finset.mul_sum, sq]
  calc _ = ∑ j, ∑ k, ∑ i, _ := rfl
    _ = ∑ j, ∑ i, ∑ k, _ := Finset.sum_congr rfl fun j _ => Finset.sum_comm
    _ = ∑ i, ∑ j, ∑ k, _ := Finset.sum_comm
    _ = _ := by
      refine Finset.sum_congr rfl fun i _ => ?_
      rw [Finset.sum_comm]
      exact Finset.sum_congr rfl fun j _ => Finset.sum_congr rfl fun k _ => by ring

theorem score_add (γ δ : Vec ℝ (ncols b p)) :
    d.scoreInt linG (γ + δ) = d.scoreInt linG γ - d.gramInt *ᵥ δ := by
  funext j
  simp only [Dataset.scoreInt_apply (Family.lawfulAdj .linear), linG_dNat, linG_mean, std_add,
    Pi.sub_apply, mulVec, dotProduct, Dataset.gramInt, Finset.sum_mul, mul_one]
  rw [Finset.sum_comm, ← Finset.sum_sub_distrib]
  refine Finset.sum_congr rfl fun i _ => ?_
  have : ∑ k, totalWt d i * d.x i j * d.x i k * δ k
      = totalWt d i * d.x i j * ∑ k, d.x i k * δ k := by
    rw [Finset.mul_sum]; exact Finset.sum_congr rfl fun k _ => by ring
  rw [this]; ring

theorem score_eq (γ : Vec ℝ (ncols b p)) : d.scoreInt linG γ = grad0 d - d.gramInt *ᵥ γ := by
  have := score_add (d := d) 0 γ
  rwa [zero_add] at this

theorem logLike_add (γ δ : Vec ℝ (ncols b p)) : linG.logLike d (γ + δ)
    = linG.logLike d γ + d.scoreInt linG γ ⬝ᵥ δ - δ ⬝ᵥ (d.gramInt *ᵥ δ) / 2 := by
  have h1 : d.scoreInt linG γ ⬝ᵥ δ
      = ∑ i, totalWt d i * (d.y i - d.linearPredictorStd γ i) * ∑ j, d.x i j * δ j := by
    simp only [dotProduct, Dataset.scoreInt_apply (Family.lawfulAdj .linear), linG_dNat, linG_mean,
      mul_one, Finset.sum_mul, Finset.mul_sum]
    rw [Finset.sum_comm]
    exact Finset.sum_congr rfl fun i _ => Finset.sum_congr rfl fun j _ => by ring
  rw [gramInt_quad, h1, Dataset.logLike_apply, Dataset.logLike_apply, Finset.sum_div,
    ← Finset.sum_add_distrib, ← Finset.sum_sub_distrib]
  refine Finset.sum_congr rfl fun i _ => ?_
  rw [linG_nat, linG_nat, linG_like, linG_like, std_add]
  ring

theorem diag_quad (l : ℝ) (γ : Vec ℝ (ncols b p)) :
    γ ⬝ᵥ (diagonal (onSlopes b fun _ : Fin p => l) *ᵥ γ) = l * ∑ j, slopes b γ j ^ 2 := by
  rw [Finset.mul_sum, ← onSlopes_dot (fun _ => l) (fun j => slopes b γ j ^ 2) (fun j => γ j ^ 2)
    (by cases b <;> rfl)]
  refine Finset.sum_congr rfl fun j _ => ?_
  rw [mulVec_diagonal]; ring

theorem diag_mul (l : ℝ) (γ : Vec ℝ (ncols b p)) :
    diagonal (onSlopes b fun _ : Fin p => l) *ᵥ γ = onSlopes b fun j => l * slopes b γ j := by
  funext j
  rw [mulVec_diagonal]
  exact congrFun (onSlopes_mul (fun _ : Fin p => l) γ fun x => x) j

theorem smoothLik_eq {g : Glm ℝ} (hd : raw.finalize std b = some d) (l2 : ℝ)
    (γ : Vec ℝ (ncols b p)) : smoothLik g raw d l2 γ = g.logLike d γ
      - γ ⬝ᵥ (diagonal (onSlopes b fun _ : Fin p => max l2 0) *ᵥ γ) / 2 := by
  have hwf := Dataset.finalize_wf hd
  have h1 : ∀ j, scale d j * slopes b (d.inverseTransformBeta γ) j = slopes b γ j := fun j => by
    rw [← Dataset.slopes_transformBeta, hwf.transformBeta_inverseTransformBeta]
  rw [smoothLik, penLogLik, Dataset.finalize_logLike' g hd, diag_quad]
  simp only [penalty, max_self, zero_mul, zero_add, h1]
  ring

theorem smoothLik_add (hd : raw.finalize std b = some d) (l2 : ℝ) (γ δ : Vec ℝ (ncols b p)) :
    smoothLik linG raw d l2 (γ + δ) = smoothLik linG raw d l2 γ + (grad0 d - curvInt d l2 *ᵥ γ) ⬝ᵥ δ
      - δ ⬝ᵥ (curvInt d l2 *ᵥ δ) / 2 := by
  have hs : γ ⬝ᵥ (diagonal (onSlopes b fun _ : Fin p => max l2 0) *ᵥ δ)
      = δ ⬝ᵥ (diagonal (onSlopes b fun _ : Fin p => max l2 0) *ᵥ γ) :=
    dot_mulVec_comm (isSymm_diagonal _) _ _
  rw [smoothLik_eq hd, smoothLik_eq hd, logLike_add, score_eq, curvInt]
  simp only [Matrix.add_mulVec, mulVec_add, dotProduct_add, add_dotProduct, dotProduct_sub, hs,
    dotProduct_comm _ δ]
  ring

variable (hw : ∀ i, 0 ≤ totalWt d i)
include hw

theorem gramInt_nonneg (x : Vec ℝ (ncols b p)) : 0 ≤ x ⬝ᵥ (d.gramInt *ᵥ x) := by
  rw [gramInt_quad]
  exact Finset.sum_nonneg fun i _ => mul_nonneg (hw i) (sq_nonneg _)

omit hw in
theorem gramInt_le (l2 : ℝ) (x : Vec ℝ (ncols b p)) :
    x ⬝ᵥ (d.gramInt *ᵥ x) ≤ x ⬝ᵥ (curvInt d l2 *ᵥ x) := by
  rw [curvInt, Matrix.add_mulVec, dotProduct_add, diag_quad]
  have := mul_nonneg (le_max_right l2 0)
    (Finset.sum_nonneg fun j (_ : j ∈ Finset.univ) => sq_nonneg (slopes b x j))
  linarith

theorem curvInt_nonneg (l2 : ℝ) (x : Vec ℝ (ncols b p)) : 0 ≤ x ⬝ᵥ (curvInt d l2 *ᵥ x) :=
  (gramInt_nonneg hw x).trans (gramInt_le l2 x)

theorem stepMat_unit {eps ρ : ℝ} (he : 0 ≤ eps) (hρ : 0 < ρ) (l2 : ℝ) :
    IsUnit (curvInt d l2 + eps • d.gramInt + ρ • (1 : Matrix _ _ ℝ)).det := by
  refine isUnit_of_pos fun x hx => ?_
  have h2 : 0 < sqn x := by
    obtain ⟨j, hj⟩ := Function.ne_iff.mp hx
    exact Finset.sum_pos' (fun i _ => mul_self_nonneg _)
      ⟨j, Finset.mem_univ _, mul_self_pos.mpr hj⟩
  rw [Matrix.add_mulVec (_ + _), Matrix.add_mulVec, smul_mulVec, smul_mulVec, one_mulVec,
    dotProduct_add, dotProduct_add, dotProduct_smul, dotProduct_smul, smul_eq_mul, smul_eq_mul]
  have h3 := curvInt_nonneg hw l2 x
  have h4 := mul_nonneg he (gramInt_nonneg hw x)
  have h5 := mul_pos hρ h2
  unfold sqn at h5
  linarith

end quadratic

section trajectory
variable (γ : Vec ℝ (ncols b p))

theorem admmTraj_inv {eps : ℝ} (hl1 : 0 ≤ options.l1) (t : ℕ) :
    AdmmInv (l1Vec b p options.l1) (admmTraj eps d options γ t).2 := by
  have hl : ∀ j, 0 ≤ l1Vec b p options.l1 j := fun j => onSlopes_nonneg hl1 j
  induction t with
  | zero => exact AdmmInv.init hl
  | succ t ih => exact AdmmInv.prepare hl ih.rho _

/-- Coefficients, split variable, multipliers and penalty parameter of the trajectory. -/
noncomputable def trajX (eps : ℝ) (d : Dataset ℝ n p b) (options : FitOptions ℝ (ncols b p))
    (γ : Vec ℝ (ncols b p)) (t : ℕ) : Vec ℝ (ncols b p) := (admmTraj eps d options γ t).1
noncomputable def trajZ (eps : ℝ) (d : Dataset ℝ n p b) (options : FitOptions ℝ (ncols b p))
    (γ : Vec ℝ (ncols b p)) (t : ℕ) : Vec ℝ (ncols b p) := (admmTraj eps d options γ t).2.dual
noncomputable def trajY (eps : ℝ) (d : Dataset ℝ n p b) (options : FitOptions ℝ (ncols b p))
    (γ : Vec ℝ (ncols b p)) (t : ℕ) : Vec ℝ (ncols b p) :=
  (admmTraj eps d options γ t).2.rho • (admmTraj eps d options γ t).2.cumRes
noncomputable def trajR (eps : ℝ) (d : Dataset ℝ n p b) (options : FitOptions ℝ (ncols b p))
    (γ : Vec ℝ (ncols b p)) (t : ℕ) : ℝ := (admmTraj eps d options γ (t + 1)).2.rho

variable {eps : ℝ} (hl1 : 0 < options.l1) (heps : 0 ≤ eps) (hw : ∀ i, 0 ≤ totalWt d i)
include hl1

theorem trajR_pos (t : ℕ) : 0 < trajR eps d options γ t := (admmTraj_inv γ hl1.le (t + 1)).rho_pos

theorem traj_sub (t : ℕ) (j : Fin (ncols b p)) : IsSubgrad (l1Vec b p options.l1 j)
    (trajZ eps d options γ t j) (trajY eps d options γ t j) := (admmTraj_inv γ hl1.le t).sub j

theorem traj_dual (t : ℕ) : trajY eps d options γ (t + 1) = trajY eps d options γ t
    + trajR eps d options γ t • (trajX eps d options γ t - trajZ eps d options γ (t + 1)) := by
  obtain ⟨-, -, h3⟩ := AdmmInv.updateRho (admmTraj_inv (d := d) (eps := eps) γ hl1.le t).rho
  funext j
  have h4 := h3 j
  change (admmTraj eps d options γ t).2.updateRho.rho * ((admmTraj eps d options γ t).2.updateRho.cumRes j
      + (trajX eps d options γ t j - trajZ eps d options γ (t + 1) j))
    = (admmTraj eps d options γ t).2.rho * (admmTraj eps d options γ t).2.cumRes j
      + (admmTraj eps d options γ t).2.updateRho.rho
        * (trajX eps d options γ t j - trajZ eps d options γ (t + 1) j)
  rw [← h4]; ring

omit hl1 in
theorem traj_rSq (t : ℕ) : (admmTraj eps d options γ (t + 1)).2.rSq
    = some (sqn (trajX eps d options γ t - trajZ eps d options γ (t + 1))) := by
  change some (vsum _) = _
  rw [vsum_real]; rfl

omit hl1 in
theorem traj_sSq (t : ℕ) : (admmTraj eps d options γ (t + 1)).2.sSq
    = some (trajR eps d options γ t ^ 2
      * sqn (trajZ eps d options γ (t + 1) - trajZ eps d options γ t)) := by
  have hdual : (admmTraj eps d options γ t).2.updateRho.dual = trajZ eps d options γ t := by
    unfold Admm.updateRho
    dsimp only
    split
    · split <;> split <;> rfl
    · rfl
  change some (vsum fun j => ((trajZ eps d options γ (t + 1) j
      - (admmTraj eps d options γ t).2.updateRho.dual j) * trajR eps d options γ t)
    * ((trajZ eps d options γ (t + 1) j
      - (admmTraj eps d options γ t).2.updateRho.dual j) * trajR eps d options γ t)) = _
  rw [vsum_real, hdual, ← sqn_smul]
  congr 1
  exact Finset.sum_congr rfl fun j _ => by simp only [Pi.smul_apply, Pi.sub_apply, smul_eq_mul]; ring

omit hl1 in
theorem traj_balance (t : ℕ) : trajR eps d options γ (t + 1) =
    if 64 * (trajR eps d options γ t ^ 2
        * sqn (trajZ eps d options γ (t + 1) - trajZ eps d options γ t))
      < sqn (trajX eps d options γ t - trajZ eps d options γ (t + 1)) then 2 * trajR eps d options γ t
    else if 64 * sqn (trajX eps d options γ t - trajZ eps d options γ (t + 1))
      < trajR eps d options γ t ^ 2 * sqn (trajZ eps d options γ (t + 1) - trajZ eps d options γ t)
    then trajR eps d options γ t / 2 else trajR eps d options γ t := by
  have h2 : (Scalar.ofNat 2 : ℝ) = 2 := by norm_num [ofNat_real]
  have h8 : (Scalar.ofNat 8 : ℝ) = 8 := by norm_num [ofNat_real]
  change (admmTraj eps d options γ (t + 1)).2.updateRho.rho = _
  unfold Admm.updateRho
  rw [traj_rSq, traj_sSq]
  dsimp only
  have hr := sqn_nonneg (trajX eps d options γ t - trajZ eps d options γ (t + 1))
  have hs := mul_nonneg (sq_nonneg (trajR eps d options γ t))
    (sqn_nonneg (trajZ eps d options γ (t + 1) - trajZ eps d options γ t))
  generalize sqn (trajX eps d options γ t - trajZ eps d options γ (t + 1)) = r at *
  generalize trajR eps d options γ t ^ 2
    * sqn (trajZ eps d options γ (t + 1) - trajZ eps d options γ t) = q at *
  rw [h2, h8]
  simp only [gt_real, lt_real]
  have e1 : (8 : ℝ) * 8 * q = 64 * q := by ring
  have e2 : r * 8 * 8 = 64 * r := by ring
  rw [e1, e2]
  by_cases c1 : 64 * q < r
  · have c2 : ¬ 64 * r < q := by intro h; linarith
    rw [if_pos c1, if_neg c2, if_pos c1, mul_comm]; rfl
  · rw [if_neg c1, if_neg c1]
    split <;> rfl

include heps hw

theorem traj_step (t : ℕ) : curvInt d options.l2 *ᵥ trajX eps d options γ (t + 1)
    + eps • (d.gramInt *ᵥ (trajX eps d options γ (t + 1) - trajX eps d options γ t))
    + trajY eps d options γ (t + 1)
    + trajR eps d options γ t • (trajX eps d options γ (t + 1) - trajZ eps d options γ (t + 1))
      = grad0 d := by
  set M := curvInt d options.l2 + eps • d.gramInt + trajR eps d options γ t • (1 : Matrix _ _ ℝ)
  have hu : IsUnit M.det := stepMat_unit hw heps (trajR_pos γ hl1 t) options.l2
  have h1 : trajX eps d options γ (t + 1) - trajX eps d options γ t = M⁻¹ *ᵥ (grad0 d
      - curvInt d options.l2 *ᵥ trajX eps d options γ t - trajY eps d options γ (t + 1)
      - trajR eps d options γ t • (trajX eps d options γ t - trajZ eps d options γ (t + 1))) := by
    change trajX eps d options γ t + M⁻¹ *ᵥ _ - trajX eps d options γ t = _
    rw [add_sub_cancel_left]
    rfl
  have h2 := congrArg (M *ᵥ ·) h1
  simp only [mulVec_mulVec, mul_nonsing_inv _ hu, one_mulVec] at h2
  simp only [M, Matrix.add_mulVec, smul_mulVec, one_mulVec] at h2
  rw [mulVec_sub (curvInt d options.l2)] at h2
  rw [← sub_eq_zero] at h2 ⊢
  rw [← h2, smul_sub, smul_sub, smul_sub]
  abel

theorem traj_seq : AdmmSeq d.gramInt (curvInt d options.l2) eps (grad0 d) (l1Vec b p options.l1)
    (trajX eps d options γ) (trajZ eps d options γ) (trajY eps d options γ)
    (trajR eps d options γ) where
  gsymm := gramInt_symm
  gpos := gramInt_nonneg hw
  hpos := curvInt_nonneg hw _
  e_nonneg := heps
  rho_pos := trajR_pos γ hl1
  step := traj_step γ hl1 heps hw
  dual := traj_dual γ hl1
  sub := traj_sub γ hl1
  balance := traj_balance γ

end trajectory

section run

theorem moveCost_eq (hd : raw.finalize std b = some d) (eps : ℝ) (v x : Vec ℝ (ncols b p)) :
    moveCost eps raw d v x = eps / 2 * ((v - x) ⬝ᵥ (d.gramInt *ᵥ (v - x))) := by
  rw [moveCost, gramInt_quad]
  congr 1
  refine Finset.sum_congr rfl fun i _ => ?_
  rw [← Dataset.finalize_linPred' hd, ← Dataset.finalize_linPred' hd, Dataset.finalize_totalWt hd]
  have := std_add (d := d) x (v - x) i
  rw [add_sub_cancel] at this
  rw [this, add_sub_cancel_left]

theorem lagrangian_add (hd : raw.finalize std b = some d) (l2 ρ : ℝ) (z y v h : Vec ℝ (ncols b p)) :
    lagrangian (smoothLik linG raw d l2) z y ρ (v + h) = lagrangian (smoothLik linG raw d l2) z y ρ v
      + (grad0 d - curvInt d l2 *ᵥ v - y - ρ • (v - z)) ⬝ᵥ h
      - h ⬝ᵥ (curvInt d l2 *ᵥ h) / 2 - ρ / 2 * sqn h := by
  have e1 : ∑ j, (y j * ((v + h) j - z j) + ρ / 2 * ((v + h) j - z j) ^ 2)
      = ∑ j, (y j * (v j - z j) + ρ / 2 * (v j - z j) ^ 2) + (y + ρ • (v - z)) ⬝ᵥ h
        + ρ / 2 * sqn h := by
    simp only [sqn, dotProduct, Finset.mul_sum, ← Finset.sum_add_distrib]
    refine Finset.sum_congr rfl fun j _ => ?_
    simp only [Pi.add_apply, Pi.smul_apply, Pi.sub_apply, smul_eq_mul]
    ring
  unfold lagrangian
  rw [smoothLik_add hd, e1]
  simp only [sub_dotProduct, add_dotProduct]
  ring

theorem sqn_eq_zero {k : ℕ} {v : Fin k → ℝ} (h : sqn v ≤ 0) : v = 0 :=
  dotProduct_self_eq_zero.mp (le_antisymm h (sqn_nonneg v))

/-- A solution of the step equation maximizes, uniquely. -/
theorem fit_strong (hd : raw.finalize std b = some d) (hw : ∀ i, 0 ≤ totalWt d i) {eps ρ l2 : ℝ}
    (heps : 0 ≤ eps) {x z y x' : Vec ℝ (ncols b p)}
    (h : curvInt d l2 *ᵥ x' + eps • (d.gramInt *ᵥ (x' - x)) + y + ρ • (x' - z) = grad0 d)
    (v : Vec ℝ (ncols b p)) :
    lagrangian (smoothLik linG raw d l2) z y ρ v - moveCost eps raw d v x + ρ / 2 * sqn (v - x')
      ≤ lagrangian (smoothLik linG raw d l2) z y ρ x' - moveCost eps raw d x' x := by
  have h1 := lagrangian_add hd l2 ρ z y x' (v - x')
  rw [add_sub_cancel] at h1
  have e1 : grad0 d - curvInt d l2 *ᵥ x' - y - ρ • (x' - z) = eps • (d.gramInt *ᵥ (x' - x)) := by
    rw [← h]; abel
  rw [e1, smul_dotProduct, smul_eq_mul, dotProduct_comm] at h1
  have h2 : (v - x) ⬝ᵥ (d.gramInt *ᵥ (v - x)) = (x' - x) ⬝ᵥ (d.gramInt *ᵥ (x' - x))
      + 2 * ((v - x') ⬝ᵥ (d.gramInt *ᵥ (x' - x))) + (v - x') ⬝ᵥ (d.gramInt *ᵥ (v - x')) := by
    have e2 : v - x = (x' - x) + (v - x') := by abel
    rw [e2]
    simp only [mulVec_add, dotProduct_add, add_dotProduct]
    rw [dot_mulVec_comm gramInt_symm (x' - x) (v - x')]
    ring
  rw [moveCost_eq hd, moveCost_eq hd, h1, h2]
  have h3 := curvInt_nonneg hw l2 (v - x')
  have h4 := mul_nonneg heps (gramInt_nonneg hw (v - x'))
  linarith

/-- The split variable minimizes, uniquely. -/
theorem shrink_strong {k : ℕ} {lam x z y : Fin k → ℝ} {ρ : ℝ}
    (h : ∀ j, IsSubgrad (lam j) (z j) (y j + ρ * (x j - z j))) (v : Fin k → ℝ) :
    ∑ j, (lam j * |z j| + y j * (x j - z j) + ρ / 2 * (x j - z j) ^ 2) + ρ / 2 * sqn (v - z)
      ≤ ∑ j, (lam j * |v j| + y j * (x j - v j) + ρ / 2 * (x j - v j) ^ 2) := by
  unfold sqn dotProduct
  rw [Finset.mul_sum, ← Finset.sum_add_distrib]
  refine Finset.sum_le_sum fun j _ => ?_
  have := (h j).le (v j)
  simp only [Pi.sub_apply]
  linarith

theorem sum_sq_sqn {k : ℕ} (v w : Fin k → ℝ) : ∑ j, (v j - w j) ^ 2 = sqn (v - w) :=
  Finset.sum_congr rfl fun j _ => by simp only [Pi.sub_apply]; ring

theorem sum_sq_smul {k : ℕ} (ρ : ℝ) (v w : Fin k → ℝ) :
    ∑ j, (ρ * (v j - w j)) ^ 2 = ρ ^ 2 * sqn (v - w) := by
  rw [← sum_sq_sqn, Finset.mul_sum]
  exact Finset.sum_congr rfl fun j _ => by ring

variable {eps : ℝ} (hd : raw.finalize std b = some d) (hl1 : 0 < options.l1) (heps : 0 ≤ eps)
  (hw : ∀ i, 0 ≤ totalWt d i) (γ : Vec ℝ (ncols b p))
include hd hl1 heps hw

/-- The trajectory is a run of ADMM. -/
theorem traj_run : AdmmRun (smoothLik linG raw d options.l2) (moveCost eps raw d) (l1Vec b p options.l1)
    (trajX eps d options γ) (trajZ eps d options γ) (trajY eps d options γ)
    (trajR eps d options γ) where
  z_zero := rfl
  y_zero := by
    change (1 : ℝ) • (vzeros : Vec ℝ (ncols b p)) = 0
    rw [one_smul]; rfl
  rho_zero := rfl
  shrink t v := by
    have h1 := shrink_strong (lam := l1Vec b p options.l1) (x := trajX eps d options γ t)
      (z := trajZ eps d options γ (t + 1)) (y := trajY eps d options γ t)
      (ρ := trajR eps d options γ t) (fun j => by
        have := traj_sub (d := d) (eps := eps) γ hl1 (t + 1) j
        rw [traj_dual γ hl1] at this
        exact this) v
    have := mul_nonneg (half_pos (trajR_pos (d := d) (eps := eps) γ hl1 t)).le
      (sqn_nonneg (v - trajZ eps d options γ (t + 1)))
    linarith
  ascend t j := congrFun (traj_dual γ hl1 t) j
  fit t v := by
    have h1 := fit_strong hd hw heps (traj_step γ hl1 heps hw t) v
    have := mul_nonneg (half_pos (trajR_pos (d := d) (eps := eps) γ hl1 t)).le
      (sqn_nonneg (v - trajX eps d options γ (t + 1)))
    linarith
  balance t := by
    rw [sum_sq_sqn, sum_sq_smul, show (8 : ℝ) ^ 2 = 64 by norm_num]
    exact traj_balance γ t

/-- It is the only one from its start. -/
theorem run_unique {x z y : ℕ → Vec ℝ (ncols b p)} {ρ : ℕ → ℝ}
    (h : AdmmRun (smoothLik linG raw d options.l2) (moveCost eps raw d) (l1Vec b p options.l1) x z y ρ)
    (h0 : x 0 = γ) : x = trajX eps d options γ ∧ z = trajZ eps d options γ ∧
      y = trajY eps d options γ ∧ ρ = trajR eps d options γ := by
  have hr := traj_run hd hl1 heps hw γ
  have key : ∀ t, x t = trajX eps d options γ t ∧ z t = trajZ eps d options γ t ∧
      y t = trajY eps d options γ t ∧ ρ t = trajR eps d options γ t := by
    intro t
    induction t with
    | zero =>
      exact ⟨h0, h.z_zero.trans hr.z_zero.symm, h.y_zero.trans hr.y_zero.symm,
        h.rho_zero.trans hr.rho_zero.symm⟩
    | succ t ih =>
      obtain ⟨i1, i2, i3, i4⟩ := ih
      have hρ := trajR_pos (d := d) (eps := eps) γ hl1 t
      have hz : z (t + 1) = trajZ eps d options γ (t + 1) := by
        have h1 := h.shrink t (trajZ eps d options γ (t + 1))
        have h2 := shrink_strong (lam := l1Vec b p options.l1) (x := trajX eps d options γ t)
          (z := trajZ eps d options γ (t + 1)) (y := trajY eps d options γ t)
          (ρ := trajR eps d options γ t) (fun j => by
            have := traj_sub (d := d) (eps := eps) γ hl1 (t + 1) j
            rw [traj_dual γ hl1] at this
            exact this) (z (t + 1))
        rw [i1, i3, i4] at h1
        have h3 : sqn (z (t + 1) - trajZ eps d options γ (t + 1)) ≤ 0 := by nlinarith
        exact sub_eq_zero.mp (sqn_eq_zero h3)
      have hy : y (t + 1) = trajY eps d options γ (t + 1) := by
        funext j
        rw [h.ascend, hr.ascend, i1, i3, i4, hz]
      have hx : x (t + 1) = trajX eps d options γ (t + 1) := by
        have h1 := h.fit t (trajX eps d options γ (t + 1))
        have h2 := fit_strong hd hw heps (traj_step γ hl1 heps hw t) (x (t + 1))
        rw [i1, i4, hz, hy] at h1
        have h3 : sqn (x (t + 1) - trajX eps d options γ (t + 1)) ≤ 0 := by nlinarith
        exact sub_eq_zero.mp (sqn_eq_zero h3)
      refine ⟨hx, hz, hy, ?_⟩
      rw [h.balance, hr.balance, i1, i2, i4, hz]
  exact ⟨funext fun t => (key t).1, funext fun t => (key t).2.1, funext fun t => (key t).2.2.1,
    funext fun t => (key t).2.2.2⟩

end run

section program
variable (he : env.Exact) (hd : raw.finalize std b = some d) (hl1 : 0 < options.l1)
  (hw : ∀ i, 0 ≤ totalWt d i) (γ : Vec ℝ (ncols b p))

/-- The iterator state `s` is iteration `t` of the trajectory. -/
structure AtTraj (eps : ℝ) (d : Dataset ℝ n p b) (options : FitOptions ℝ (ncols b p))
    (γ : Vec ℝ (ncols b p)) (t : ℕ) (s : Irls ℝ (ncols b p)) : Prop where
  guess : s.guess = trajX eps d options γ t
  reg : RegL1 options s.reg (admmTraj eps d options γ t).2

variable {γ} {t : ℕ} {s : Irls ℝ (ncols b p)}

theorem AtTraj.prep (h : AtTraj env.eps d options γ t s) :
    RegL1 options (s.reg.prepare s.guess) (admmTraj env.eps d options γ (t + 1)).2 := by
  have := h.reg.prepare s.guess
  rw [h.guess] at this ⊢
  exact this

theorem lhsInt_lin (eps l2 : ℝ) (γ : Vec ℝ (ncols b p)) :
    lhsInt eps linG d l2 γ = curvInt d l2 + eps • d.gramInt := by
  have : Matrix.of (d.fisherInt linG γ) = d.gramInt := by
    ext j k
    change d.fisherInt linG γ j k = _
    rw [Dataset.fisherInt_apply (Family.lawfulAdj .linear)]
    simp only [linG_dNat, linG_var, one_pow, mul_one]
    rfl
  rw [lhsInt, this, curvInt]
  abel

include he hl1 hw in
/-- The system solved has the next iterate as its solution. -/
theorem AtTraj.sol (h : AtTraj env.eps d options γ t s) :
    s.sol env linG d = .ok (trajX env.eps d options γ (t + 1)) := by
  have hg : LawfulAdj linG := Family.lawfulAdj .linear
  have hr := h.prep
  have hstep := traj_step γ hl1 he.eps_nonneg hw t
  have hu := stepMat_unit hw he.eps_nonneg (trajR_pos (d := d) (eps := env.eps) γ hl1 t) options.l2
  unfold Irls.sol
  refine he.solveh_eq (hr.mat_symm hg s.guess) ?_ ?_
  · rw [hr.mat_eq hg, lhsInt_lin]; exact hu
  · rw [hr.mat_eq hg, hr.irlsVec, irlsVec_real hg, irlsMat_real hg, lhsInt_lin]
    have hf : Matrix.of (d.fisherInt linG s.guess) = d.gramInt := by
      ext j k
      change d.fisherInt linG s.guess j k = _
      rw [Dataset.fisherInt_apply hg]
      simp only [linG_dNat, linG_var, one_pow, mul_one]
      rfl
    rw [hf, score_eq, h.guess, ← hstep]
    have e1 : trajY env.eps d options γ (t + 1)
      = trajR env.eps d options γ t • (admmTraj env.eps d options γ (t + 1)).2.cumRes := rfl
    have e2 : (admmTraj env.eps d options γ (t + 1)).2.rho = trajR env.eps d options γ t := rfl
    have e3 : (admmTraj env.eps d options γ (t + 1)).2.dual = trajZ env.eps d options γ (t + 1) := rfl
    rw [e1, e2, e3]
    simp only [Matrix.add_mulVec, smul_mulVec, one_mulVec, mulVec_sub, smul_sub]
    abel

theorem AtTraj.terminateOk (h : AtTraj env.eps d options γ t s) :
    (s.reg.prepare s.guess).terminateOk options.tol = true ↔
      ∑ j, (trajX env.eps d options γ t j - trajZ env.eps d options γ (t + 1) j) ^ 2
        < √(ncols b p : ℕ) * options.tol ∧
      ∑ j, (trajR env.eps d options γ t * (trajZ env.eps d options γ (t + 1) j
        - trajZ env.eps d options γ t j)) ^ 2 < √(ncols b p : ℕ) * options.tol := by
  rw [h.prep.terminateOk, Admm.terminateOk, traj_rSq, traj_sSq, sum_sq_sqn, sum_sq_smul]
  simp only [Bool.and_eq_true, lt_real, sqrt_real, ofNat_real]

/-- The objective of the line search is the augmented Lagrangian, up to a constant. -/
theorem RegL1.irlsLike {g : Glm ℝ} {r : Reg ℝ (ncols b p)} {st : Admm ℝ (ncols b p)}
    (h : RegL1 options r st) (hd : raw.finalize std b = some d) (v : Vec ℝ (ncols b p)) :
    g.logLike d v + r.irlsLike v
      = lagrangian (smoothLik g raw d options.l2) st.dual (st.rho • st.cumRes) st.rho v
        - st.rho / 2 * sqn st.cumRes := by
  have e1 : st.augment v = - ∑ j, ((st.rho • st.cumRes) j * (v j - st.dual j)
      + st.rho / 2 * (v j - st.dual j) ^ 2) - st.rho / 2 * sqn st.cumRes := by
    simp only [Admm.augment, vsum_real, half_real, sqn, dotProduct, Finset.mul_sum,
      ← Finset.sum_neg_distrib, ← Finset.sum_sub_distrib, Pi.smul_apply, smul_eq_mul]
    exact Finset.sum_congr rfl fun j _ => by ring
  rw [lagrangian, smoothLik_eq hd]
  rcases h with ⟨h2, rfl⟩ | ⟨h2, rfl⟩
  · simp only [Reg.irlsLike, e1, max_eq_right h2, onSlopes_zero]
    simp
    ring
  · simp only [Reg.irlsLike, e1, max_eq_left h2.le, sumL2, vsum_real, half_real]
    have : ∑ j, onSlopes b (fun _ => options.l2) j * (v j * v j)
        = v ⬝ᵥ (diagonal (onSlopes b fun _ : Fin p => options.l2) *ᵥ v) :=
      Finset.sum_congr rfl fun j _ => by rw [mulVec_diagonal]; ring
    rw [this]
    ring

section next
variable (he : env.Exact) (hd : raw.finalize std b = some d) (hl1 : 0 < options.l1)
  (hw : ∀ i, 0 ≤ totalWt d i)

/-- The stopping rule on the trajectory. -/
def TrajSettled (eps : ℝ) (raw : Dataset ℝ n p false) (d : Dataset ℝ n p b)
    (options : FitOptions ℝ (ncols b p)) (γ : Vec ℝ (ncols b p)) (t : ℕ) : Prop :=
  Settled (smoothLik linG raw d options.l2) n options.tol (trajX eps d options γ) (trajZ eps d options γ)
    (trajY eps d options γ) (trajR eps d options γ) t

include hd hl1 hw in
/-- A step never decreases the augmented Lagrangian, and increases it if it moves. -/
theorem traj_ascent {eps : ℝ} (heps : 0 ≤ eps) (γ : Vec ℝ (ncols b p)) (t : ℕ) :
    lagrangian (smoothLik linG raw d options.l2) (trajZ eps d options γ (t + 1))
        (trajY eps d options γ (t + 1)) (trajR eps d options γ t) (trajX eps d options γ t)
      + trajR eps d options γ t / 2 * sqn (trajX eps d options γ t - trajX eps d options γ (t + 1))
    ≤ lagrangian (smoothLik linG raw d options.l2) (trajZ eps d options γ (t + 1))
        (trajY eps d options γ (t + 1)) (trajR eps d options γ t) (trajX eps d options γ (t + 1)) := by
  have h1 := fit_strong hd hw heps (traj_step γ hl1 heps hw t) (trajX eps d options γ t)
  rw [moveCost_eq hd, moveCost_eq hd, sub_self, mulVec_zero, dotProduct_zero, mul_zero,
    sub_zero] at h1
  have := mul_nonneg (half_pos one_pos).le (mul_nonneg heps
    (gramInt_nonneg hw (trajX eps d options γ (t + 1) - trajX eps d options γ t)))
  linarith

include hd in
theorem AtTraj.small (h : AtTraj env.eps d options γ t s)
    (hl : s.lastLikeData = linG.logLike d s.guess) :
    s.small linG d options.tol (trajX env.eps d options γ (t + 1)) = true ↔
      |lagrangian (smoothLik linG raw d options.l2) (trajZ env.eps d options γ (t + 1))
          (trajY env.eps d options γ (t + 1)) (trajR env.eps d options γ t)
            (trajX env.eps d options γ (t + 1))
        - lagrangian (smoothLik linG raw d options.l2) (trajZ env.eps d options γ (t + 1))
          (trajY env.eps d options γ (t + 1)) (trajR env.eps d options γ t)
            (trajX env.eps d options γ t)| ≤ options.tol * n ∧
      ∑ j, (trajX env.eps d options γ (t + 1) j - trajX env.eps d options γ t j) ^ 2
        ≤ ((ncols b p : ℕ) + ∑ j, trajX env.eps d options γ (t + 1) j ^ 2) * options.tol ^ 2 := by
  have e1 := h.prep.irlsLike (g := linG) hd (trajX env.eps d options γ (t + 1))
  have e2 := h.prep.irlsLike (g := linG) hd s.guess
  simp only [Irls.small, Irls.nextObj, Irls.lastObj, smallDelta, smallDeltaVec, Bool.and_eq_true,
    le_real, ofNat_real, abs_real, vsum_real, vsub]
  rw [hl, e1, e2, h.guess, sub_sub_sub_cancel_right]
  refine and_congr Iff.rfl ?_
  simp only [sq, mul_assoc]

include he hd hl1 hw in
/-- What the iterator does in iteration `t` of the trajectory. -/
theorem AtTraj.next (h : AtTraj env.eps d options γ t s) (hdone : s.done = false)
    (hl : s.lastLikeData = linG.logLike d s.guess) :
    (TrajSettled env.eps raw d options γ t ∧
      trajX env.eps d options γ (t + 1) = trajX env.eps d options γ t ∧
      s.nextRaw env linG d options.tol = .stop s.prep) ∨
    (¬ (TrajSettled env.eps raw d options γ t ∧
        trajX env.eps d options γ (t + 1) = trajX env.eps d options γ t) ∧
      ∃ c : Bool, (c = true ↔ TrajSettled env.eps raw d options γ t) ∧
        s.nextRaw env linG d options.tol = .cand { s.prep with done := c }
          (trajX env.eps d options γ (t + 1))
          (linG.logLike d (trajX env.eps d options γ (t + 1)))) := by
  have hs := h.sol he hl1 hw
  have hc := Irls.nextRaw_case env linG d options.tol s
  have ht := h.terminateOk (env := env)
  have hsm := h.small hd hl
  have hasc := traj_ascent (raw := raw) hd hl1 hw he.eps_nonneg γ t
  have hρ := trajR_pos (d := d) (eps := env.eps) γ hl1 t
  set X := trajX env.eps d options γ with hX
  have hobj : Scalar.gt (s.nextObj linG d (X (t + 1))) s.lastObj = false → X (t + 1) = X t := by
    intro hg
    have e1 := h.prep.irlsLike (g := linG) hd (X (t + 1))
    have e2 := h.prep.irlsLike (g := linG) hd s.guess
    have hg' : ¬ s.lastObj < s.nextObj linG d (X (t + 1)) := by
      intro hlt
      have hlt' : Scalar.gt (s.nextObj linG d (X (t + 1))) s.lastObj = true := by rw [gt_real]; exact hlt
      rw [hlt'] at hg
      exact absurd hg (by simp)
    rw [Irls.nextObj, Irls.lastObj, hl, e1, e2, h.guess, not_lt] at hg'
    have h1 : trajR env.eps d options γ t / 2 * sqn (X t - X (t + 1)) ≤ 0 := by
      have : lagrangian (smoothLik linG raw d options.l2) (trajZ env.eps d options γ (t + 1))
          (trajY env.eps d options γ (t + 1)) (trajR env.eps d options γ t) (X (t + 1))
        ≤ lagrangian (smoothLik linG raw d options.l2) (trajZ env.eps d options γ (t + 1))
          (trajY env.eps d options γ (t + 1)) (trajR env.eps d options γ t) (X t) := by
        have := hg'
        exact (sub_le_sub_iff_right _).mp this
      linarith
    have h2 : sqn (X t - X (t + 1)) ≤ 0 := by
      by_contra hcon
      push Not at hcon
      have := mul_pos (half_pos hρ) hcon
      linarith
    exact (sub_eq_zero.mp (sqn_eq_zero h2)).symm
  generalize s.nextRaw env linG d options.tol = r at hc ⊢
  cases hc with
  | done h1 => rw [hdone] at h1; exact absurd h1 (by simp)
  | linalg _ e h1 => rw [hs] at h1; exact absurd h1 (by simp)
  | admm _ v h1 h2 =>
    rw [hs, Except.ok.injEq] at h1
    subst h1
    have hn : ¬ TrajSettled env.eps raw d options γ t := fun hset => by
      rw [ht.mpr ⟨hset.1, hset.2.1⟩] at h2
      exact absurd h2 (by simp)
    refine Or.inr ⟨fun hh => hn hh.1, false, by simpa using hn, ?_⟩
    congr 1
    simp [Irls.prep, hdone]
  | equal _ v h1 h2 h3 =>
    rw [hs, Except.ok.injEq] at h1
    subst h1
    rw [vecEq_iff, h.guess] at h3
    have htol := ht.mp h2
    refine Or.inl ⟨⟨htol.1, htol.2, ?_⟩, h3, rfl⟩
    have h4 : 0 ≤ options.tol := by
      have h5 := (Finset.sum_nonneg fun j _ => sq_nonneg _).trans_lt htol.1
      by_contra hneg
      push Not at hneg
      nlinarith [Real.sqrt_nonneg (ncols b p : ℕ)]
    refine ⟨?_, ?_⟩
    · change |lagrangian _ _ _ _ (X (t + 1)) - lagrangian _ _ _ _ (X t)| ≤ _
      rw [h3, sub_self, abs_zero]
      positivity
    · refine (le_of_eq (Finset.sum_eq_zero fun j _ => ?_)).trans (mul_nonneg (add_nonneg
        (Nat.cast_nonneg _) (Finset.sum_nonneg fun j _ => sq_nonneg _)) (sq_nonneg _))
      change (X (t + 1) j - X t j) ^ 2 = 0
      rw [h3]
      ring
  | full _ v h1 h2 h3 _ =>
    rw [hs, Except.ok.injEq] at h1
    subst h1
    have hne : ¬ X (t + 1) = X t := fun hh => by
      have : vecEq (X (t + 1)) s.guess = true := vecEq_iff.mpr (by rw [hh, h.guess])
      rw [this] at h3
      exact absurd h3 (by simp)
    have htol := ht.mp h2
    refine Or.inr ⟨fun hh => hne hh.2, _, ?_, rfl⟩
    rw [hsm]
    exact ⟨fun hh => ⟨htol.1, htol.2, hh.1, hh.2⟩, fun hh => hh.2.2⟩
  | diverge _ v h1 _ h3 h4 _ | zero _ v h1 _ h3 h4 _ | scaled _ v h1 _ h3 h4 _ =>
    rw [hs, Except.ok.injEq] at h1
    subst h1
    have : vecEq (X (t + 1)) s.guess = true := vecEq_iff.mpr (by rw [hobj h4, h.guess])
    rw [this] at h3
    exact absurd h3 (by simp)

end next

end program

end GLM
