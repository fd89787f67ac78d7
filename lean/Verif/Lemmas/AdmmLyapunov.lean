/-
  The alternating direction method of multipliers with a proximal term and residual balancing, for a
  quadratic loss: its Lyapunov functions and what follows for the residuals.
-/
import Mathlib.LinearAlgebra.Matrix.PosDef
import Mathlib.Topology.Order.MonotoneConvergence
import Mathlib.Topology.Algebra.Order.LiminfLimsup
import Mathlib.Analysis.SpecificLimits.Basic
import Mathlib.Algebra.Order.BigOperators.Ring.Finset
import Verif.Lemmas.Admm

namespace GLM
open Matrix Filter Topology Spec

section vectors
variable {k : ℕ}

/-- The sum of the squares of the coordinates. -/
def sqn (v : Fin k → ℝ) : ℝ := v ⬝ᵥ v

theorem sqn_nonneg (v : Fin k → ℝ) : 0 ≤ sqn v := by
  unfold sqn dotProduct
  exact Finset.sum_nonneg fun j _ => mul_self_nonneg _

theorem sqn_add (u v : Fin k → ℝ) : sqn (u + v) = sqn u + 2 * (u ⬝ᵥ v) + sqn v := by
  simp only [sqn, add_dotProduct, dotProduct_add, dotProduct_comm v u]; ring

theorem sqn_sub (u v : Fin k → ℝ) : sqn (u - v) = sqn u - 2 * (u ⬝ᵥ v) + sqn v := by
  simp only [sqn, sub_dotProduct, dotProduct_sub, dotProduct_comm v u]; ring

theorem sqn_smul (a : ℝ) (v : Fin k → ℝ) : sqn (a • v) = a ^ 2 * sqn v := by
  simp only [sqn, smul_dotProduct, dotProduct_smul, smul_eq_mul]; ring

theorem sqn_add_le (u v : Fin k → ℝ) : sqn (u + v) ≤ 2 * sqn u + 2 * sqn v := by
  have := sqn_nonneg (u - v)
  rw [sqn_sub] at this
  rw [sqn_add]; linarith

theorem sqn_sub_le (u v : Fin k → ℝ) : sqn (u - v) ≤ 2 * sqn u + 2 * sqn v := by
  have := sqn_nonneg (u + v)
  rw [sqn_add] at this
  rw [sqn_sub]; linarith

theorem sqn_convex {θ : ℝ} (h0 : 0 ≤ θ) (h1 : θ ≤ 1) (u v : Fin k → ℝ) :
    sqn (θ • u + (1 - θ) • v) ≤ θ * sqn u + (1 - θ) * sqn v := by
  have := mul_nonneg (mul_nonneg h0 (sub_nonneg.mpr h1)) (sqn_nonneg (u - v))
  rw [sqn_sub] at this
  rw [sqn_add, sqn_smul, sqn_smul, smul_dotProduct, dotProduct_smul, smul_eq_mul, smul_eq_mul]
  linarith

theorem dot_sq_le (u v : Fin k → ℝ) : (u ⬝ᵥ v) ^ 2 ≤ sqn u * sqn v := by
  have := Finset.sum_mul_sq_le_sq_mul_sq Finset.univ u v
  simpa only [sqn, dotProduct, sq] using this

end vectors

section limits
variable {k : ℕ}

/-- If a decreasing non-negative quantity bounds the squares, the squares tend to zero. -/
theorem tendsto_zero_of_decrease {V a : ℕ → ℝ} {T : ℕ} (hV : ∀ t, 0 ≤ V t) (ha : ∀ t, 0 ≤ a t)
    (h : ∀ t, T ≤ t → V (t + 1) + 1 / 2 * a t ≤ V t) : Tendsto a atTop (𝓝 0) := by
  have h' : ∀ t, V (t + 1 + T) + 1 / 2 * a (t + T) ≤ V (t + T) := fun t => by
    have := h (t + T) (Nat.le_add_left T t)
    rwa [Nat.add_right_comm] at this
  have hanti : Antitone fun t => V (t + T) := antitone_nat_of_succ_le fun t => by
    linarith [h' t, ha (t + T)]
  have hlim := tendsto_atTop_ciInf hanti ⟨0, by rintro _ ⟨t, rfl⟩; exact hV _⟩
  have h1 : Tendsto (fun t => 2 * (V (t + T) - V (t + 1 + T))) atTop (𝓝 0) := by
    have := (hlim.sub (hlim.comp (tendsto_add_atTop_nat 1))).const_mul 2
    simpa using this
  have h2 : Tendsto (fun t => a (t + T)) atTop (𝓝 0) :=
    squeeze_zero (fun t => ha _) (fun t => by linarith [h' t]) h1
  exact (tendsto_add_atTop_iff_nat T).mp h2

/-- A contraction with vanishing perturbations tends to zero. -/
theorem tendsto_zero_of_contraction {E a : ℕ → ℝ} {κ : ℝ} (hκ0 : 0 ≤ κ) (hκ : κ < 1)
    (hE : ∀ t, 0 ≤ E t) (ha : Tendsto a atTop (𝓝 0)) (h : ∀ t, E (t + 1) ≤ κ * E t + a t) :
    Tendsto E atTop (𝓝 0) := by
  rw [Metric.tendsto_atTop]
  intro ε hε
  have hpos : 0 < (1 - κ) * (ε / 2) := mul_pos (by linarith) (by linarith)
  obtain ⟨T, hT⟩ := (Metric.tendsto_atTop.mp ha) _ hpos
  have hb : ∀ s, E (s + T) ≤ κ ^ s * E T + ε / 2 := by
    intro s
    induction s with
    | zero => simp; linarith
    | succ s ih =>
      have h1 := h (s + T)
      have h2 := hT (s + T) (Nat.le_add_left _ _)
      rw [Real.dist_eq, sub_zero] at h2
      have h3 := (le_abs_self _).trans h2.le
      have h4 := mul_le_mul_of_nonneg_left ih hκ0
      rw [Nat.add_right_comm, pow_succ]
      nlinarith
  have hk : Tendsto (fun s => κ ^ s * E T) atTop (𝓝 0) := by
    simpa using (tendsto_pow_atTop_nhds_zero_of_lt_one hκ0 hκ).mul_const (E T)
  obtain ⟨S, hS⟩ := (Metric.tendsto_atTop.mp hk) (ε / 2) (by linarith)
  refine ⟨S + T, fun t ht => ?_⟩
  obtain ⟨s, rfl⟩ : ∃ s, t = s + T := ⟨t - T, by omega⟩
  have h1 := hS s (by omega)
  rw [Real.dist_eq, sub_zero] at h1 ⊢
  rw [abs_of_nonneg (hE _)]
  have := (le_abs_self _).trans_lt h1
  linarith [hb s]

theorem sqn_tendsto_of_le {u : ℕ → Fin k → ℝ} {a : ℕ → ℝ} (ha : Tendsto a atTop (𝓝 0))
    (h : ∀ t, sqn (u t) ≤ a t) : Tendsto (fun t => sqn (u t)) atTop (𝓝 0) :=
  squeeze_zero (fun _ => sqn_nonneg _) h ha

theorem sqn_tendsto_add {u v : ℕ → Fin k → ℝ} (hu : Tendsto (fun t => sqn (u t)) atTop (𝓝 0))
    (hv : Tendsto (fun t => sqn (v t)) atTop (𝓝 0)) :
    Tendsto (fun t => sqn (u t + v t)) atTop (𝓝 0) :=
  sqn_tendsto_of_le (a := fun t => 2 * sqn (u t) + 2 * sqn (v t))
    (by simpa using (hu.const_mul 2).add (hv.const_mul 2)) fun t => sqn_add_le _ _

theorem sqn_tendsto_sub {u v : ℕ → Fin k → ℝ} (hu : Tendsto (fun t => sqn (u t)) atTop (𝓝 0))
    (hv : Tendsto (fun t => sqn (v t)) atTop (𝓝 0)) :
    Tendsto (fun t => sqn (u t - v t)) atTop (𝓝 0) :=
  sqn_tendsto_of_le (a := fun t => 2 * sqn (u t) + 2 * sqn (v t))
    (by simpa using (hu.const_mul 2).add (hv.const_mul 2)) fun t => sqn_sub_le _ _

theorem sqn_mulVec_le (M : Matrix (Fin k) (Fin k) ℝ) (v : Fin k → ℝ) :
    sqn (M *ᵥ v) ≤ (∑ i, sqn (M i)) * sqn v := by
  rw [Finset.sum_mul]
  unfold sqn dotProduct
  refine Finset.sum_le_sum fun i _ => ?_
  have := dot_sq_le (M i) v
  rw [sq] at this
  exact this

/-- A bounded sequence times a vanishing one. -/
theorem dot_tendsto {u v : ℕ → Fin k → ℝ} {C : ℝ} (hu : ∀ᶠ t in atTop, sqn (u t) ≤ C)
    (hv : Tendsto (fun t => sqn (v t)) atTop (𝓝 0)) {ε : ℝ} (hε : 0 < ε) :
    ∀ᶠ t in atTop, u t ⬝ᵥ v t ≤ ε := by
  have h1 : ∀ᶠ t in atTop, |C| * sqn (v t) < ε ^ 2 := by
    have := hv.const_mul |C|
    rw [mul_zero] at this
    exact this.eventually_lt_const (by positivity)
  filter_upwards [hu, h1] with t h2 h3
  have h4 := dot_sq_le (u t) (v t)
  have h5 := mul_le_mul_of_nonneg_right (h2.trans (le_abs_self C)) (sqn_nonneg (v t))
  exact (abs_le_of_sq_le_sq' (by linarith) hε.le).2

end limits

section step
variable {k : ℕ} {G : Matrix (Fin k) (Fin k) ℝ}

/-- One step seen from an optimum. -/
theorem dr_core (hG : G.IsSymm) (pG : ∀ x, 0 ≤ x ⬝ᵥ (G *ᵥ x)) {κ : ℝ} (hκ : 0 ≤ κ)
    {X X' V Z A : Fin k → ℝ} (hV : V = Z + A) (h1 : 0 ≤ A ⬝ᵥ Z)
    (h2 : X' ⬝ᵥ (X' + A - Z) + κ * (X' ⬝ᵥ (G *ᵥ (X' - X))) ≤ 0) :
    sqn (X' + A) + κ * (X' ⬝ᵥ (G *ᵥ X')) + sqn (X' - Z) ≤ sqn V + κ * (X ⬝ᵥ (G *ᵥ X)) ∧
    sqn X' + κ * (X' ⬝ᵥ (G *ᵥ X')) ≤ sqn V + κ * (X ⬝ᵥ (G *ᵥ X)) ∧ sqn A ≤ sqn V := by
  have hsym : X ⬝ᵥ (G *ᵥ X') = X' ⬝ᵥ (G *ᵥ X) := by
    rw [dotProduct_mulVec, ← mulVec_transpose, hG, dotProduct_comm]
  have h3 := mul_nonneg hκ (pG (X' - X))
  have h4 := sqn_nonneg (X' - (Z - A))
  have h5 := sqn_nonneg Z
  simp only [sqn, mulVec_sub, dotProduct_sub, dotProduct_add, add_dotProduct, sub_dotProduct, hV,
    hsym, dotProduct_comm A X', dotProduct_comm Z X', dotProduct_comm Z A] at *
  refine ⟨?_, ?_, ?_⟩ <;> nlinarith

end step

/-- The iterates: `x` the coefficients, `z` the split variable and `y` the multipliers before step `t`,
`ρ` the penalty parameter used in it. -/
structure AdmmSeq {k : ℕ} (G H : Matrix (Fin k) (Fin k) ℝ) (e : ℝ) (c lam : Fin k → ℝ)
    (x z y : ℕ → Fin k → ℝ) (ρ : ℕ → ℝ) : Prop where
  gsymm : G.IsSymm
  gpos : ∀ v, 0 ≤ v ⬝ᵥ (G *ᵥ v)
  hpos : ∀ v, 0 ≤ v ⬝ᵥ (H *ᵥ v)
  e_nonneg : 0 ≤ e
  rho_pos : ∀ t, 0 < ρ t
  step : ∀ t, H *ᵥ x (t + 1) + e • (G *ᵥ (x (t + 1) - x t)) + y (t + 1)
    + ρ t • (x (t + 1) - z (t + 1)) = c
  dual : ∀ t, y (t + 1) = y t + ρ t • (x t - z (t + 1))
  sub : ∀ t j, IsSubgrad (lam j) (z t j) (y t j)
  balance : ∀ t, ρ (t + 1) = if 64 * (ρ t ^ 2 * sqn (z (t + 1) - z t)) < sqn (x t - z (t + 1))
    then 2 * ρ t else if 64 * sqn (x t - z (t + 1)) < ρ t ^ 2 * sqn (z (t + 1) - z t)
    then ρ t / 2 else ρ t

/-- Subgradients are monotone. -/
theorem subgrad_mono {k : ℕ} {lam z y z' y' : Fin k → ℝ} (h : ∀ j, IsSubgrad (lam j) (z j) (y j))
    (h' : ∀ j, IsSubgrad (lam j) (z' j) (y' j)) : 0 ≤ (y - y') ⬝ᵥ (z - z') := by
  refine Finset.sum_nonneg fun j _ => ?_
  have h1 := (h j).le (z' j)
  have h2 := (h' j).le (z j)
  simp only [Pi.sub_apply]
  nlinarith

namespace AdmmSeq
variable {k : ℕ} {G H : Matrix (Fin k) (Fin k) ℝ} {e : ℝ} {c lam xs ys : Fin k → ℝ}
  {x z y : ℕ → Fin k → ℝ} {ρ : ℕ → ℝ} (h : AdmmSeq G H e c lam x z y ρ)
include h

/-- The residuals are bounded by the distance of the coefficients from the split variable. -/
theorem residuals (t : ℕ) :
    sqn (x t - z (t + 1)) + sqn (z (t + 1) - z t) ≤ sqn (x t - z t) := by
  have h1 := subgrad_mono (h.sub (t + 1)) (h.sub t)
  rw [h.dual t, add_sub_cancel_left, smul_dotProduct, smul_eq_mul] at h1
  have h2 := nonneg_of_mul_nonneg_right h1 (h.rho_pos t)
  have e1 : x t - z t = (x t - z (t + 1)) + (z (t + 1) - z t) := by abel
  rw [e1, sqn_add]
  linarith

theorem y_bound (t : ℕ) : sqn (y t) ≤ ∑ j, lam j ^ 2 := by
  unfold sqn dotProduct
  refine Finset.sum_le_sum fun j _ => ?_
  have := (h.sub t j).1
  rw [← sq, ← sq_abs]
  exact pow_le_pow_left₀ (abs_nonneg _) this 2

section optimum
variable (hopt : H *ᵥ xs + ys = c) (hsub : ∀ j, IsSubgrad (lam j) (xs j) (ys j))
include hopt hsub

/-- The basic inequalities of step `t`. -/
theorem core (t : ℕ) :
    sqn (x (t + 1) - xs + (ρ t)⁻¹ • (y (t + 1) - ys))
        + e / ρ t * ((x (t + 1) - xs) ⬝ᵥ (G *ᵥ (x (t + 1) - xs))) + sqn (x (t + 1) - z (t + 1))
      ≤ sqn (x t - xs + (ρ t)⁻¹ • (y t - ys)) + e / ρ t * ((x t - xs) ⬝ᵥ (G *ᵥ (x t - xs))) ∧
    sqn (x (t + 1) - xs) + e / ρ t * ((x (t + 1) - xs) ⬝ᵥ (G *ᵥ (x (t + 1) - xs)))
      ≤ sqn (x t - xs + (ρ t)⁻¹ • (y t - ys)) + e / ρ t * ((x t - xs) ⬝ᵥ (G *ᵥ (x t - xs))) ∧
    sqn ((ρ t)⁻¹ • (y (t + 1) - ys)) ≤ sqn (x t - xs + (ρ t)⁻¹ • (y t - ys)) := by
  have hρ := h.rho_pos t
  have hκ : 0 ≤ e / ρ t := div_nonneg h.e_nonneg hρ.le
  have h1 := dr_core (X := x t - xs) (X' := x (t + 1) - xs) (V := x t - xs + (ρ t)⁻¹ • (y t - ys))
    (Z := z (t + 1) - xs) (A := (ρ t)⁻¹ • (y (t + 1) - ys)) h.gsymm h.gpos hκ ?_ ?_ ?_
  · have e1 : x (t + 1) - xs - (z (t + 1) - xs) = x (t + 1) - z (t + 1) := by abel
    rwa [e1] at h1
  · rw [h.dual t, add_sub_right_comm, smul_add, smul_smul, inv_mul_cancel₀ hρ.ne', one_smul]
    abel
  · rw [smul_dotProduct, smul_eq_mul]
    exact mul_nonneg (inv_nonneg.mpr hρ.le) (subgrad_mono (h.sub (t + 1)) hsub)
  · have h2 : H *ᵥ (x (t + 1) - xs) = -(ρ t • ((x (t + 1) - xs) + (ρ t)⁻¹ • (y (t + 1) - ys)
        - (z (t + 1) - xs))) - e • (G *ᵥ (x (t + 1) - xs - (x t - xs))) := by
      rw [sub_sub_sub_cancel_right, mulVec_sub]
      have h3 := (h.step t).trans hopt.symm
      have h4 : H *ᵥ x (t + 1) - H *ᵥ xs = ys - y (t + 1) - ρ t • (x (t + 1) - z (t + 1))
          - e • (G *ᵥ (x (t + 1) - x t)) := by
        rw [← sub_eq_zero] at h3 ⊢
        rw [← h3]; abel
      have h6 : ρ t • ((x (t + 1) - xs) + (ρ t)⁻¹ • (y (t + 1) - ys) - (z (t + 1) - xs))
          = ρ t • (x (t + 1) - z (t + 1)) + (y (t + 1) - ys) := by
        have : (x (t + 1) - xs) + (ρ t)⁻¹ • (y (t + 1) - ys) - (z (t + 1) - xs)
          = (x (t + 1) - z (t + 1)) + (ρ t)⁻¹ • (y (t + 1) - ys) := by abel
        rw [this, smul_add, smul_smul, mul_inv_cancel₀ hρ.ne', one_smul]
      rw [h4, h6]
      abel
    have h3 := h.hpos (x (t + 1) - xs)
    rw [h2, dotProduct_sub, dotProduct_neg, dotProduct_smul, dotProduct_smul, smul_eq_mul,
      smul_eq_mul] at h3
    rw [div_mul_eq_mul_div]
    have h5 : ρ t * (((x (t + 1) - xs) ⬝ᵥ (x (t + 1) - xs + (ρ t)⁻¹ • (y (t + 1) - ys)
        - (z (t + 1) - xs))) + e * ((x (t + 1) - xs) ⬝ᵥ (G *ᵥ (x (t + 1) - xs - (x t - xs)))) / ρ t)
        ≤ 0 := by
      rw [mul_add, mul_div_cancel₀ _ hρ.ne']
      linarith
    exact nonpos_of_mul_nonpos_right h5 hρ

/-- While the penalty parameter does not decrease, the distance from the optimum on the scale of the
coefficients decreases. -/
theorem up (t : ℕ) (hle : ρ t ≤ ρ (t + 1)) :
    sqn (x (t + 1) - xs + (ρ (t + 1))⁻¹ • (y (t + 1) - ys))
        + e / ρ (t + 1) * ((x (t + 1) - xs) ⬝ᵥ (G *ᵥ (x (t + 1) - xs)))
        + 1 / 2 * sqn (x (t + 1) - z (t + 1))
      ≤ sqn (x t - xs + (ρ t)⁻¹ • (y t - ys)) + e / ρ t * ((x t - xs) ⬝ᵥ (G *ᵥ (x t - xs))) := by
  obtain ⟨c1, c2, -⟩ := h.core hopt hsub t
  have hρ := h.rho_pos t
  have hρ' := h.rho_pos (t + 1)
  have hθ2 : 1 / 2 ≤ ρ t / ρ (t + 1) := by
    rw [div_le_div_iff₀ two_pos hρ']
    have := h.balance t
    split_ifs at this <;> linarith
  set θ := ρ t / ρ (t + 1) with hθ
  have hθ0 : 0 ≤ θ := by linarith
  have hθ1 : θ ≤ 1 := (div_le_one hρ').mpr hle
  have e1 : x (t + 1) - xs + (ρ (t + 1))⁻¹ • (y (t + 1) - ys)
      = θ • (x (t + 1) - xs + (ρ t)⁻¹ • (y (t + 1) - ys)) + (1 - θ) • (x (t + 1) - xs) := by
    have : θ * (ρ t)⁻¹ = (ρ (t + 1))⁻¹ := by rw [hθ]; field_simp
    rw [smul_add, smul_smul, this, sub_smul, one_smul]
    abel
  have h1 := sqn_convex hθ0 hθ1 (x (t + 1) - xs + (ρ t)⁻¹ • (y (t + 1) - ys)) (x (t + 1) - xs)
  have h2 : e / ρ (t + 1) * ((x (t + 1) - xs) ⬝ᵥ (G *ᵥ (x (t + 1) - xs)))
      ≤ e / ρ t * ((x (t + 1) - xs) ⬝ᵥ (G *ᵥ (x (t + 1) - xs))) :=
    mul_le_mul_of_nonneg_right (div_le_div_of_nonneg_left h.e_nonneg hρ hle) (h.gpos _)
  rw [e1]
  have h3 := mul_le_mul_of_nonneg_left c1 hθ0
  have h4 := mul_le_mul_of_nonneg_left c2 (sub_nonneg.mpr hθ1)
  have h5 := mul_le_mul_of_nonneg_right hθ2 (sqn_nonneg (x (t + 1) - z (t + 1)))
  linarith

/-- While the penalty parameter does not increase, the distance from the optimum on the scale of the
multipliers decreases. -/
theorem down (t : ℕ) (hle : ρ (t + 1) ≤ ρ t) :
    sqn (ρ (t + 1) • (x (t + 1) - xs) + (y (t + 1) - ys))
        + e * ρ (t + 1) * ((x (t + 1) - xs) ⬝ᵥ (G *ᵥ (x (t + 1) - xs)))
        + 1 / 2 * sqn (ρ t • (x (t + 1) - z (t + 1)))
      ≤ sqn (ρ t • (x t - xs) + (y t - ys)) + e * ρ t * ((x t - xs) ⬝ᵥ (G *ᵥ (x t - xs))) := by
  obtain ⟨c1, -, c3⟩ := h.core hopt hsub t
  have hρ := h.rho_pos t
  have hρ' := h.rho_pos (t + 1)
  have hθ2 : 1 / 2 ≤ ρ (t + 1) / ρ t := by
    rw [div_le_div_iff₀ two_pos hρ]
    have := h.balance t
    split_ifs at this <;> linarith
  set θ := ρ (t + 1) / ρ t with hθ
  have hθ0 : 0 ≤ θ := by linarith
  have hθ1 : θ ≤ 1 := (div_le_one hρ).mpr hle
  have hθρ : ρ (t + 1) = θ * ρ t := by rw [hθ]; field_simp
  have scale : ∀ u v : Fin k → ℝ, ρ t • u + v = ρ t • (u + (ρ t)⁻¹ • v) := fun u v => by
    rw [smul_add, smul_smul, mul_inv_cancel₀ hρ.ne', one_smul]
  have e1 : ρ (t + 1) • (x (t + 1) - xs) + (y (t + 1) - ys)
      = θ • (ρ t • (x (t + 1) - xs) + (y (t + 1) - ys)) + (1 - θ) • (y (t + 1) - ys) := by
    rw [hθρ, smul_add, smul_smul, sub_smul, one_smul]
    abel
  have h1 := sqn_convex hθ0 hθ1 (ρ t • (x (t + 1) - xs) + (y (t + 1) - ys)) (y (t + 1) - ys)
  have hsq : 0 < ρ t ^ 2 := by positivity
  have c1' := mul_le_mul_of_nonneg_left c1 hsq.le
  have c3' := mul_le_mul_of_nonneg_left c3 hsq.le
  have e2 : ∀ w : ℝ, ρ t ^ 2 * (e / ρ t * w) = e * ρ t * w := fun w => by field_simp
  rw [mul_add, mul_add, mul_add, e2, e2, ← sqn_smul, ← sqn_smul, ← sqn_smul, ← scale, ← scale] at c1'
  rw [← sqn_smul, ← sqn_smul, ← scale, smul_smul, mul_inv_cancel₀ hρ.ne', one_smul] at c3'
  have h0 : 0 ≤ e * ρ t * ((x t - xs) ⬝ᵥ (G *ᵥ (x t - xs))) :=
    mul_nonneg (mul_nonneg h.e_nonneg hρ.le) (h.gpos _)
  rw [e1]
  have h3 := mul_le_mul_of_nonneg_left c1' hθ0
  have h4 := mul_le_mul_of_nonneg_left c3' (sub_nonneg.mpr hθ1)
  have h5 := mul_le_mul_of_nonneg_right hθ2 (sqn_nonneg (ρ t • (x (t + 1) - z (t + 1))))
  have h6 := mul_nonneg (sub_nonneg.mpr hθ1) h0
  rw [hθρ]
  have h7 : e * (θ * ρ t) * ((x (t + 1) - xs) ⬝ᵥ (G *ᵥ (x (t + 1) - xs)))
      = θ * (e * ρ t * ((x (t + 1) - xs) ⬝ᵥ (G *ᵥ (x (t + 1) - xs)))) := by ring
  rw [h7]
  linarith

end optimum

/-- How far the iteration is from stopping at step `t`. -/
def _root_.GLM.Near (H : Matrix (Fin k) (Fin k) ℝ) (c : Fin k → ℝ) (x z y : ℕ → Fin k → ℝ)
    (ρ : ℕ → ℝ) (ε : ℝ) (t : ℕ) : Prop :=
  sqn (x t - z (t + 1)) < ε ∧ ρ t ^ 2 * sqn (z (t + 1) - z t) < ε ∧ sqn (x (t + 1) - x t) < ε ∧
    (c - H *ᵥ x t - y (t + 1) - ρ t • (x t - z (t + 1))) ⬝ᵥ (x (t + 1) - x t) ≤ ε

section optimum
variable (hopt : H *ᵥ xs + ys = c) (hsub : ∀ j, IsSubgrad (lam j) (xs j) (ys j))
include hopt hsub

/-- If the penalty parameter is eventually only doubled, the iteration comes arbitrarily close to
stopping. -/
theorem settles_up {T : ℕ} (hup : ∀ t, T ≤ t → ρ t ≤ ρ (t + 1)) {ε : ℝ} (hε : 0 < ε) :
    ∃ t, Near H c x z y ρ ε t := by
  set W : ℕ → ℝ := fun t => sqn (x t - xs + (ρ t)⁻¹ • (y t - ys))
    + e / ρ t * ((x t - xs) ⬝ᵥ (G *ᵥ (x t - xs))) with hW
  have hW0 : ∀ t, 0 ≤ W t := fun t => add_nonneg (sqn_nonneg _)
    (mul_nonneg (div_nonneg h.e_nonneg (h.rho_pos t).le) (h.gpos _))
  have hdec : ∀ t, T ≤ t → W (t + 1) + 1 / 2 * sqn (x (t + 1) - z (t + 1)) ≤ W t :=
    fun t ht => h.up hopt hsub t (hup t ht)
  have hq : Tendsto (fun t => sqn (x t - z t)) atTop (𝓝 0) :=
    (tendsto_add_atTop_iff_nat 1).mp
      (tendsto_zero_of_decrease hW0 (fun t => sqn_nonneg _) hdec)
  have hr : Tendsto (fun t => sqn (x t - z (t + 1))) atTop (𝓝 0) :=
    sqn_tendsto_of_le hq fun t => by linarith [h.residuals t, sqn_nonneg (z (t + 1) - z t)]
  have hs : Tendsto (fun t => sqn (z (t + 1) - z t)) atTop (𝓝 0) :=
    sqn_tendsto_of_le hq fun t => by linarith [h.residuals t, sqn_nonneg (x t - z (t + 1))]
  have hδ : Tendsto (fun t => sqn (x (t + 1) - x t)) atTop (𝓝 0) := by
    have := sqn_tendsto_sub (sqn_tendsto_add ((tendsto_add_atTop_iff_nat 1).mpr hq) hs) hq
    refine this.congr fun t => congrArg sqn ?_
    abel
  have hWT : ∀ t, T ≤ t → W t ≤ W T := fun t ht => by
    induction t, ht using Nat.le_induction with
    | base => exact le_rfl
    | succ t ht ih => linarith [hdec t ht, sqn_nonneg (x (t + 1) - z (t + 1))]
  have hx : ∀ t, T ≤ t → sqn (x (t + 1) - xs) ≤ W T := fun t ht => by
    have := (h.core hopt hsub t).2.1
    have h2 := mul_nonneg (div_nonneg h.e_nonneg (h.rho_pos t).le) (h.gpos (x (t + 1) - xs))
    have h3 : W t ≤ W T := hWT t ht
    rw [hW] at h3
    simp only at h3
    linarith
  have hg : ∀ᶠ t in atTop, sqn (c - H *ᵥ x t - y (t + 1) - ρ t • (x t - z (t + 1)))
      ≤ 2 * (2 * (2 * sqn ys + 2 * ((∑ i, sqn (H i)) * W T)) + 2 * ∑ j, lam j ^ 2)
        + 2 * (2 * (∑ j, lam j ^ 2) + 2 * ∑ j, lam j ^ 2) := by
    filter_upwards [eventually_ge_atTop (T + 1)] with t ht
    obtain ⟨t, rfl⟩ : ∃ t', t = t' + 1 := ⟨t - 1, by omega⟩
    have e1 : c - H *ᵥ x (t + 1) = ys - H *ᵥ (x (t + 1) - xs) := by
      rw [mulVec_sub, ← hopt]; abel
    have e2 : ρ (t + 1) • (x (t + 1) - z (t + 1 + 1)) = y (t + 1 + 1) - y (t + 1) := by
      rw [h.dual (t + 1)]; abel
    rw [e1, e2]
    have h1 := sqn_sub_le (ys - H *ᵥ (x (t + 1) - xs) - y (t + 1 + 1)) (y (t + 1 + 1) - y (t + 1))
    have h2 := sqn_sub_le (ys - H *ᵥ (x (t + 1) - xs)) (y (t + 1 + 1))
    have h3 := sqn_sub_le ys (H *ᵥ (x (t + 1) - xs))
    have h4 := sqn_mulVec_le H (x (t + 1) - xs)
    have h5 := mul_le_mul_of_nonneg_left (hx t (by omega))
      (Finset.sum_nonneg fun i (_ : i ∈ Finset.univ) => sqn_nonneg (H i))
    have h6 := sqn_sub_le (y (t + 1 + 1)) (y (t + 1))
    linarith [h.y_bound (t + 1), h.y_bound (t + 1 + 1)]
  have hgδ := dot_tendsto hg hδ hε
  have hfreq : ∃ᶠ t in atTop, ρ t ^ 2 * sqn (z (t + 1) - z t) < ε := by
    by_cases hc : ∃ᶠ t in atTop, ρ t < ρ (t + 1)
    · have hr' := hr.eventually_lt_const hε
      refine (hc.and_eventually hr').mono fun t ⟨h1, h2⟩ => ?_
      have hb := h.balance t
      have hp := h.rho_pos t
      split_ifs at hb with i1 i2
      · have := mul_nonneg (sq_nonneg (ρ t)) (sqn_nonneg (z (t + 1) - z t))
        linarith
      · linarith
      · linarith
    · rw [not_frequently] at hc
      obtain ⟨T', hT'⟩ := (hc.and (eventually_ge_atTop T)).exists_forall_of_atTop
      have hconst : ∀ t, T' ≤ t → ρ t = ρ T' := fun t ht => by
        induction t, ht using Nat.le_induction with
        | base => rfl
        | succ t ht ih =>
          rw [← ih]
          exact le_antisymm (not_lt.mp (hT' t ht).1) (hup t (hT' t ht).2)
      have h1 := (hs.const_mul (ρ T' ^ 2))
      rw [mul_zero] at h1
      refine Eventually.frequently ?_
      filter_upwards [h1.eventually_lt_const hε, eventually_ge_atTop T'] with t h2 h3
      rw [hconst t h3]; exact h2
  obtain ⟨t, h1, h2⟩ := (hfreq.and_eventually ((hr.eventually_lt_const hε).and
    ((hδ.eventually_lt_const hε).and hgδ))).exists
  exact ⟨t, h2.1, h1, h2.2.1, h2.2.2⟩

/-- The same if it is eventually only halved, when the loss has positive definite curvature. -/
theorem settles_down {C : ℝ} (hpd : ∀ v, sqn v ≤ C * (v ⬝ᵥ (H *ᵥ v)))
    (hGH : ∀ v, v ⬝ᵥ (G *ᵥ v) ≤ v ⬝ᵥ (H *ᵥ v)) {T : ℕ} (hdn : ∀ t, T ≤ t → ρ (t + 1) ≤ ρ t)
    {ε : ℝ} (hε : 0 < ε) : ∃ t, Near H c x z y ρ ε t := by
  by_cases hc : ∃ᶠ t in atTop, ρ (t + 1) < ρ t
  swap
  · rw [not_frequently] at hc
    obtain ⟨T', hT'⟩ := hc.exists_forall_of_atTop
    exact h.settles_up hopt hsub (fun t ht => not_lt.mp (hT' t ht)) hε
  set U : ℕ → ℝ := fun t => sqn (ρ t • (x t - xs) + (y t - ys))
    + e * ρ t * ((x t - xs) ⬝ᵥ (G *ᵥ (x t - xs))) with hU
  have hU0 : ∀ t, 0 ≤ U t := fun t => add_nonneg (sqn_nonneg _)
    (mul_nonneg (mul_nonneg h.e_nonneg (h.rho_pos t).le) (h.gpos _))
  have hdec : ∀ t, T ≤ t → U (t + 1) + 1 / 2 * sqn (ρ t • (x (t + 1) - z (t + 1))) ≤ U t :=
    fun t ht => h.down hopt hsub t (hdn t ht)
  have hq : Tendsto (fun t => sqn (ρ t • (x (t + 1) - z (t + 1)))) atTop (𝓝 0) :=
    tendsto_zero_of_decrease hU0 (fun t => sqn_nonneg _) hdec
  have hq' : Tendsto (fun t => sqn (ρ t • (x t - z t))) atTop (𝓝 0) := by
    refine (tendsto_add_atTop_iff_nat 1).mp ?_
    refine squeeze_zero' (.of_forall fun _ => sqn_nonneg _) ?_ hq
    filter_upwards [eventually_ge_atTop T] with t ht
    rw [sqn_smul, sqn_smul]
    exact mul_le_mul_of_nonneg_right
      (pow_le_pow_left₀ (h.rho_pos _).le (hdn t ht) 2) (sqn_nonneg _)
  have hr : Tendsto (fun t => sqn (ρ t • (x t - z (t + 1)))) atTop (𝓝 0) :=
    sqn_tendsto_of_le hq' fun t => by
      rw [sqn_smul, sqn_smul]
      exact mul_le_mul_of_nonneg_left
        (by linarith [h.residuals t, sqn_nonneg (z (t + 1) - z t)]) (sq_nonneg _)
  have hs : Tendsto (fun t => ρ t ^ 2 * sqn (z (t + 1) - z t)) atTop (𝓝 0) :=
    squeeze_zero (fun t => mul_nonneg (sq_nonneg _) (sqn_nonneg _)) (fun t => by
      rw [sqn_smul]
      exact mul_le_mul_of_nonneg_left
        (by linarith [h.residuals t, sqn_nonneg (x t - z (t + 1))]) (sq_nonneg _)) hq'
  -- the steps
  set w : ℕ → Fin k → ℝ := fun t => ρ t • (x (t + 1) - z (t + 1))
    - ρ (t + 1) • (x (t + 1 + 1) - z (t + 1 + 1)) - ρ (t + 1) • (x (t + 1) - z (t + 1 + 1)) with hw
  have hw0 : Tendsto (fun t => sqn (w t)) atTop (𝓝 0) :=
    sqn_tendsto_sub (sqn_tendsto_sub hq ((tendsto_add_atTop_iff_nat 1).mpr hq))
      ((tendsto_add_atTop_iff_nat 1).mpr hr)
  set δ : ℕ → Fin k → ℝ := fun t => x (t + 1) - x t with hδdef
  have hrec : ∀ t, H *ᵥ δ (t + 1) + e • (G *ᵥ δ (t + 1)) = e • (G *ᵥ δ t) + w t := by
    intro t
    have h1 := h.step t
    have h2 := h.step (t + 1)
    have h3 := h.dual (t + 1)
    rw [h3] at h2
    have h4 := h2.trans h1.symm
    simp only [hδdef, hw]
    rw [mulVec_sub H]
    rw [← sub_eq_zero] at h4 ⊢
    rw [← h4]
    abel
  have hC : 0 ≤ |C| := abs_nonneg C
  have hpd' : ∀ v, sqn v ≤ |C| * (v ⬝ᵥ (H *ᵥ v)) := fun v =>
    (hpd v).trans (mul_le_mul_of_nonneg_right (le_abs_self C) (h.hpos v))
  set E : ℕ → ℝ := fun t => 1 / 2 * (δ t ⬝ᵥ (H *ᵥ δ t)) + e / 2 * (δ t ⬝ᵥ (G *ᵥ δ t)) with hE
  have he := h.e_nonneg
  have hE0 : ∀ t, 0 ≤ E t := fun t => add_nonneg (mul_nonneg (by norm_num) (h.hpos _))
    (mul_nonneg (by linarith) (h.gpos _))
  have hEc : ∀ t, E (t + 1) ≤ e / (1 + e) * E t + |C| / 2 * sqn (w t) := by
    intro t
    have h1 := congrArg (δ (t + 1) ⬝ᵥ ·) (hrec t)
    simp only [dotProduct_add, dotProduct_smul, smul_eq_mul] at h1
    have hsym : δ t ⬝ᵥ (G *ᵥ δ (t + 1)) = δ (t + 1) ⬝ᵥ (G *ᵥ δ t) := by
      rw [dotProduct_mulVec, ← mulVec_transpose, h.gsymm, dotProduct_comm]
    have h2 := mul_nonneg he (h.gpos (δ (t + 1) - δ t))
    simp only [mulVec_sub, dotProduct_sub, sub_dotProduct, hsym] at h2
    have h3 : δ (t + 1) ⬝ᵥ w t ≤ 1 / 2 * (δ (t + 1) ⬝ᵥ (H *ᵥ δ (t + 1))) + |C| / 2 * sqn (w t) := by
      rcases hC.eq_or_lt with h0 | h0
      · have := hpd' (δ (t + 1))
        rw [← h0, zero_mul] at this
        have h4 := dot_sq_le (δ (t + 1)) (w t)
        rw [le_antisymm this (sqn_nonneg _), zero_mul] at h4
        have h5 : δ (t + 1) ⬝ᵥ w t = 0 := pow_eq_zero_iff two_ne_zero |>.mp (le_antisymm h4 (sq_nonneg _))
        have := h.hpos (δ (t + 1))
        rw [h5, ← h0]; linarith
      · have h4 := sqn_nonneg (δ (t + 1) - |C| • w t)
        rw [sqn_sub, sqn_smul, dotProduct_smul, smul_eq_mul] at h4
        have h5 := hpd' (δ (t + 1))
        have h6 : |C| * (2 * (δ (t + 1) ⬝ᵥ w t)) ≤
            |C| * ((δ (t + 1) ⬝ᵥ (H *ᵥ δ (t + 1))) + |C| * sqn (w t)) := by nlinarith
        have := le_of_mul_le_mul_left h6 h0
        linarith
    have h4 : e / 2 * (δ t ⬝ᵥ (G *ᵥ δ t)) ≤ e / (1 + e) * E t := by
      have h5 := hGH (δ t)
      have h6 : (1 + e) / 2 * (δ t ⬝ᵥ (G *ᵥ δ t)) ≤ E t := by rw [hE]; simp only; linarith
      have h7 := mul_le_mul_of_nonneg_left h6 (div_nonneg he (by linarith : 0 ≤ 1 + e))
      have e1 : e / (1 + e) * ((1 + e) / 2 * (δ t ⬝ᵥ (G *ᵥ δ t))) = e / 2 * (δ t ⬝ᵥ (G *ᵥ δ t)) := by
        field_simp
      linarith
    have h5 : E (t + 1) = 1 / 2 * (δ (t + 1) ⬝ᵥ (H *ᵥ δ (t + 1)))
      + e / 2 * (δ (t + 1) ⬝ᵥ (G *ᵥ δ (t + 1))) := rfl
    rw [h5]
    linarith
  have hElim : Tendsto E atTop (𝓝 0) := by
    refine tendsto_zero_of_contraction (div_nonneg he (by linarith))
      ((div_lt_one (by linarith)).mpr (by linarith)) hE0 ?_ hEc
    simpa using hw0.const_mul (|C| / 2)
  have hδ : Tendsto (fun t => sqn (δ t)) atTop (𝓝 0) := by
    refine sqn_tendsto_of_le (a := fun t => |C| * (2 * E t))
      (by simpa using (hElim.const_mul 2).const_mul |C|) fun t => (hpd' _).trans ?_
    refine mul_le_mul_of_nonneg_left ?_ hC
    have := mul_nonneg he (h.gpos (δ t))
    rw [hE]; simp only
    linarith
  have hgrad : Tendsto (fun t => sqn (c - H *ᵥ x (t + 1) - y (t + 1 + 1)
      - ρ (t + 1) • (x (t + 1) - z (t + 1 + 1)))) atTop (𝓝 0) := by
    have h1 : Tendsto (fun t => sqn (e • (G *ᵥ δ t))) atTop (𝓝 0) := by
      refine sqn_tendsto_of_le (a := fun t => e ^ 2 * ((∑ i, sqn (G i)) * sqn (δ t)))
        (by simpa using (hδ.const_mul _).const_mul (e ^ 2)) fun t => ?_
      rw [sqn_smul]
      exact mul_le_mul_of_nonneg_left (sqn_mulVec_le _ _) (sq_nonneg e)
    have h2 := sqn_tendsto_sub (sqn_tendsto_sub (sqn_tendsto_add h1 hq)
      ((tendsto_add_atTop_iff_nat 1).mpr hr)) ((tendsto_add_atTop_iff_nat 1).mpr hr)
    refine h2.congr fun t => congrArg sqn ?_
    rw [h.dual (t + 1), ← h.step t]
    simp only [hδdef]
    abel
  have hgb : ∀ᶠ t in atTop, sqn (c - H *ᵥ x t - y (t + 1) - ρ t • (x t - z (t + 1))) ≤ 1 := by
    have := ((tendsto_add_atTop_iff_nat
      (f := fun t => sqn (c - H *ᵥ x t - y (t + 1) - ρ t • (x t - z (t + 1)))) 1).mp hgrad)
    exact this.eventually_le_const one_pos
  have hgδ := dot_tendsto hgb hδ hε
  have hfreq : ∃ᶠ t in atTop, sqn (x t - z (t + 1)) < ε := by
    refine (hc.and_eventually (hs.eventually_lt_const hε)).mono fun t ⟨h1, h2⟩ => ?_
    have hb := h.balance t
    have hp := h.rho_pos t
    split_ifs at hb with i1 i2
    · linarith
    · have := sqn_nonneg (x t - z (t + 1))
      linarith
    · linarith
  obtain ⟨t, h1, h2⟩ := (hfreq.and_eventually ((hs.eventually_lt_const hε).and
    ((hδ.eventually_lt_const hε).and hgδ))).exists
  exact ⟨t, h1, h2.1, h2.2.1, h2.2.2⟩

end optimum

end AdmmSeq

end GLM
