/-
  C78: a Linear fit with an L2 penalty converges to the ridge solution.
-/
import Verif.Props.Convergence
import Verif.Props.Influence

namespace GLM
open Spec Matrix
variable {n p : ℕ} {b : Bool} {env : Env ℝ} {raw : Dataset ℝ n p false} {std : Bool}
  {d : Dataset ℝ n p b} {options : FitOptions ℝ (ncols b p)} {βs : Vec ℝ (ncols b p)}

section algebra
variable {k : ℕ} {G L : Matrix (Fin k) (Fin k) ℝ}

theorem dot_mulVec_comm (h : G.IsSymm) (x y : Fin k → ℝ) : x ⬝ᵥ (G *ᵥ y) = y ⬝ᵥ (G *ᵥ x) := by
  rw [dotProduct_mulVec, ← mulVec_transpose, h, dotProduct_comm]

/-- The error of one step contracts in the norm of the curvature. -/
theorem ridge_contracts (hG : G.IsSymm) (hL : L.IsSymm) (pG : ∀ x, 0 ≤ x ⬝ᵥ (G *ᵥ x))
    (pL : ∀ x, 0 ≤ x ⬝ᵥ (L *ᵥ x)) {e : ℝ} (he : 0 ≤ e) {x x' : Fin k → ℝ}
    (h : G *ᵥ x' + L *ᵥ x' + e • (G *ᵥ x') = e • (G *ᵥ x)) :
    (1 + e) ^ 2 * (x' ⬝ᵥ (G *ᵥ x') + x' ⬝ᵥ (L *ᵥ x'))
      ≤ e ^ 2 * (x ⬝ᵥ (G *ᵥ x) + x ⬝ᵥ (L *ᵥ x)) := by
  have h1 := congrArg (x' ⬝ᵥ ·) h
  have h2 := congrArg (x ⬝ᵥ ·) h
  simp only [dotProduct_add, dotProduct_smul, smul_eq_mul] at h1 h2
  have h3 := pG ((1 + e) • x' - e • x)
  have h4 := pL ((1 + e) • x' - e • x)
  have h5 := pL x'
  simp only [mulVec_sub, mulVec_smul, dotProduct_sub, sub_dotProduct, dotProduct_smul,
    smul_dotProduct, smul_eq_mul] at h3 h4
  rw [dot_mulVec_comm hG x' x] at h1 h3
  rw [dot_mulVec_comm hL x' x] at h4
  generalize x' ⬝ᵥ (G *ᵥ x') = a at *
  generalize x ⬝ᵥ (G *ᵥ x') = u at *
  generalize x ⬝ᵥ (G *ᵥ x) = c at *
  generalize x' ⬝ᵥ (L *ᵥ x') = q at *
  generalize x ⬝ᵥ (L *ᵥ x') = v at *
  generalize x ⬝ᵥ (L *ᵥ x) = w at *
  have e1 : 0 ≤ 2 * (1 + e) * q := by positivity
  have e2 := mul_nonneg (by linarith : (0 : ℝ) ≤ 3 + 2 * e) h3
  linear_combination e1 + e2 + h4 + 2 * (1 + e) * (2 + e) * h1 - 2 * e * (1 + e) * h2

/-- A coordinate is bounded by a positive definite form. -/
theorem sq_le_quad (hG : G.IsSymm) (pG : ∀ x, 0 ≤ x ⬝ᵥ (G *ᵥ x)) (hu : IsUnit G.det) (j : Fin k) :
    ∃ c, 0 ≤ c ∧ ∀ x : Fin k → ℝ, x j ^ 2 ≤ c * (x ⬝ᵥ (G *ᵥ x)) := by
  set u : Fin k → ℝ := G⁻¹ *ᵥ Pi.single j 1 with hudef
  have hGu : G *ᵥ u = Pi.single j 1 := by
    rw [hudef, mulVec_mulVec, mul_nonsing_inv _ hu, one_mulVec]
  refine ⟨u ⬝ᵥ (G *ᵥ u), pG u, fun x => ?_⟩
  have key : ∀ t : ℝ, 0 ≤ (u ⬝ᵥ (G *ᵥ u)) * (t * t) + (2 * x j) * t + x ⬝ᵥ (G *ᵥ x) := by
    intro t
    have := pG (x + t • u)
    simp only [mulVec_add, mulVec_smul, dotProduct_add, add_dotProduct, dotProduct_smul,
      smul_dotProduct, smul_eq_mul] at this
    rw [dot_mulVec_comm hG u x, hGu, dotProduct_single_one] at this
    rw [hGu]
    linarith
  have := discrim_le_zero key
  rw [discrim] at this
  nlinarith

end algebra

/-- Curvature of the ridge loss. -/
noncomputable def ridgeCurv (raw : Dataset ℝ n p false) (b : Bool) (l2 : ℝ) (σ : Fin p → ℝ) :
    Matrix (Fin (ncols b p)) (Fin (ncols b p)) ℝ := gram raw b + ridgeMat l2 σ b

section loss
variable {l1 l2 : ℝ} {σ : Fin p → ℝ}

theorem ridgeMat_symm : (ridgeMat l2 σ b).IsSymm := isSymm_diagonal _

theorem ridgeMat_nonneg (x : Vec ℝ (ncols b p)) : 0 ≤ x ⬝ᵥ (ridgeMat l2 σ b *ᵥ x) := by
  rw [quad_ridge]
  exact Finset.sum_nonneg fun j _ =>
    mul_nonneg (mul_nonneg (le_max_right _ _) (sq_nonneg _)) (sq_nonneg _)

theorem ridgeLoss_quad (β : Vec ℝ (ncols b p)) : ridgeLoss raw b l2 σ β
    = sse raw b β + β ⬝ᵥ (ridgeMat l2 σ b *ᵥ β) := by
  rw [ridgeLoss, quad_ridge, Finset.mul_sum]
  congr 1
  exact Finset.sum_congr rfl fun j _ => by ring

theorem lin_penLogLik (hl1 : l1 ≤ 0) (β : Vec ℝ (ncols b p)) : penLogLik linG raw b l1 l2 σ β
    = (∑ i, totalWt raw i * raw.y i ^ 2) / 2 - ridgeLoss raw b l2 σ β / 2 := by
  rw [penLogLik, lin_logLik, penalty, ridgeLoss, max_eq_right hl1]; ring

theorem ridgeLoss_add (hl1 : l1 ≤ 0) (β δ : Vec ℝ (ncols b p)) : ridgeLoss raw b l2 σ (β + δ)
    = ridgeLoss raw b l2 σ β - 2 * (penScore linG raw b l1 l2 σ β ⬝ᵥ δ)
      + δ ⬝ᵥ (ridgeCurv raw b l2 σ *ᵥ δ) := by
  rw [ridgeLoss_quad, ridgeLoss_quad, sse_add, penScore_eq hl1, ridgeCurv, sub_dotProduct,
    add_mulVec, dotProduct_add, mulVec_add, dotProduct_add, add_dotProduct, add_dotProduct,
    dot_mulVec_comm ridgeMat_symm β δ, dotProduct_comm (ridgeMat l2 σ b *ᵥ β) δ]
  ring

theorem penScore_add (hl1 : l1 ≤ 0) (β δ : Vec ℝ (ncols b p)) :
    penScore linG raw b l1 l2 σ (β + δ)
      = penScore linG raw b l1 l2 σ β - ridgeCurv raw b l2 σ *ᵥ δ := by
  rw [penScore_eq hl1, penScore_eq hl1, lin_score_add, ridgeCurv, add_mulVec, mulVec_add]
  abel

theorem ridgeCurv_symm : (ridgeCurv raw b l2 σ).IsSymm := gram_symm.add ridgeMat_symm

theorem ridgeCurv_nonneg (hw : ∀ i, 0 ≤ totalWt raw i) (x : Vec ℝ (ncols b p)) :
    0 ≤ x ⬝ᵥ (ridgeCurv raw b l2 σ *ᵥ x) := by
  rw [ridgeCurv, add_mulVec, dotProduct_add]
  exact add_nonneg (gram_nonneg hw x) (ridgeMat_nonneg x)

/-- The normal equations of ridge regression. -/
theorem isRidge_iff (hl1 : l1 ≤ 0) (hw : ∀ i, 0 ≤ totalWt raw i) (β : Vec ℝ (ncols b p)) :
    IsRidge raw b l2 σ β ↔ penScore linG raw b l1 l2 σ β = 0 := by
  constructor
  · intro h
    set s := penScore linG raw b l1 l2 σ β with hs
    set q := s ⬝ᵥ (ridgeCurv raw b l2 σ *ᵥ s) with hq
    have hq0 : 0 ≤ q := ridgeCurv_nonneg hw s
    have key : ∀ t : ℝ, 0 ≤ t * t * q - 2 * t * (s ⬝ᵥ s) := by
      intro t
      have := h (β + t • s)
      rw [ridgeLoss_add hl1, dotProduct_smul, mulVec_smul, smul_dotProduct, dotProduct_smul] at this
      simp only [smul_eq_mul, ← hs, ← hq] at this
      nlinarith
    have hss : s ⬝ᵥ s ≤ 0 := by
      by_contra hlt
      push Not at hlt
      have := key ((s ⬝ᵥ s) / (q + 1))
      have hpos : 0 < q + 1 := by linarith
      have e : (s ⬝ᵥ s) / (q + 1) * ((s ⬝ᵥ s) / (q + 1)) * q - 2 * ((s ⬝ᵥ s) / (q + 1)) * (s ⬝ᵥ s)
          = (s ⬝ᵥ s) ^ 2 * (- (q + 2)) / (q + 1) ^ 2 := by field_simp; ring
      rw [e] at this
      have h2 : (s ⬝ᵥ s) ^ 2 * (- (q + 2)) / (q + 1) ^ 2 < 0 :=
        div_neg_of_neg_of_pos (mul_neg_of_pos_of_neg (by positivity) (by linarith)) (by positivity)
      linarith
    exact dotProduct_self_eq_zero.mp (le_antisymm hss (Finset.sum_nonneg fun j _ => mul_self_nonneg _))
  · intro h β'
    have := ridgeLoss_add (raw := raw) (l2 := l2) (σ := σ) hl1 β (β' - β)
    rw [add_sub_cancel, h, zero_dotProduct] at this
    have h2 := ridgeCurv_nonneg (l2 := l2) (σ := σ) hw (β' - β)
    linarith

end loss

/-- The standing assumptions: exact arithmetic, a Linear model without L1 penalty, non-negative
weights, coefficients that are identified (by the data, or by the penalty: then an intercept needs
an observation of positive weight), and the ridge solution. -/
structure RidgeSetting (env : Env ℝ) (raw : Dataset ℝ n p false) (std : Bool) (d : Dataset ℝ n p b)
    (options : FitOptions ℝ (ncols b p)) (βs : Vec ℝ (ncols b p)) : Prop where
  exact : env.Exact
  built : raw.finalize std b = some d
  noL1 : options.l1 ≤ 0
  weights : ∀ i, 0 ≤ totalWt raw i
  ident : IsUnit (gram raw b).det ∨
    (0 < options.l2 ∧ (b = true → ∃ i, 0 < totalWt raw i))
  solution : IsRidge raw b options.l2 (scale d) βs

theorem ridgeCurv_pos (hw : ∀ i, 0 ≤ totalWt raw i) {l2 : ℝ} {σ : Fin p → ℝ} (hσ : ∀ j, 0 < σ j)
    (hid : IsUnit (gram raw b).det ∨ (0 < l2 ∧ (b = true → ∃ i, 0 < totalWt raw i)))
    {x : Vec ℝ (ncols b p)} (hx : x ≠ 0) : 0 < x ⬝ᵥ (ridgeCurv raw b l2 σ *ᵥ x) := by
  rcases hid with h | ⟨h1, h2⟩
  · rw [ridgeCurv, add_mulVec, dotProduct_add]
    exact add_pos_of_pos_of_nonneg (gram_pos hw h hx) (ridgeMat_nonneg x)
  · have := (C30_ridge_posDef (g := linG) (raw := raw) (b := b) (eps := 0) (β := 0) le_rfl h1 hσ hw
      (fun i => by rw [linG_var]; norm_num) (fun hb => by
        obtain ⟨i, hi⟩ := h2 hb
        exact ⟨i, by rw [linG_var, linG_dNat]; linarith⟩)).dotProduct_mulVec_pos hx
    have hstar : star x = x := by ext; simp
    rwa [hstar, newtonMat, lin_fisher, zero_smul, add_zero] at this

theorem isUnit_of_pos {k : ℕ} {G : Matrix (Fin k) (Fin k) ℝ}
    (h : ∀ x, x ≠ 0 → 0 < x ⬝ᵥ (G *ᵥ x)) : IsUnit G.det := by
  rw [isUnit_iff_ne_zero]
  intro h0
  obtain ⟨v, hv, hv0⟩ := exists_mulVec_eq_zero_iff.mpr h0
  have := h v hv
  rw [hv0, dotProduct_zero] at this
  exact lt_irrefl _ this

/-- **C78** (the target).  With non-negative weights and identified coefficients there is exactly one
minimizer of the ridge loss; more features than observations are allowed when `l2 > 0`. -/
theorem C78_solution {l2 : ℝ} {σ : Fin p → ℝ} (hσ : ∀ j, 0 < σ j) (hw : ∀ i, 0 ≤ totalWt raw i)
    (hid : IsUnit (gram raw b).det ∨ (0 < l2 ∧ (b = true → ∃ i, 0 < totalWt raw i))) :
    ∃! βs, IsRidge raw b l2 σ βs := by
  have hu := isUnit_of_pos (G := ridgeCurv raw b l2 σ)
    fun x hx => ridgeCurv_pos (raw := raw) (b := b) (l2 := l2) hw hσ hid hx
  refine ⟨(ridgeCurv raw b l2 σ)⁻¹ *ᵥ penScore linG raw b 0 l2 σ 0, ?_, fun β hβ => ?_⟩
  · refine (isRidge_iff (l1 := 0) le_rfl hw _).mpr ?_
    have := penScore_add (raw := raw) (l2 := l2) (σ := σ) (l1 := 0) le_rfl 0
      ((ridgeCurv raw b l2 σ)⁻¹ *ᵥ penScore linG raw b 0 l2 σ 0)
    rw [zero_add, mulVec_mulVec, mul_nonsing_inv _ hu, one_mulVec, sub_self] at this
    exact this
  · have h1 := (isRidge_iff (l1 := 0) le_rfl hw β).mp hβ
    have := penScore_add (raw := raw) (l2 := l2) (σ := σ) (l1 := 0) le_rfl 0 β
    rw [zero_add, h1, eq_comm, sub_eq_zero] at this
    rw [this, mulVec_mulVec, nonsing_inv_mul _ hu, one_mulVec]

/-- One step of the iteration, on the user's scale. -/
noncomputable def ridgeStep (eps : ℝ) (raw : Dataset ℝ n p false) (b : Bool) (l2 : ℝ)
    (σ : Fin p → ℝ) (βs β : Vec ℝ (ncols b p)) : Vec ℝ (ncols b p) :=
  βs + (ridgeCurv raw b l2 σ + eps • gram raw b)⁻¹ *ᵥ (eps • (gram raw b *ᵥ (β - βs)))

namespace RidgeSetting
variable (h : RidgeSetting env raw std d options βs)
include h

theorem score_eq : penScore linG raw b options.l1 options.l2 (scale d) βs = 0 :=
  (isRidge_iff h.noL1 h.weights βs).mp h.solution

theorem pos {x : Vec ℝ (ncols b p)} (hx : x ≠ 0) :
    0 < x ⬝ᵥ (ridgeCurv raw b options.l2 (scale d) *ᵥ x) :=
  ridgeCurv_pos h.weights (Dataset.scale_pos h.built) h.ident hx

theorem det_step :
    IsUnit (ridgeCurv raw b options.l2 (scale d) + env.eps • gram raw b).det := by
  refine isUnit_of_pos fun x hx => ?_
  rw [add_mulVec, dotProduct_add, smul_mulVec, dotProduct_smul, smul_eq_mul]
  exact add_pos_of_pos_of_nonneg (h.pos hx)
    (mul_nonneg h.exact.eps_nonneg (gram_nonneg h.weights x))

omit h in
theorem newton_eq (β : Vec ℝ (ncols b p)) :
    newtonMat env.eps linG raw b options.l2 (scale d) β
      = ridgeCurv raw b options.l2 (scale d) + env.eps • gram raw b := by
  rw [newtonMat, lin_fisher, ridgeCurv]; abel

theorem step_eq (β : Vec ℝ (ncols b p)) :
    (ridgeCurv raw b options.l2 (scale d) + env.eps • gram raw b)
        *ᵥ (ridgeStep env.eps raw b options.l2 (scale d) βs β - βs)
      = env.eps • (gram raw b *ᵥ (β - βs)) := by
  rw [ridgeStep, add_sub_cancel_left, mulVec_mulVec, mul_nonsing_inv _ h.det_step, one_mulVec]

/-- One exact step. -/
theorem sol {s : Irls ℝ (ncols b p)} (hr : Reg.Same s.reg (getReg options)) :
    s.sol env linG d = .ok (d.transformBeta (ridgeStep env.eps raw b options.l2 (scale d) βs
      (d.inverseTransformBeta s.guess))) := by
  refine sol_eq h.exact (Family.lawfulAdj .linear) h.built h.noL1 hr ?_ ?_
  · change IsUnit (newtonMat env.eps linG raw b options.l2 (scale d) _).det
    rw [newton_eq]; exact h.det_step
  · change newtonMat env.eps linG raw b options.l2 (scale d) _ *ᵥ _
      = penScore linG raw b options.l1 options.l2 (scale d) _
    set β := d.inverseTransformBeta s.guess
    have h1 := penScore_add (raw := raw) (l2 := options.l2) (σ := scale d) h.noL1 βs (β - βs)
    rw [add_sub_cancel, h.score_eq, zero_sub] at h1
    have h2 := h.step_eq β
    rw [newton_eq, h1, ← sub_sub_sub_cancel_right _ _ βs, mulVec_sub, h2, add_mulVec, smul_mulVec]
    abel

/-- The excess of the ridge loss over its minimum. -/
theorem excess (β : Vec ℝ (ncols b p)) : ridgeLoss raw b options.l2 (scale d) β
    = ridgeLoss raw b options.l2 (scale d) βs
      + (β - βs) ⬝ᵥ (ridgeCurv raw b options.l2 (scale d) *ᵥ (β - βs)) := by
  have := ridgeLoss_add (raw := raw) (l2 := options.l2) (σ := scale d) h.noL1 βs (β - βs)
  rw [add_sub_cancel, h.score_eq, zero_dotProduct] at this
  linarith

theorem contracts (β : Vec ℝ (ncols b p)) :
    ridgeLoss raw b options.l2 (scale d) (ridgeStep env.eps raw b options.l2 (scale d) βs β)
        - ridgeLoss raw b options.l2 (scale d) βs
      ≤ contraction env.eps ^ 2
        * (ridgeLoss raw b options.l2 (scale d) β - ridgeLoss raw b options.l2 (scale d) βs) := by
  rw [h.excess β, h.excess (ridgeStep _ _ _ _ _ _ _), add_sub_cancel_left, add_sub_cancel_left]
  have h1 := h.step_eq β
  rw [ridgeCurv, add_mulVec, add_mulVec, smul_mulVec] at h1
  have h2 := ridge_contracts gram_symm ridgeMat_symm (gram_nonneg h.weights) ridgeMat_nonneg
    h.exact.eps_nonneg h1
  rw [← dotProduct_add, ← dotProduct_add, ← add_mulVec, ← add_mulVec] at h2
  have hp : 0 < 1 + env.eps := by linarith [h.exact.eps_nonneg]
  rw [contraction, div_pow, div_mul_eq_mul_div, le_div_iff₀ (by positivity), mul_comm]
  exact h2

theorem improves {β : Vec ℝ (ncols b p)} (hne : β ≠ βs) :
    ridgeLoss raw b options.l2 (scale d) (ridgeStep env.eps raw b options.l2 (scale d) βs β)
      < ridgeLoss raw b options.l2 (scale d) β := by
  have h1 := h.contracts β
  have h2 := h.pos (sub_ne_zero.mpr hne)
  have h3 := h.excess β
  have hc0 := contraction_nonneg h.exact
  have hc1 := contraction_lt_one h.exact
  have : contraction env.eps ^ 2 < 1 := by nlinarith
  nlinarith

omit h in
theorem step_self : ridgeStep env.eps raw b options.l2 (scale d) βs βs = βs := by
  rw [ridgeStep, sub_self, mulVec_zero, smul_zero, mulVec_zero, add_zero]

theorem step_ext (β : Vec ℝ (ncols b p)) :
    d.inverseTransformBeta (d.transformBeta β) = β :=
  (Dataset.finalize_wf h.built).inverseTransformBeta_transformBeta β

/-- What one iterator call does: stop at the solution (or when marked done), otherwise take the full
step. -/
theorem next {initial : Vec ℝ (ncols b p)} {s : Irls ℝ (ncols b p)}
    (hi : Irls.Inv linG d options initial s) (hdone : s.done = false) :
    (d.inverseTransformBeta s.guess = βs ∧
      s.nextRaw env linG d options.tol = .stop s.prep) ∨
    (d.inverseTransformBeta s.guess ≠ βs ∧
      ∃ v l, d.inverseTransformBeta v = ridgeStep env.eps raw b options.l2 (scale d) βs
          (d.inverseTransformBeta s.guess) ∧
        s.nextRaw env linG d options.tol
          = .cand { s.prep with done := s.small linG d options.tol v } v l) := by
  have hwf := Dataset.finalize_wf h.built
  have hs := h.sol (s := s) hi.same
  obtain ⟨t1, t2, t3⟩ := hi.same.noL1 (getReg_noL1 h.noL1) s.guess
  have ht : (s.reg.prepare s.guess).terminateOk options.tol = true := by rw [t1]; exact t3 _
  by_cases hβ : d.inverseTransformBeta s.guess = βs
  · refine Or.inl ⟨hβ, Irls.nextRaw_equal hdone hs ht ?_⟩
    rw [hβ, step_self, ← hβ, hwf.transformBeta_inverseTransformBeta]
    simp [vecEq]
  · refine Or.inr ⟨hβ, _, _, h.step_ext _, Irls.nextRaw_full hdone hs ht ?_ ?_⟩
    · rw [Bool.eq_false_iff]
      intro heq
      simp only [vecEq, List.all_eq_true, List.mem_finRange, forall_const, eq_real] at heq
      have h1 : d.transformBeta (ridgeStep env.eps raw b options.l2 (scale d) βs
          (d.inverseTransformBeta s.guess)) = s.guess := funext heq
      have h2 := congrArg d.inverseTransformBeta h1
      rw [h.step_ext] at h2
      refine (h.improves hβ).ne ?_
      rw [h2]
    · rw [gt_real, nextObj_ext h.built h.noL1 hi, lastObj_ext h.built h.noL1 hi]
      change penLogLik linG raw b _ _ _ _ < penLogLik linG raw b _ _ _ _
      rw [lin_penLogLik h.noL1, lin_penLogLik h.noL1, h.step_ext]
      have := h.improves hβ
      linarith

end RidgeSetting

/-- Bound along a list whose excess contracts at every step. -/
theorem chain_excess {α : Type*} {φ : α → ℝ} {c r : ℝ} (hr : 0 ≤ r) (x0 : α) (l : List α)
    (h : (x0 :: l).IsChain fun x x' => φ x' - c ≤ r * (φ x - c)) :
    ∀ i (hi : i < l.length), φ l[i] - c ≤ r ^ (i + 1) * (φ x0 - c) := by
  induction l generalizing x0 with
  | nil => intro i hi; simp at hi
  | cons a l ih =>
    rw [List.isChain_cons_cons] at h
    obtain ⟨h1, h2⟩ := h
    intro i hi
    cases i with
    | zero => simpa using h1
    | succ i =>
      have := ih a h2 i (by simpa using hi)
      simp only [List.getElem_cons_succ]
      refine this.trans ?_
      rw [pow_succ _ (i + 1), mul_assoc]
      exact mul_le_mul_of_nonneg_left h1 (pow_nonneg hr _)

/-- **C78** (rate).  A Linear fit with or without an L2 penalty (exact arithmetic, no L1 penalty,
identified coefficients), from any start: the excess of the ridge loss over its minimum is multiplied
by at most `(ε/(1+ε))²` at every recorded step; the same holds for the result. -/
theorem C78_rate (h : RidgeSetting env raw std d options βs) {f : Fit ℝ n p b}
    (hf : regression env Family.linear.glm d options = .ok f) :
    let β0 := d.inverseTransformBeta (initialGuess env Family.linear.glm d options)
    let loss := ridgeLoss raw b options.l2 (scale d)
    (∀ k (hk : k < f.history.length), loss (f.history[k]).guess - loss βs
      ≤ ((env.eps / (1 + env.eps)) ^ 2) ^ (k + 1) * (loss β0 - loss βs)) ∧
    loss f.result - loss βs
      ≤ ((env.eps / (1 + env.eps)) ^ 2) ^ f.nIter * (loss β0 - loss βs) := by
  intro β0 loss
  obtain ⟨hist, hh, hc⟩ := regression_chain hf
    (R := fun γ v => d.inverseTransformBeta v = ridgeStep env.eps raw b options.l2 (scale d) βs
      (d.inverseTransformBeta γ))
    (by
      intro s s' v l hi hn
      by_cases hdone : s.done = true
      · rw [Irls.nextRaw_done hdone] at hn; simp at hn
      · rcases h.next hi (by simpa using hdone) with ⟨-, h2⟩ | ⟨-, v', l', h2, h3⟩
        · exact absurd (hn.symm.trans h2) (by simp)
        · have hn := h3.symm.trans hn
          simp only [RawNext.cand.injEq] at hn
          rw [← hn.2.1]; exact h2)
  have e : β0 :: f.history.map IrlsStep.guess
      = (initialGuess env Family.linear.glm d options :: hist.map IrlsStep.guess).map
        d.inverseTransformBeta := by
    rw [hh]; simp [Function.comp_def, β0]
  have hchain : (β0 :: f.history.map IrlsStep.guess).IsChain fun β β' =>
      loss β' - loss βs ≤ contraction env.eps ^ 2 * (loss β - loss βs) := by
    rw [e, List.isChain_map]
    refine hc.imp fun x y hxy => ?_
    rw [hxy]
    exact h.contracts _
  have hcl := chain_excess (sq_nonneg _) β0 _ hchain
  have h1 : ∀ k (hk : k < f.history.length), loss (f.history[k]).guess - loss βs
      ≤ ((env.eps / (1 + env.eps)) ^ 2) ^ (k + 1) * (loss β0 - loss βs) := by
    intro k hk
    have := hcl k (by simpa using hk)
    simpa [contraction] using this
  refine ⟨h1, ?_⟩
  have hlen := (C24_ok hf).1
  by_cases hne : f.history = []
  · rw [hlen, hne]
    simp only [List.length_nil, pow_zero, one_mul]
    rcases C25_best_of_history hf with ⟨-, -, h3, -⟩ | ⟨pre, opt, post, h3, -⟩
    · rw [h3]
    · rw [hne] at h3; simp at h3
  · have := (C26_monotone h.noL1 hf).2.1 hne
    have hpos : 0 < f.history.length := List.length_pos_iff.mpr hne
    rw [List.getLast?_eq_getElem?, List.getElem?_eq_getElem (by omega)] at this
    have h3 := h1 (f.history.length - 1) (by omega)
    simp only [Option.some.injEq] at this
    rw [this] at h3
    rw [hlen]
    have e2 : f.history.length - 1 + 1 = f.history.length := by omega
    rw [e2] at h3
    exact h3

/-- **C78** (no failure).  Such a fit returns either a fit or `MaxIter`, for any budget: it never
fails in linear algebra, even with more features than observations. -/
theorem C78_only_maxIter (h : RidgeSetting env raw std d options βs) :
    (∃ f, regression env Family.linear.glm d options = .ok f) ∨
      ∃ m hist, regression env Family.linear.glm d options = .err (.maxIter m hist) := by
  obtain ⟨-, -, h3, h4, h5⟩ := fitLoop_inv (env := env) (g := linG) (data := d) (options := options)
    (P := fun _ => True) (fun _ _ _ _ _ _ _ => trivial) _ none
    (Irls.Inv.new (initial := initialGuess env linG d options)) trivial
  rw [regression_eq]
  have key : ∀ s s', Irls.Inv linG d options (initialGuess env linG d options) s →
      s.nextRaw env linG d options.tol ≠ .linalg s' ∧
      s.nextRaw env linG d options.tol ≠ .diverge s' := by
    intro s s' hi
    by_cases hdone : s.done = true
    · rw [Irls.nextRaw_done hdone]; simp
    · rcases h.next hi (by simpa using hdone) with ⟨-, h2⟩ | ⟨-, v', l', h2, h3⟩
      · rw [h2]; simp
      · rw [h3]; simp
  split
  · exact Or.inl ⟨_, rfl⟩
  · rename_i e hr
    cases e with
    | linalg =>
      obtain ⟨s0, s', hi, -, hn⟩ := h3 hr
      exact absurd hn (key s0 s' hi).1
    | maxIter m hist => exact Or.inr ⟨m, hist, rfl⟩
  · rename_i hr; exact absurd hr h5
  · rename_i hr
    obtain ⟨s0, s', hi, -, hn⟩ := h4 hr
    exact absurd hn (key s0 s' hi).2

open Filter Topology in
/-- **C78** (convergence).  With a positive tolerance there is a budget from which on such a fit
succeeds, from any start and for any machine epsilon. -/
theorem C78_converges (h : RidgeSetting env raw std d options βs) (htol : 0 < options.tol)
    (hn : 0 < n) :
    ∃ N, ∀ m, N ≤ m →
      ∃ f, regression env Family.linear.glm d { options with maxIter := m } = .ok f := by
  set β0 := d.inverseTransformBeta (initialGuess env linG d options) with hβ0
  set r := contraction env.eps with hr
  set loss := ridgeLoss raw b options.l2 (scale d) with hloss
  have hwf := Dataset.finalize_wf h.built
  have hr0 : 0 ≤ r := contraction_nonneg h.exact
  have hr1 : r < 1 := contraction_lt_one h.exact
  let step := ridgeStep env.eps raw b options.l2 (scale d) βs
  let z : ℕ → Vec ℝ (ncols b p) := fun k => step^[k] β0
  have hex : ∀ k, loss (z k) - loss βs ≤ (r ^ 2) ^ k * (loss β0 - loss βs) := by
    intro k
    induction k with
    | zero => simp [z]
    | succ k ih =>
      have e : z (k + 1) = step (z k) := Function.iterate_succ_apply' _ _ _
      rw [e, pow_succ', mul_assoc]
      exact (h.contracts (z k)).trans (mul_le_mul_of_nonneg_left ih (sq_nonneg _))
  have hge : ∀ k, 0 ≤ loss (z k) - loss βs := fun k => sub_nonneg.mpr (h.solution _)
  have hlim : Tendsto (fun k => loss (z k) - loss βs) atTop (𝓝 0) := by
    have h1 : Tendsto (fun k : ℕ => (r ^ 2) ^ k * (loss β0 - loss βs)) atTop (𝓝 0) := by
      have := (tendsto_pow_atTop_nhds_zero_of_lt_one (sq_nonneg r)
        (by nlinarith : r ^ 2 < 1)).mul_const (loss β0 - loss βs)
      simpa using this
    exact squeeze_zero hge hex h1
  have hz : Tendsto z atTop (𝓝 βs) := by
    rw [tendsto_pi_nhds]
    intro j
    obtain ⟨c, hc0, hc⟩ := sq_le_quad (ridgeCurv_symm (raw := raw) (b := b) (l2 := options.l2)
      (σ := scale d)) (ridgeCurv_nonneg h.weights) (isUnit_of_pos fun x hx => h.pos hx) j
    have h1 : Tendsto (fun k => (z k j - βs j) ^ 2) atTop (𝓝 0) := by
      refine squeeze_zero (fun k => sq_nonneg _) (fun k => ?_) (by simpa using hlim.const_mul c)
      have h2 := hc (z k - βs)
      have h3 := h.excess (z k)
      rw [Pi.sub_apply] at h2
      refine h2.trans (mul_le_mul_of_nonneg_left ?_ hc0)
      linarith
    have h2 : Tendsto (fun k => |z k j - βs j|) atTop (𝓝 0) := by
      have := h1.sqrt
      simpa only [Real.sqrt_sq_eq_abs, Real.sqrt_zero] using this
    have h3 := (tendsto_zero_iff_abs_tendsto_zero _).mpr h2
    have := h3.add_const (βs j)
    simpa using this
  have hzs : Tendsto (fun k => z (k + 1)) atTop (𝓝 βs) := hz.comp (tendsto_add_atTop_nat 1)
  have hT : Continuous d.transformBeta := by
    have : d.transformBeta = fun β => d.tmat *ᵥ β := funext fun β => d.transformBeta_eq β
    rw [this]
    exact continuous_const.matrix_mulVec continuous_id
  have e1 : ∀ᶠ k in atTop, |loss (z k) / 2 - loss (z (k + 1)) / 2| ≤ options.tol * n := by
    have h1 := hlim.comp (tendsto_add_atTop_nat 1)
    have h3 := ((hlim.sub h1).div_const 2).abs
    rw [sub_self, zero_div, abs_zero] at h3
    have hpos : 0 < options.tol * n := mul_pos htol (by exact_mod_cast hn)
    filter_upwards [h3.eventually (gt_mem_nhds hpos)] with k hk
    refine le_of_eq_of_le ?_ hk.le
    simp only [Function.comp_apply]
    congr 1
    ring
  have e2 : ∀ᶠ k in atTop, ∑ j, (d.transformBeta (z (k + 1)) j - d.transformBeta (z k) j)
      * (d.transformBeta (z (k + 1)) j - d.transformBeta (z k) j)
      ≤ (ncols b p : ℝ) * options.tol * options.tol := by
    rcases Nat.eq_zero_or_pos (ncols b p) with h0 | hpos
    · have : IsEmpty (Fin (ncols b p)) := by rw [h0]; infer_instance
      refine Eventually.of_forall fun k => ?_
      simp [h0]
    · have h1 : ∀ j, Tendsto (fun k => d.transformBeta (z (k + 1)) j - d.transformBeta (z k) j)
          atTop (𝓝 0) := by
        intro j
        have h1 := ((continuous_apply j).comp hT).tendsto βs |>.comp hzs
        have h2 := ((continuous_apply j).comp hT).tendsto βs |>.comp hz
        have := h1.sub h2
        rw [sub_self] at this
        exact this
      have h2 := tendsto_finsetSum (Finset.univ : Finset (Fin (ncols b p)))
        fun j _ => (h1 j).mul (h1 j)
      simp only [mul_zero, Finset.sum_const_zero] at h2
      have hb : 0 < (ncols b p : ℝ) * options.tol * options.tol := by
        have : (0 : ℝ) < ncols b p := by exact_mod_cast hpos
        positivity
      filter_upwards [h2.eventually (gt_mem_nhds hb)] with k hk
      exact hk.le
  obtain ⟨N, hN⟩ := eventually_atTop.mp (e1.and e2)
  refine ⟨N + 1, fun m hm => ?_⟩
  set o : FitOptions ℝ (ncols b p) := { options with maxIter := m } with ho
  have ho' : RidgeSetting env raw std d o βs :=
    ⟨h.exact, h.built, h.noL1, h.weights, h.ident, h.solution⟩
  refine regression_total
    (P := fun s => d.inverseTransformBeta s.guess = z s.history.length ∧
      (s.history.length ≤ N ∨ s.done = true)) ⟨rfl, Or.inl (Nat.zero_le _)⟩ ?_ ?_ ?_ ?_
  · intro s s' v l hi hp hn
    by_cases hdone : s.done = true
    · rw [Irls.nextRaw_done hdone] at hn; simp at hn
    · rcases ho'.next hi (by simpa using hdone) with ⟨-, h2⟩ | ⟨-, v', l', h2, h3⟩
      · exact absurd (hn.symm.trans h2) (by simp)
      · have hn := h3.symm.trans hn
        simp only [RawNext.cand.injEq] at hn
        obtain ⟨rfl, rfl, rfl⟩ := hn
        have hv : d.inverseTransformBeta v' = z (s.history.length + 1) := by
          rw [h2, hp.1]
          exact (Function.iterate_succ_apply' _ _ _).symm
        refine ⟨?_, ?_⟩
        · simp only [Irls.candState, Irls.prep, List.length_append, List.length_singleton]
          exact hv
        · simp only [Irls.candState, Irls.prep, List.length_append, List.length_singleton]
          rcases Nat.lt_or_ge s.history.length N with hlt | hge
          · exact Or.inl hlt
          · right
            obtain ⟨a1, a2⟩ := hN _ hge
            have hv' : v' = d.transformBeta (z (s.history.length + 1)) := by
              rw [← hv, hwf.transformBeta_inverseTransformBeta]
            have hg : s.guess = d.transformBeta (z s.history.length) := by
              rw [← hp.1, hwf.transformBeta_inverseTransformBeta]
            rw [Irls.small, Bool.and_eq_true]
            constructor
            · simp only [smallDelta, le_real, abs_real, ofNat_real]
              rw [nextObj_ext h.built ho'.noL1 hi, lastObj_ext h.built ho'.noL1 hi, hv, hp.1,
                lin_penLogLik ho'.noL1, lin_penLogLik ho'.noL1]
              refine le_of_eq_of_le ?_ a1
              congr 1
              change _ - loss _ / 2 - (_ - loss _ / 2) = _
              ring
            · simp only [smallDeltaVec, le_real, vsum_real, vsub, ofNat_real]
              rw [hv', hg]
              refine a2.trans ?_
              have hsq : 0 ≤ ∑ j, d.transformBeta (z (s.history.length + 1)) j
                  * d.transformBeta (z (s.history.length + 1)) j :=
                Finset.sum_nonneg fun j _ => mul_self_nonneg _
              have : options.tol * options.tol = o.tol * o.tol := rfl
              nlinarith [mul_self_nonneg options.tol, mul_nonneg hsq (mul_self_nonneg options.tol)]
  · intro s s' hi _
    by_cases hdone : s.done = true
    · rw [Irls.nextRaw_done hdone]; simp
    · rcases ho'.next hi (by simpa using hdone) with ⟨-, h2⟩ | ⟨-, v', l', h2, h3⟩
      · exact fun hx => by simpa using h2.symm.trans hx
      · exact fun hx => by simpa using h3.symm.trans hx
  · intro s s' hi _
    by_cases hdone : s.done = true
    · rw [Irls.nextRaw_done hdone]; simp
    · rcases ho'.next hi (by simpa using hdone) with ⟨-, h2⟩ | ⟨-, v', l', h2, h3⟩
      · exact fun hx => by simpa using h2.symm.trans hx
      · exact fun hx => by simpa using h3.symm.trans hx
  · intro s s' v l hi hp hn hlen
    rcases hp.2 with h1 | h1
    · simp only [ho] at hlen; omega
    · rw [Irls.nextRaw_done h1] at hn; simp at hn

/-- **C78** (exactness).  With machine epsilon zero and a budget of at least one step, such a fit
succeeds from any start, after at most one step, and returns the ridge solution. -/
theorem C78_exact_ridge (h : RidgeSetting env raw std d options βs) (heps : env.eps = 0)
    (hbud : 1 ≤ options.maxIter) :
    ∃ f, regression env Family.linear.glm d options = .ok f ∧ f.result = βs ∧ f.nIter ≤ 1 := by
  have hstep : ∀ β, ridgeStep env.eps raw b options.l2 (scale d) βs β = βs := fun β => by
    rw [ridgeStep, heps, zero_smul, zero_smul, mulVec_zero, add_zero]
  have hok : ∃ f, regression env linG d options = .ok f := by
    refine regression_total
      (P := fun s => s.history = [] ∨ d.inverseTransformBeta s.guess = βs) (Or.inl rfl) ?_ ?_ ?_ ?_
    · intro s s' v l hi hp hn
      by_cases hdone : s.done = true
      · rw [Irls.nextRaw_done hdone] at hn; simp at hn
      · rcases h.next hi (by simpa using hdone) with ⟨-, h2⟩ | ⟨-, v', l', h2, h3⟩
        · rw [h2] at hn; simp at hn
        · rw [h3] at hn
          simp only [RawNext.cand.injEq] at hn
          rw [hstep] at h2
          refine Or.inr ?_
          rw [← hn.2.1]
          exact h2
    · intro s s' hi _
      by_cases hdone : s.done = true
      · rw [Irls.nextRaw_done hdone]; simp
      · rcases h.next hi (by simpa using hdone) with ⟨-, h2⟩ | ⟨-, v', l', h2, h3⟩
        · rw [h2]; simp
        · rw [h3]; simp
    · intro s s' hi _
      by_cases hdone : s.done = true
      · rw [Irls.nextRaw_done hdone]; simp
      · rcases h.next hi (by simpa using hdone) with ⟨-, h2⟩ | ⟨-, v', l', h2, h3⟩
        · rw [h2]; simp
        · rw [h3]; simp
    · intro s s' v l hi hp hn hlen
      rcases hp with hp | hp
      · rw [hp] at hlen; simp only [List.length_nil] at hlen; omega
      · by_cases hdone : s.done = true
        · rw [Irls.nextRaw_done hdone] at hn; simp at hn
        · rcases h.next hi (by simpa using hdone) with ⟨-, h2⟩ | ⟨h2, -⟩
          · rw [h2] at hn; simp at hn
          · exact h2 hp
  obtain ⟨f, hf⟩ := hok
  have huniq : ∀ β, ridgeLoss raw b options.l2 (scale d) β
      ≤ ridgeLoss raw b options.l2 (scale d) βs → β = βs := fun β hβ => by
    by_contra hne
    have h1 := h.pos (sub_ne_zero.mpr hne)
    have h2 := h.excess β
    linarith
  have hg := C78_rate h hf
  dsimp only at hg
  rw [heps] at hg
  simp only [zero_div, ne_eq, OfNat.ofNat_ne_zero, not_false_eq_true, zero_pow] at hg
  have hpt : ∀ k (hk : k < f.history.length), (f.history[k]).guess = βs := fun k hk => by
    have := hg.1 k hk
    rw [zero_pow (by omega), zero_mul] at this
    exact huniq _ (by linarith)
  have hlen := (C24_ok hf).1
  have hchain : f.nIter ≤ 1 := by
    by_contra hlt
    push Not at hlt
    have h0 := hpt 0 (by omega)
    have h1 := hpt 1 (by omega)
    have hmono := (C26_monotone h.noL1 hf).1
    rw [List.pairwise_cons] at hmono
    have hp := (List.pairwise_iff_getElem.mp hmono.2) 0 1 (by simpa using by omega)
      (by simpa using by omega) (by omega)
    simp only [List.getElem_map] at hp
    have hr := (C27_recorded_likelihoods hf).1
    obtain ⟨g0, e0, l0⟩ := hr _ (List.getElem_mem (by omega : 0 < f.history.length))
    obtain ⟨g1, e1, l1⟩ := hr _ (List.getElem_mem (by omega : 1 < f.history.length))
    have : g0 = g1 := by
      have hwf := Dataset.finalize_wf h.built
      rw [← hwf.transformBeta_inverseTransformBeta g0, ← hwf.transformBeta_inverseTransformBeta g1,
        ← e0, ← e1, h0, h1]
    rw [l0, l1, this] at hp
    exact lt_irrefl _ hp
  refine ⟨f, hf, ?_, hchain⟩
  rcases Nat.lt_or_ge 0 f.nIter with hpos | hzero
  · have := hg.2
    rw [zero_pow (by omega), zero_mul] at this
    exact huniq _ (by linarith)
  · have hn0 : f.nIter = 0 := by omega
    obtain ⟨s0, s', hi, hp, hn, hh⟩ := regression_inv hf
      (P := fun s => s.history = [] → s.done = false) (fun _ => rfl) (by
        intro s s' v l _ _ _ hx
        simp [Irls.candState] at hx)
    have hfnil : f.history = [] := List.length_eq_zero_iff.mp (by omega)
    have hnil : s0.history = [] := by
      rw [hfnil] at hh
      exact (List.map_eq_nil_iff.mp hh.symm)
    have hguess := hi.guess
    rw [hnil] at hguess
    simp only [List.getLast?_nil, Option.map_none, Option.getD_none] at hguess
    have hres : f.result = d.inverseTransformBeta s0.guess := by
      rw [hguess]
      rcases C25_best_of_history hf with ⟨-, -, h3, -⟩ | ⟨pre, opt, post, h3, -⟩
      · exact h3
      · rw [hfnil] at h3; simp at h3
    rw [hres]
    rcases h.next hi (hp hnil) with ⟨h2, -⟩ | ⟨-, v', l', h2, h3⟩
    · exact h2
    · exact absurd (hn.symm.trans h3) (by simp)

/-- One observation of two features: the data do not identify the coefficients. -/
noncomputable def exWide : Dataset ℝ 1 2 false where
  y := fun _ => 3
  x := fun _ _ => 1
  linearOffset := none
  weights := none
  freqs := none
  standardizer := none

theorem exWide_loss (σ : Fin 2 → ℝ) (β : Vec ℝ 2) : ridgeLoss exWide false 1 σ β
    = (3 - (β 0 + β 1)) ^ 2 + ((σ 0 * β 0) ^ 2 + (σ 1 * β 1) ^ 2) := by
  simp [ridgeLoss, sse, totalWt, freq, varWt, linPred, offset, design, exWide, slopes,
    Fin.sum_univ_two]

/-- With `l2 = 1` the two features share the effect; any machine epsilon, start and budget. -/
theorem exRidgeSetting (eps : ℝ) (heps : 0 ≤ eps) (fuel m : ℕ)
    (init : Option (Vec ℝ (ncols false 2))) :
    ∃ d, RidgeSetting (exactEnv eps fuel) exWide false d (exOpts 0 1 init m) ![1, 1] := by
  refine ⟨_, exactEnv_exact heps fuel, rfl, le_rfl, fun i => ?_,
    Or.inr ⟨one_pos, fun h => absurd h (by simp)⟩, fun β' => ?_⟩
  · simp [totalWt, freq, varWt, exWide]
  · change ridgeLoss exWide false 1 _ _ ≤ ridgeLoss exWide false 1 _ _
    rw [exWide_loss, exWide_loss]
    simp [scale]
    nlinarith [sq_nonneg (β' (0 : Fin 2) - β' (1 : Fin 2)),
      sq_nonneg (β' (0 : Fin 2) + β' (1 : Fin 2) - 2)]

example (init : Option (Vec ℝ (ncols false 2))) :
    ∃ d f, exWide.finalize false false = some d ∧
      regression (exactEnv 0 0) Family.linear.glm d (exOpts 0 1 init 1) = .ok f ∧
      f.result = ![1, 1] := by
  obtain ⟨d, h⟩ := exRidgeSetting 0 le_rfl 0 1 init
  obtain ⟨f, h1, h2, -⟩ := C78_exact_ridge h rfl le_rfl
  exact ⟨d, f, h.built, h1, h2⟩

example (init : Option (Vec ℝ (ncols false 2))) :
    ∃ (d : Dataset ℝ 1 2 false) (o : FitOptions ℝ (ncols false 2)) (f : Fit ℝ 1 2 false),
      RidgeSetting (exactEnv (1 / 2) 0) exWide false d o ![1, 1] ∧
      regression (exactEnv (1 / 2) 0) Family.linear.glm d o = .ok f := by
  obtain ⟨d, h⟩ := exRidgeSetting (1 / 2) (by norm_num) 0 0 init
  obtain ⟨N, hN⟩ := C78_converges h (by norm_num [exOpts]) (by norm_num)
  obtain ⟨f, hf⟩ := hN N le_rfl
  exact ⟨d, { exOpts 0 1 init 0 with maxIter := N }, f,
    ⟨h.exact, h.built, h.noL1, h.weights, h.ident, h.solution⟩, hf⟩

/-- The setting is met by the standardized data set with an intercept, for any responses. -/
example (y : Vec ℝ 3) (eps : ℝ) (heps : 0 ≤ eps) (l2 : ℝ) : ∃ d βs,
    RidgeSetting (b := true) (exactEnv eps 0) (exRaw y) true d (exOpts 0 l2 none 5) βs := by
  obtain ⟨d, hd⟩ := exRaw_finalize y true true
  have hw : ∀ i, 0 ≤ totalWt (exRaw y) i := fun i => (exRaw_totalWt_pos y i).le
  obtain ⟨βs, h, -⟩ := C78_solution (raw := exRaw y) (b := true) (l2 := l2)
    (Dataset.scale_pos hd) hw (Or.inl (exRaw_gram_det y))
  exact ⟨d, βs, exactEnv_exact heps 0, hd, le_rfl, hw, Or.inl (exRaw_gram_det y), h⟩

end GLM
