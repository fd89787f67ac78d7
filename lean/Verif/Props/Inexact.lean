/-
  C100: Linear fits are as accurate as the linear solver they use.
-/
import Verif.Props.RidgeLinear
import Verif.Spec.Inexact

namespace GLM
open Spec Matrix
variable {n p : ℕ} {b : Bool} {env : Env ℝ} {raw : Dataset ℝ n p false} {std : Bool}
  {d : Dataset ℝ n p b} {options : FitOptions ℝ (ncols b p)} {βs : Vec ℝ (ncols b p)}

section general
variable {g : Glm ℝ} {initial : Vec ℝ (ncols b p)} {s s' : Irls ℝ (ncols b p)}

/-- Whatever an iterator call does next, it is at least as good as the answer of the solver. -/
theorem nextRaw_no_worse (hd : raw.finalize std b = some d) (hl1 : options.l1 ≤ 0)
    (hi : Irls.Inv g d options initial s) (hdone : s.done = false) :
    (∀ v l, s.nextRaw env g d options.tol = .cand s' v l → ∃ c, s.sol env g d = .ok c ∧
      penLogLik g raw b options.l1 options.l2 (scale d) (d.inverseTransformBeta c)
        ≤ penLogLik g raw b options.l1 options.l2 (scale d) (d.inverseTransformBeta v)) ∧
    (s.nextRaw env g d options.tol = .stop s' → ∃ c, s.sol env g d = .ok c ∧
      penLogLik g raw b options.l1 options.l2 (scale d) (d.inverseTransformBeta c)
        ≤ penLogLik g raw b options.l1 options.l2 (scale d) (d.inverseTransformBeta s.guess)) := by
  obtain ⟨t1, t2, t3⟩ := hi.same.noL1 (getReg_noL1 hl1) s.guess
  have hnot : ∀ c, Scalar.gt (s.nextObj g d c) s.lastObj = false →
      penLogLik g raw b options.l1 options.l2 (scale d) (d.inverseTransformBeta c)
        ≤ penLogLik g raw b options.l1 options.l2 (scale d) (d.inverseTransformBeta s.guess) := by
    intro c hc
    rw [Bool.eq_false_iff, ne_eq, gt_real, not_lt, nextObj_ext hd hl1 hi, lastObj_ext hd hl1 hi]
      at hc
    exact hc
  constructor
  · intro v l h
    have himp := nextRaw_improves hl1 hi h
    have hc := s.nextRaw_case env g d options.tol
    rw [h] at hc
    generalize hr : (RawNext.cand s' v l : RawNext ℝ (ncols b p)) = r at hc
    cases hc <;> simp only [RawNext.cand.injEq, reduceCtorEq] at hr
    case admm ht => rw [t1, t3] at ht; simp at ht
    case full v' hs ht he hg =>
      obtain ⟨-, rfl, rfl⟩ := hr
      exact ⟨_, hs, le_rfl⟩
    case scaled v' hs ht he hg m hm h0 =>
      obtain ⟨-, rfl, rfl⟩ := hr
      refine ⟨_, hs, (hnot _ hg).trans ?_⟩
      rw [objective_ext hd, objective_ext hd] at himp
      exact himp.le
  · intro h
    have hc := s.nextRaw_case env g d options.tol
    rw [h] at hc
    generalize hr : (RawNext.stop s' : RawNext ℝ (ncols b p)) = r at hc
    cases hc <;> simp only [RawNext.stop.injEq, reduceCtorEq] at hr
    case done h1 => rw [hdone] at h1; simp at h1
    case equal v' hs ht he =>
      refine ⟨_, hs, le_of_eq ?_⟩
      simp only [vecEq, List.all_eq_true, List.mem_finRange, forall_const, eq_real] at he
      rw [(funext he : v' = s.guess)]
    case zero v' hs ht he hg m hm h0 => exact ⟨_, hs, hnot _ hg⟩

/-- The result of a fit is the guess of the state in which it stopped. -/
theorem result_eq_guess (hl1 : options.l1 ≤ 0) {f : Fit ℝ n p b}
    (h : regression env g d options = .ok f)
    (hi : Irls.Inv g d options (initialGuess env g d options) s)
    (hh : f.history = s.history.map fun st =>
      { guess := d.inverseTransformBeta st.guess, like := st.like }) :
    f.result = d.inverseTransformBeta s.guess := by
  have h4 := hi.guess
  by_cases hne : s.history = []
  · rw [hne] at h4 hh
    simp only [List.getLast?_nil, Option.map_none, Option.getD_none] at h4
    rcases C25_best_of_history h with ⟨-, -, h3, -⟩ | ⟨pre, opt, post, h3, -⟩
    · rw [h3, h4]
    · rw [hh] at h3; simp at h3
  · have hne' : f.history ≠ [] := by rw [hh]; simpa using hne
    have h3 := (C26_monotone hl1 h).2.1 hne'
    rw [hh, List.getLast?_map] at h3
    obtain ⟨a, ha, ha'⟩ := Option.map_eq_some_iff.mp h3
    rw [ha] at h4
    simp only [Option.map_some, Option.getD_some] at h4
    have h5 := congrArg IrlsStep.guess ha'
    dsimp only at h5
    rw [h4, h5]

/-- The result of a fit is at least as good as the first answer of the solver, whatever that is. -/
theorem regression_no_worse (hd : raw.finalize std b = some d) (hl1 : options.l1 ≤ 0)
    {f : Fit ℝ n p b} (h : regression env g d options = .ok f) :
    ∃ c, (Irls.new g d (initialGuess env g d options) options).sol env g d = .ok c ∧
      penLogLik g raw b options.l1 options.l2 (scale d) (d.inverseTransformBeta c)
        ≤ penLogLik g raw b options.l1 options.l2 (scale d) f.result := by
  set s1 := Irls.new g d (initialGuess env g d options) options with hs1
  obtain ⟨s0, s', hi, hp, hn, hh⟩ := regression_inv h
    (P := fun s => s = s1 ∨ (s.history ≠ [] ∧ ∃ c, s1.sol env g d = .ok c ∧
      penLogLik g raw b options.l1 options.l2 (scale d) (d.inverseTransformBeta c)
        ≤ penLogLik g raw b options.l1 options.l2 (scale d) (d.inverseTransformBeta s.guess)))
    (Or.inl rfl) (by
      intro s s' v l hi hp hn
      refine Or.inr ⟨by simp [Irls.candState], ?_⟩
      rcases hp with rfl | ⟨-, c, h1, h2⟩
      · exact (nextRaw_no_worse (s' := s') hd hl1 hi rfl).1 v l hn
      · refine ⟨c, h1, h2.trans ?_⟩
        have := nextRaw_improves hl1 hi hn
        rw [objective_ext hd, objective_ext hd] at this
        exact this.le)
  rw [result_eq_guess hl1 h hi hh]
  rcases hp with rfl | ⟨-, h1⟩
  · exact (nextRaw_no_worse (s' := s') hd hl1 hi rfl).2 hn
  · exact h1

end general

/-- Triangle inequality for a positive semidefinite form. -/
theorem sqrt_quad_add {k : ℕ} {G : Matrix (Fin k) (Fin k) ℝ} (hG : G.IsSymm)
    (pG : ∀ x, 0 ≤ x ⬝ᵥ (G *ᵥ x)) (x y : Fin k → ℝ) :
    √((x + y) ⬝ᵥ (G *ᵥ (x + y))) ≤ √(x ⬝ᵥ (G *ᵥ x)) + √(y ⬝ᵥ (G *ᵥ y)) := by
  have key : ∀ t : ℝ, 0 ≤ (y ⬝ᵥ (G *ᵥ y)) * (t * t) + (2 * (x ⬝ᵥ (G *ᵥ y))) * t
      + x ⬝ᵥ (G *ᵥ x) := by
    intro t
    have := pG (x + t • y)
    simp only [mulVec_add, mulVec_smul, dotProduct_add, add_dotProduct, dotProduct_smul,
      smul_dotProduct, smul_eq_mul] at this
    rw [dot_mulVec_comm hG y x] at this
    linarith
  have hdis := discrim_le_zero key
  rw [discrim] at hdis
  have h1 : x ⬝ᵥ (G *ᵥ y) ≤ √(x ⬝ᵥ (G *ᵥ x)) * √(y ⬝ᵥ (G *ᵥ y)) := by
    rw [← Real.sqrt_mul (pG x)]
    exact Real.le_sqrt_of_sq_le (by nlinarith)
  refine Real.sqrt_le_iff.mpr ⟨by positivity, ?_⟩
  simp only [mulVec_add, dotProduct_add, add_dotProduct]
  rw [dot_mulVec_comm hG y x, add_sq, Real.sq_sqrt (pG x), Real.sq_sqrt (pG y)]
  linarith

/-- The standing assumptions: a Linear model without L1 penalty, a solver with relative error `κ`,
non-negative weights, identified coefficients, and the (ridge) least-squares solution. -/
structure InexactSetting (env : Env ℝ) (κ : ℝ) (raw : Dataset ℝ n p false) (std : Bool)
    (d : Dataset ℝ n p b) (options : FitOptions ℝ (ncols b p)) (βs : Vec ℝ (ncols b p)) : Prop where
  solver : SolvesWithin env κ
  built : raw.finalize std b = some d
  noL1 : options.l1 ≤ 0
  weights : ∀ i, 0 ≤ totalWt raw i
  ident : IsUnit (gram raw b).det ∨
    (0 < options.l2 ∧ (b = true → ∃ i, 0 < totalWt raw i))
  solution : IsRidge raw b options.l2 (scale d) βs

namespace InexactSetting
variable {κ : ℝ} (h : InexactSetting env κ raw std d options βs)
include h

/-- The same problem with an exact solver. -/
theorem ideal : RidgeSetting (exactEnv env.eps 0) raw std d options βs :=
  ⟨exactEnv_exact h.solver.eps_nonneg 0, h.built, h.noL1, h.weights, h.ident, h.solution⟩

omit h in
theorem size_eq (β : Vec ℝ (ncols b p)) :
    β ⬝ᵥ ((ridgeCurv raw b options.l2 (scale d) + env.eps • gram raw b) *ᵥ β)
      = modelSize env.eps raw b options.l2 (scale d) β := by
  rw [ridgeCurv, add_mulVec, add_mulVec, smul_mulVec, dotProduct_add, dotProduct_add,
    dotProduct_smul, quad_gram, quad_ridge, modelSize, smul_eq_mul, Finset.mul_sum _ _ (max _ _)]
  have : ∀ j, max options.l2 0 * (scale d j * slopes b β j) ^ 2
      = max options.l2 0 * scale d j ^ 2 * slopes b β j ^ 2 := fun j => by ring
  simp only [this]
  ring

theorem lhs_eq {s : Irls ℝ (ncols b p)} (hr : Reg.Same s.reg (getReg options)) :
    Matrix.of ((s.reg.prepare s.guess).irlsMat (Irls.irlsMatVec env.eps linG d s.guess).1 s.guess)
        = lhsInt env.eps linG d options.l2 s.guess ∧
    d.tmatᵀ * lhsInt env.eps linG d options.l2 s.guess * d.tmat
      = ridgeCurv raw b options.l2 (scale d) + env.eps • gram raw b := by
  refine ⟨lhsInt_eq (Family.lawfulAdj .linear) (hr.prepare _) h.noL1 _, ?_⟩
  have hwf := Dataset.finalize_wf h.built
  have := newtonMat_eq (eps := env.eps) h.built (Family.lawfulAdj .linear) options.l2
    (d.inverseTransformBeta s.guess)
  rw [hwf.transformBeta_inverseTransformBeta] at this
  rw [← this]
  exact RidgeSetting.newton_eq _

/-- The form of the system on the internal scale is that of the loss on the user's. -/
theorem form_eq {s : Irls ℝ (ncols b p)} (hr : Reg.Same s.reg (getReg options))
    (β : Vec ℝ (ncols b p)) :
    d.transformBeta β ⬝ᵥ (lhsInt env.eps linG d options.l2 s.guess *ᵥ d.transformBeta β)
      = modelSize env.eps raw b options.l2 (scale d) β := by
  rw [← size_eq, ← (h.lhs_eq hr).2, Dataset.transformBeta_eq, ← mulVec_mulVec, ← mulVec_mulVec,
    dotProduct_mulVec β, vecMul_transpose]

theorem posDef {s : Irls ℝ (ncols b p)} (hr : Reg.Same s.reg (getReg options)) :
    (lhsInt env.eps linG d options.l2 s.guess).PosDef := by
  have hwf := Dataset.finalize_wf h.built
  refine PosDef.of_dotProduct_mulVec_pos ?_ fun x hx => ?_
  · rw [IsHermitian, conjTranspose_eq_transpose_of_trivial]
    exact lhsInt_symm (Family.lawfulAdj .linear) _ _
  · have hstar : star x = x := by ext; simp
    rw [hstar, ← hwf.transformBeta_inverseTransformBeta x, h.form_eq hr, ← size_eq, add_mulVec,
      dotProduct_add, smul_mulVec, dotProduct_smul, smul_eq_mul]
    refine add_pos_of_pos_of_nonneg (h.ideal.pos fun h0 => hx ?_)
      (mul_nonneg h.solver.eps_nonneg (gram_nonneg h.weights _))
    rw [← hwf.transformBeta_inverseTransformBeta x, h0, Dataset.transformBeta_eq, mulVec_zero]

/-- The answer of the solver is near the exact step. -/
theorem sol_close {s : Irls ℝ (ncols b p)} (hr : Reg.Same s.reg (getReg options))
    {c : Vec ℝ (ncols b p)} (hc : s.sol env linG d = .ok c) :
    let t := ridgeStep env.eps raw b options.l2 (scale d) βs (d.inverseTransformBeta s.guess)
    modelSize env.eps raw b options.l2 (scale d) (d.inverseTransformBeta c - t)
      ≤ κ ^ 2 * modelSize env.eps raw b options.l2 (scale d) t := by
  intro t
  have hwf := Dataset.finalize_wf h.built
  have h1 := sol_sound (d := d) h.ideal.exact (Family.lawfulAdj .linear) h.noL1 hr
    (h.ideal.sol (s := s) hr)
  have hm := (h.lhs_eq hr).1
  have h2 := h.solver.close (hm.symm ▸ h.posDef hr) h1 hc
  rw [show Matrix.of ((s.reg.prepare s.guess).irlsMat
    (Irls.irlsMatVec (exactEnv env.eps 0).eps Family.linear.glm d s.guess).1 s.guess)
      = lhsInt env.eps linG d options.l2 s.guess from hm] at h2
  have e : c - d.transformBeta t = d.transformBeta (d.inverseTransformBeta c - t) := by
    conv_lhs => rw [← hwf.transformBeta_inverseTransformBeta c]
    simp only [Dataset.transformBeta_eq, mulVec_sub]
  change (c - d.transformBeta t) ⬝ᵥ (_ *ᵥ (c - d.transformBeta t))
    ≤ κ ^ 2 * (d.transformBeta t ⬝ᵥ (_ *ᵥ d.transformBeta t)) at h2
  rw [e, h.form_eq hr, h.form_eq hr] at h2
  exact h2

theorem curv_le_size (β : Vec ℝ (ncols b p)) :
    β ⬝ᵥ (ridgeCurv raw b options.l2 (scale d) *ᵥ β)
      ≤ modelSize env.eps raw b options.l2 (scale d) β := by
  rw [← size_eq, add_mulVec, dotProduct_add, smul_mulVec, dotProduct_smul, smul_eq_mul]
  exact le_add_of_nonneg_right (mul_nonneg h.solver.eps_nonneg (gram_nonneg h.weights _))

theorem size_le_curv (β : Vec ℝ (ncols b p)) :
    modelSize env.eps raw b options.l2 (scale d) β
      ≤ (1 + env.eps) * (β ⬝ᵥ (ridgeCurv raw b options.l2 (scale d) *ᵥ β)) := by
  rw [← size_eq, add_mulVec, dotProduct_add, smul_mulVec, dotProduct_smul, smul_eq_mul, ridgeCurv,
    add_mulVec, dotProduct_add]
  nlinarith [mul_nonneg h.solver.eps_nonneg (ridgeMat_nonneg (l2 := options.l2) (σ := scale d) β)]

theorem size_triangle (x y : Vec ℝ (ncols b p)) :
    √(modelSize env.eps raw b options.l2 (scale d) (x + y))
      ≤ √(modelSize env.eps raw b options.l2 (scale d) x)
        + √(modelSize env.eps raw b options.l2 (scale d) y) := by
  simp only [← size_eq]
  refine sqrt_quad_add (ridgeCurv_symm.add (gram_symm.smul _)) (fun z => ?_) x y
  rw [size_eq]
  exact (ridgeCurv_nonneg h.weights z).trans (h.curv_le_size z)

end InexactSetting

/-- **C100** (accuracy).  A Linear fit without L1 penalty whose linear systems are solved with relative
error at most `κ` (and otherwise exact arithmetic) returns coefficients whose loss exceeds the minimum
by at most `κ²` times the size of the best model, up to the error of one step due to the `ε` added to
the variances; it does not matter when the fit stops, how often it was wrong, or whether later solver
answers were rejected by the line search. -/
theorem C100_accuracy {κ : ℝ} (h : InexactSetting env κ raw std d options βs) {f : Fit ℝ n p b}
    (hf : regression env Family.linear.glm d options = .ok f) :
    √(ridgeLoss raw b options.l2 (scale d) f.result - ridgeLoss raw b options.l2 (scale d) βs)
      ≤ κ * √(modelSize env.eps raw b options.l2 (scale d) βs)
        + (1 + κ * √(1 + env.eps)) * (env.eps / (1 + env.eps))
          * √(ridgeLoss raw b options.l2 (scale d)
              (d.inverseTransformBeta (initialGuess env Family.linear.glm d options))
            - ridgeLoss raw b options.l2 (scale d) βs) := by
  obtain ⟨c, hc, hle⟩ := regression_no_worse h.built h.noL1 hf
  have hclose := h.sol_close (s := Irls.new linG d (initialGuess env linG d options) options)
    (.refl _) hc
  dsimp only at hclose
  change modelSize _ _ _ _ _ (_ - ridgeStep _ _ _ _ _ _
    (d.inverseTransformBeta (initialGuess env linG d options))) ≤ _ * modelSize _ _ _ _ _
    (ridgeStep _ _ _ _ _ _ (d.inverseTransformBeta (initialGuess env linG d options))) at hclose
  change penLogLik linG raw b _ _ _ _ ≤ penLogLik linG raw b _ _ _ _ at hle
  rw [lin_penLogLik h.noL1, lin_penLogLik h.noL1] at hle
  set β0 := d.inverseTransformBeta (initialGuess env linG d options) with hβ0
  set t := ridgeStep env.eps raw b options.l2 (scale d) βs β0 with ht
  have hκ := h.solver.nonneg
  have heps := h.solver.eps_nonneg
  have hr : 0 ≤ env.eps / (1 + env.eps) := by positivity
  -- the exact step
  have h1 : √((t - βs) ⬝ᵥ (ridgeCurv raw b options.l2 (scale d) *ᵥ (t - βs)))
      ≤ env.eps / (1 + env.eps) * √(ridgeLoss raw b options.l2 (scale d) β0
        - ridgeLoss raw b options.l2 (scale d) βs) := by
    have := h.ideal.contracts β0
    rw [h.ideal.excess (ridgeStep _ _ _ _ _ _ _), add_sub_cancel_left] at this
    refine (Real.sqrt_le_sqrt this).trans_eq ?_
    change √((env.eps / (1 + env.eps)) ^ 2 * _) = _
    rw [Real.sqrt_mul (sq_nonneg _), Real.sqrt_sq hr]
  -- its size
  have h2 : √(modelSize env.eps raw b options.l2 (scale d) t)
      ≤ √(modelSize env.eps raw b options.l2 (scale d) βs) + √(1 + env.eps)
        * (env.eps / (1 + env.eps) * √(ridgeLoss raw b options.l2 (scale d) β0
          - ridgeLoss raw b options.l2 (scale d) βs)) := by
    have e := h.size_triangle βs (t - βs)
    rw [add_sub_cancel] at e
    refine e.trans (add_le_add_right ?_ _)
    refine (Real.sqrt_le_sqrt (h.size_le_curv _)).trans ?_
    rw [Real.sqrt_mul (by linarith)]
    exact mul_le_mul_of_nonneg_left h1 (Real.sqrt_nonneg _)
  -- the answer of the solver
  have h3 : √(ridgeLoss raw b options.l2 (scale d) (d.inverseTransformBeta c)
      - ridgeLoss raw b options.l2 (scale d) βs)
      ≤ √((t - βs) ⬝ᵥ (ridgeCurv raw b options.l2 (scale d) *ᵥ (t - βs)))
        + κ * √(modelSize env.eps raw b options.l2 (scale d) t) := by
    rw [h.ideal.excess (d.inverseTransformBeta c), add_sub_cancel_left]
    have e := sqrt_quad_add (ridgeCurv_symm (raw := raw) (l2 := options.l2) (σ := scale d))
      (ridgeCurv_nonneg h.weights) (t - βs) (d.inverseTransformBeta c - t)
    rw [sub_add_sub_cancel'] at e
    refine e.trans (add_le_add_right ?_ _)
    refine (Real.sqrt_le_sqrt ((h.curv_le_size _).trans hclose)).trans_eq ?_
    rw [Real.sqrt_mul (sq_nonneg _), Real.sqrt_sq hκ]
  refine (Real.sqrt_le_sqrt (by linarith : _ ≤ ridgeLoss raw b options.l2 (scale d)
    (d.inverseTransformBeta c) - ridgeLoss raw b options.l2 (scale d) βs)).trans ?_
  have h4 := mul_le_mul_of_nonneg_left h2 hκ
  refine h3.trans ((add_le_add h1 h4).trans_eq ?_)
  ring

/-- **C100** (accuracy, `ε = 0`): the loss of the result exceeds the minimum by at most `κ²` times the
size of the best model. -/
theorem C100_accuracy_zero {κ : ℝ} (h : InexactSetting env κ raw std d options βs)
    (h0 : env.eps = 0) {f : Fit ℝ n p b}
    (hf : regression env Family.linear.glm d options = .ok f) :
    ridgeLoss raw b options.l2 (scale d) f.result
      ≤ ridgeLoss raw b options.l2 (scale d) βs
        + κ ^ 2 * modelSize 0 raw b options.l2 (scale d) βs := by
  have h1 := C100_accuracy h hf
  have hpos : 0 ≤ modelSize 0 raw b options.l2 (scale d) βs := by
    have := h.curv_le_size βs
    rw [h0] at this
    exact (ridgeCurv_nonneg h.weights βs).trans this
  rw [h0, zero_div, mul_zero, zero_mul, add_zero] at h1
  have h2 := (Real.sqrt_le_left (by have := h.solver.nonneg; positivity)).mp h1
  rw [mul_pow, Real.sq_sqrt hpos] at h2
  linarith

/-- **C100** (predictions): without a penalty and with `ε = 0`, the fitted linear predictors are within
relative distance `κ` of the least-squares ones, in the weighted norm over the observations. -/
theorem C100_predictions {κ : ℝ} (h : InexactSetting env κ raw std d options βs)
    (h0 : env.eps = 0) (hl2 : options.l2 ≤ 0) {f : Fit ℝ n p b}
    (hf : regression env Family.linear.glm d options = .ok f) :
    ∑ i, totalWt raw i * (linPred raw b f.result i - linPred raw b βs i) ^ 2
      ≤ κ ^ 2 * ∑ i, totalWt raw i * (∑ j, design b raw.x i j * βs j) ^ 2 := by
  have h1 := C100_accuracy_zero h h0 hf
  have h2 := h.ideal.excess f.result
  have h3 : ridgeMat options.l2 (scale d) b = 0 := by
    rw [ridgeMat, max_eq_right hl2]; simp [onSlopes_zero]
  rw [ridgeCurv, h3, add_zero, quad_gram] at h2
  rw [modelSize, max_eq_right hl2, add_zero, one_mul, zero_mul, add_zero] at h1
  have e : ∀ i, linPred raw b f.result i - linPred raw b βs i
      = ∑ j, design b raw.x i j * (f.result - βs) j := by
    intro i
    simp only [linPred, Pi.sub_apply, mul_sub, Finset.sum_sub_distrib]
    ring
  simp only [e]
  linarith

/-- **C100** (no failure).  Such a fit never ends with a linear-algebra error. -/
theorem C100_no_linalg_error {κ : ℝ} (h : InexactSetting env κ raw std d options βs) :
    regression env Family.linear.glm d options ≠ .err .linalg := by
  intro hr
  obtain ⟨-, -, h3, -, -⟩ := fitLoop_inv (env := env) (g := linG) (data := d) (options := options)
    (P := fun _ => True) (fun _ _ _ _ _ _ _ => trivial) _ none
    (Irls.Inv.new (initial := initialGuess env linG d options)) trivial
  rw [regression_eq] at hr
  split at hr
  · simp at hr
  · rename_i e he
    simp only [Outcome.err.injEq] at hr
    subst hr
    obtain ⟨s0, s', hi, -, hn⟩ := h3 he
    have hc := s0.nextRaw_case env linG d options.tol
    rw [hn] at hc
    generalize hr : (RawNext.linalg s' : RawNext ℝ (ncols b p)) = r at hc
    cases hc <;> simp only [RawNext.linalg.injEq, reduceCtorEq] at hr
    case linalg e hs =>
      obtain ⟨x, hx⟩ := h.solver.answers ((s0.reg.prepare s0.guess).irlsVec
        (Irls.irlsMatVec env.eps linG d s0.guess).2 s0.guess)
        ((h.lhs_eq hi.same).1.symm ▸ h.posDef hi.same)
      rw [Irls.sol] at hs
      exact absurd (hs.symm.trans hx) (by simp)
  · simp at hr
  · simp at hr

theorem posDef_det {k : ℕ} {m : Matrix (Fin k) (Fin k) ℝ} (hm : m.PosDef) : IsUnit m.det :=
  isUnit_of_pos fun x hx => by
    have := hm.dotProduct_mulVec_pos hx
    rwa [show star x = x by ext; simp] at this

/-- A solver that returns everything too large by the factor `1 + κ`. -/
noncomputable def scaledEnv (κ : ℝ) : Env ℝ :=
  { exactEnv 0 0 with
    solveh := fun m v => ((exactEnv 0 0).solveh m v).map fun x => (1 + κ) • x }

theorem scaledEnv_sol {κ : ℝ} {k : ℕ} {m : Mat ℝ k k} {v xs : Vec ℝ k} (hm : (Matrix.of m).PosDef)
    (hx : Matrix.of m *ᵥ xs = v) : (scaledEnv κ).solveh m v = .ok ((1 + κ) • xs) := by
  have hs : (Matrix.of m).IsSymm := by
    have := hm.isHermitian
    rwa [IsHermitian, conjTranspose_eq_transpose_of_trivial] at this
  have := (exactEnv_exact (le_refl (0 : ℝ)) 0).solveh_eq hs
    (posDef_det hm) hx
  change ((exactEnv 0 0).solveh m v).map _ = _
  rw [this]
  rfl

/-- `SolvesWithin` holds for it. -/
theorem scaledEnv_within {κ : ℝ} (hκ : 0 ≤ κ) : SolvesWithin (scaledEnv κ) κ where
  eps_nonneg := le_rfl
  nonneg := hκ
  answers {k m} v hm := by
    have hu : IsUnit (Matrix.of m).det := posDef_det hm
    exact ⟨_, scaledEnv_sol hm (xs := (Matrix.of m)⁻¹ *ᵥ v)
      (by rw [mulVec_mulVec, mul_nonsing_inv _ hu, one_mulVec])⟩
  close {k m v x xs} hm hx h := by
    rw [scaledEnv_sol hm hx] at h
    cases h
    have : (1 + κ) • xs - xs = κ • xs := by rw [add_smul, one_smul, add_sub_cancel_left]
    rw [this, mulVec_smul, smul_dotProduct, dotProduct_smul, smul_eq_mul, smul_eq_mul]
    exact le_of_eq (by ring)

/-- **C100** (sharpness).  The bound is attained: with the solver whose answers are too large by the
factor `1 + κ`, from any start that is worse than `1 + κ` times the best coefficients, a fit succeeds
and returns exactly those. -/
theorem C100_sharp {κ : ℝ} (h : InexactSetting (scaledEnv κ) κ raw std d options βs)
    (hbud : 1 ≤ options.maxIter)
    (hstart : ridgeLoss raw b options.l2 (scale d) ((1 + κ) • βs)
      < ridgeLoss raw b options.l2 (scale d)
        (d.inverseTransformBeta (initialGuess (scaledEnv κ) Family.linear.glm d options))) :
    ∃ f, regression (scaledEnv κ) Family.linear.glm d options = .ok f ∧
      f.result = (1 + κ) • βs ∧
      ridgeLoss raw b options.l2 (scale d) f.result
        = ridgeLoss raw b options.l2 (scale d) βs
          + κ ^ 2 * modelSize 0 raw b options.l2 (scale d) βs := by
  obtain ⟨γ0, hγ⟩ : ∃ γ, γ = initialGuess (scaledEnv κ) linG d options := ⟨_, rfl⟩
  have hst : ridgeLoss raw b options.l2 (scale d) ((1 + κ) • βs)
      < ridgeLoss raw b options.l2 (scale d)
        (d.inverseTransformBeta (Irls.new linG d γ0 options).guess) := by rw [hγ]; exact hstart
  clear hstart
  have hwf := Dataset.finalize_wf h.built
  have hT : d.transformBeta ((1 + κ) • βs) = (1 + κ) • d.transformBeta βs := by
    rw [Dataset.transformBeta_eq, mulVec_smul, ← Dataset.transformBeta_eq]
  have hext := hwf.inverseTransformBeta_transformBeta ((1 + κ) • βs)
  have hstep : ∀ β, ridgeStep 0 raw b options.l2 (scale d) βs β = βs := by
    intro β; rw [ridgeStep, zero_smul ℝ (gram raw b *ᵥ (β - βs)), mulVec_zero, add_zero]
  have hsol : ∀ s : Irls ℝ (ncols b p), Reg.Same s.reg (getReg options) →
      s.sol (scaledEnv κ) linG d = .ok (d.transformBeta ((1 + κ) • βs)) := by
    intro s hr
    have h1 := sol_sound (d := d) h.ideal.exact (Family.lawfulAdj .linear) h.noL1 hr
      (h.ideal.sol (s := s) hr)
    rw [show (exactEnv (scaledEnv κ).eps 0).eps = 0 from rfl, hstep] at h1
    rw [hT]
    exact scaledEnv_sol ((h.lhs_eq hr).1.symm ▸ h.posDef hr) h1
  have hnext : ∀ s : Irls ℝ (ncols b p),
      Irls.Inv linG d options γ0 s →
      s = Irls.new linG d γ0 options ∨
        s.guess = d.transformBeta ((1 + κ) • βs) →
      (s.guess = d.transformBeta ((1 + κ) • βs) ∧
        ∃ s', s.nextRaw (scaledEnv κ) linG d options.tol = .stop s') ∨
      (s = Irls.new linG d γ0 options ∧
        ∃ s' l, s.nextRaw (scaledEnv κ) linG d options.tol
          = .cand s' (d.transformBeta ((1 + κ) • βs)) l) := by
    intro s hi hs
    obtain ⟨t1, t2, t3⟩ := hi.same.noL1 (getReg_noL1 h.noL1) s.guess
    have ht : (s.reg.prepare s.guess).terminateOk options.tol = true := by rw [t1]; exact t3 _
    by_cases hg : s.guess = d.transformBeta ((1 + κ) • βs)
    · refine Or.inl ⟨hg, ?_⟩
      by_cases hdone : s.done = true
      · exact ⟨_, Irls.nextRaw_done hdone⟩
      · refine ⟨_, Irls.nextRaw_equal (by simpa using hdone) (hsol s hi.same) ht ?_⟩
        rw [hg]; simp [vecEq]
    · have hnew := hs.resolve_right hg
      refine Or.inr ⟨hnew, _, _, Irls.nextRaw_full (by rw [hnew]; rfl) (hsol s hi.same) ht ?_ ?_⟩
      · rw [Bool.eq_false_iff]
        intro heq
        simp only [vecEq, List.all_eq_true, List.mem_finRange, forall_const, eq_real] at heq
        exact hg (funext heq).symm
      · rw [gt_real, nextObj_ext h.built h.noL1 hi, lastObj_ext h.built h.noL1 hi]
        change penLogLik linG raw b _ _ _ _ < penLogLik linG raw b _ _ _ _
        rw [lin_penLogLik h.noL1, lin_penLogLik h.noL1, hext, hnew]
        linarith [hst]
  have hok : ∃ f, regression (scaledEnv κ) linG d options = .ok f := by
    refine regression_total
      (P := fun s => s = Irls.new linG d γ0 options ∨
        s.guess = d.transformBeta ((1 + κ) • βs)) (Or.inl (by rw [hγ])) ?_ ?_ ?_ ?_
    · intro s s' v l hi hp hn
      rcases hnext s (hγ ▸ hi) hp with ⟨-, s1, h1⟩ | ⟨-, s1, l1, h1⟩
      · rw [h1] at hn; simp at hn
      · rw [h1] at hn
        simp only [RawNext.cand.injEq] at hn
        obtain ⟨rfl, rfl, rfl⟩ := hn
        exact Or.inr rfl
    · intro s s' hi hp
      rcases hnext s (hγ ▸ hi) hp with ⟨-, s1, h1⟩ | ⟨-, s1, l1, h1⟩ <;> rw [h1] <;> simp
    · intro s s' hi hp
      rcases hnext s (hγ ▸ hi) hp with ⟨-, s1, h1⟩ | ⟨-, s1, l1, h1⟩ <;> rw [h1] <;> simp
    · intro s s' v l hi hp hn hlen
      rcases hnext s (hγ ▸ hi) hp with ⟨-, s1, h1⟩ | ⟨h0, s1, l1, h1⟩
      · rw [h1] at hn; simp at hn
      · rw [h0] at hlen
        simp only [Irls.new, List.length_nil] at hlen
        omega
  obtain ⟨f, hf⟩ := hok
  have hres : f.result = (1 + κ) • βs := by
    obtain ⟨s0, s', hi, hp, hn, hh⟩ := regression_inv hf
      (P := fun s => s = Irls.new linG d γ0 options ∨ s.guess = d.transformBeta ((1 + κ) • βs))
      (Or.inl (by rw [hγ])) (by
        intro s s' v l hi hp hn
        rcases hnext s (hγ ▸ hi) hp with ⟨-, s1, h1⟩ | ⟨-, s1, l1, h1⟩
        · rw [h1] at hn; simp at hn
        · rw [h1] at hn
          simp only [RawNext.cand.injEq] at hn
          obtain ⟨rfl, rfl, rfl⟩ := hn
          exact Or.inr rfl)
    rw [result_eq_guess h.noL1 hf hi hh]
    rcases hnext s0 (hγ ▸ hi) hp with ⟨h1, -⟩ | ⟨-, s1, l1, h1⟩
    · rw [h1, hext]
    · rw [h1] at hn; simp at hn
  refine ⟨f, hf, hres, ?_⟩
  rw [hres, h.ideal.excess ((1 + κ) • βs), add_smul, one_smul, add_sub_cancel_left, mulVec_smul,
    smul_dotProduct, dotProduct_smul, smul_eq_mul, smul_eq_mul]
  have hsz := InexactSetting.size_eq (env := scaledEnv κ) (raw := raw) (options := options) (d := d)
    βs
  rw [show (scaledEnv κ).eps = 0 from rfl, zero_smul, add_zero] at hsz
  rw [← hsz]
  ring

/-- The hypotheses of the theorems above hold on a concrete data set, standardized or not, for a
solver that is wrong by 50%; the fit from zero returns coefficients that are wrong by 50%. -/
theorem C100_example (std : Bool) : ∃ (d : Dataset ℝ 3 1 true) (f : Fit ℝ 3 1 true),
    InexactSetting (scaledEnv (1 / 2)) (1 / 2) (exRaw ![1, 3, 5]) std d
      (exOpts 0 0 (some ![0, 0]) 1) ![1, 2] ∧
    regression (scaledEnv (1 / 2)) Family.linear.glm d (exOpts 0 0 (some ![0, 0]) 1) = .ok f ∧
    f.result = ![3 / 2, 3] := by
  obtain ⟨d, h⟩ := exLinSetting std 0 le_rfl 0 1 (some ![0, 0])
  have e : ∀ β, ridgeLoss (exRaw ![1, 3, 5]) true 0 (scale d) β = sse (exRaw ![1, 3, 5]) true β := by
    intro β; simp [ridgeLoss]
  have hs : InexactSetting (scaledEnv (1 / 2)) (1 / 2) (exRaw ![1, 3, 5]) std d
      (exOpts 0 0 (some ![0, 0]) 1) ![1, 2] := by
    refine ⟨scaledEnv_within (by norm_num), h.built, le_rfl, h.weights, Or.inl h.rank, fun β' => ?_⟩
    change ridgeLoss _ _ 0 _ _ ≤ ridgeLoss _ _ 0 _ _
    rw [e, e]
    exact h.solution β'
  have hwf := Dataset.finalize_wf h.built
  obtain ⟨f, h1, h2, -⟩ := C100_sharp hs le_rfl (by
    change ridgeLoss _ _ 0 _ _ < ridgeLoss _ _ 0 _
      (d.inverseTransformBeta (d.transformBeta ![0, 0]))
    rw [hwf.inverseTransformBeta_transformBeta, e, e]
    simp only [sse, exRaw_linPred, Fin.sum_univ_three]
    norm_num [exRaw, totalWt, freq, varWt, show (![1, 3, 5] : Fin 3 → ℝ) 2 = 5 from rfl,
      show (![0, 1, 2] : Fin 3 → ℝ) 2 = 2 from rfl, show (![1, 2, 1] : Fin 3 → ℝ) 2 = 1 from rfl])
  refine ⟨d, f, hs, h1, ?_⟩
  rw [h2]
  ext i
  fin_cases i <;> norm_num

end GLM
