/-
  C56: what a reported convergence certifies.
-/
import Verif.Props.LeastSquares

namespace GLM
open Spec Matrix
variable {n p : ℕ} {b : Bool} {env : Env ℝ} {g : Glm ℝ} {raw : Dataset ℝ n p false} {std : Bool}
  {d : Dataset ℝ n p b} {options : FitOptions ℝ (ncols b p)}

/-- The three ways an iteration without L1 may end at `β`, in terms of the user's data and scale.
`tol` is the tolerance, `T` the map to the (standardized) scale on which step sizes are measured. -/
inductive Certified (eps : ℝ) (g : Glm ℝ) (raw : Dataset ℝ n p false) (b : Bool) (l1 l2 : ℝ)
    (σ : Fin p → ℝ) (T : Vec ℝ (ncols b p) → Vec ℝ (ncols b p)) (tol : ℝ) (β : Vec ℝ (ncols b p)) :
    Prop
  /-- The penalized score vanishes. -/
  | stationary (h : penScore g raw b l1 l2 σ β = 0)
  /-- No multiple of the Newton step that the line search tries improves the objective. -/
  | noImprovement (δ : Vec ℝ (ncols b p)) (h : IsNewtonStep eps g raw b l1 l2 σ β δ)
      (full : penLogLik g raw b l1 l2 σ (β + δ) ≤ penLogLik g raw b l1 l2 σ β)
      (scaled : ∀ j : ℕ, √(∑ i, (1 + T β i ^ 2)) * |tol| < (0.618033988749894 : ℝ) ^ j →
        penLogLik g raw b l1 l2 σ (β + (0.618033988749894 : ℝ) ^ (j + 1) • δ)
          ≤ penLogLik g raw b l1 l2 σ β)
      (back : penLogLik g raw b l1 l2 σ (β + (-0.618033988749894 : ℝ) • δ)
          ≤ penLogLik g raw b l1 l2 σ β)
  /-- `β` was reached from `β'` and the full Newton step `δ` there was within the tolerance. -/
  | small (β' δ : Vec ℝ (ncols b p)) (h : IsNewtonStep eps g raw b l1 l2 σ β' δ)
      (m : ℝ) (hm : StepMult m) (hβ : β = β' + m • δ)
      (obj : |penLogLik g raw b l1 l2 σ (β' + δ) - penLogLik g raw b l1 l2 σ β'| ≤ tol * n)
      (coef : ∑ i, (T (β' + δ) i - T β' i) ^ 2
        ≤ ((ncols b p : ℕ) + ∑ i, T (β' + δ) i ^ 2) * tol ^ 2)

theorem stepScale_zero {fuel : ℕ} {f : ℝ → ℝ} {tol : ℝ} (h : stepScale fuel f tol = some 0) :
    (∀ j : ℕ, |tol| < (0.618033988749894 : ℝ) ^ j →
      f ((0.618033988749894 : ℝ) ^ (j + 1)) ≤ f 0) ∧ f (-0.618033988749894) ≤ f 0 := by
  have hφ : (goldenScale : ℝ) = 0.618033988749894 := by rw [goldenScale_real]; norm_num
  have hl : ∀ (fuel : ℕ) (t : ℝ) (j : ℕ),
      stepScaleLoop f (f 0) t fuel ((0.618033988749894 : ℝ) ^ j) = some none →
      ∀ i, j ≤ i → t < (0.618033988749894 : ℝ) ^ i →
        f ((0.618033988749894 : ℝ) ^ (i + 1)) ≤ f 0 := by
    intro fuel t
    induction fuel with
    | zero => simp [stepScaleLoop]
    | succ k ih =>
      intro j h i hji hi
      have e : (0.618033988749894 : ℝ) ^ j * goldenScale = 0.618033988749894 ^ (j + 1) := by
        rw [pow_succ, hφ]
      simp only [stepScaleLoop, e] at h
      split at h
      · split at h
        · simp at h
        · rename_i hf
          rw [gt_real, not_lt] at hf
          rcases Nat.eq_or_lt_of_le hji with rfl | hlt
          · exact hf
          · exact ih _ h i hlt hi
      · rename_i hx
        rw [gt_real, not_lt] at hx
        have : (0.618033988749894 : ℝ) ^ i ≤ 0.618033988749894 ^ j :=
          pow_le_pow_of_le_one (by norm_num) (by norm_num) hji
        linarith
  unfold stepScale at h
  dsimp only at h
  split at h
  · simp at h
  · rename_i x hx
    simp only [Option.some.injEq] at h
    obtain ⟨j, hj⟩ := stepScaleLoop_pow fuel |tol| 0 x (by simpa using hx)
    exact absurd (hj.symm.trans h) (pow_ne_zero _ (by norm_num))
  · rename_i hx
    split at h
    · simp only [Option.some.injEq, hφ] at h
      norm_num at h
    · rename_i hf
      rw [gt_real, not_lt, hφ] at hf
      exact ⟨fun j hj => hl fuel |tol| 0 (by simpa using hx) j (Nat.zero_le _) hj, hf⟩


/-- Points on the segment to the next guess, on the user's scale. -/
theorem inverse_interp (hd : raw.finalize std b = some d) (γ v : Vec ℝ (ncols b p)) (m : ℝ) :
    d.inverseTransformBeta (Irls.interp γ v m) = d.inverseTransformBeta γ
      + m • (d.inverseTransformBeta v - d.inverseTransformBeta γ) := by
  have hwf := Dataset.finalize_wf hd
  have hT : ∀ u, d.tmat *ᵥ d.inverseTransformBeta u = u := by
    intro u; rw [← Dataset.transformBeta_eq, hwf.transformBeta_inverseTransformBeta]
  have : Irls.interp γ v m = d.transformBeta (d.inverseTransformBeta γ
      + m • (d.inverseTransformBeta v - d.inverseTransformBeta γ)) := by
    rw [Dataset.transformBeta_eq, mulVec_add, mulVec_smul, mulVec_sub, hT, hT]
    funext j
    simp only [Irls.interp, Pi.add_apply, Pi.smul_apply, Pi.sub_apply, smul_eq_mul]
    ring
  rw [this, hwf.inverseTransformBeta_transformBeta]

/-- The objective the iteration computes at an internal point. -/
theorem objective_ext (hd : raw.finalize std b = some d) (γ : Vec ℝ (ncols b p)) :
    g.logLike d γ + (getReg options).likelihood γ
      = penLogLik g raw b options.l1 options.l2 (scale d) (d.inverseTransformBeta γ) := by
  have hwf := Dataset.finalize_wf hd
  rw [penLogLik, Dataset.finalize_logLike' g hd]
  conv_lhs => rw [← hwf.transformBeta_inverseTransformBeta γ]
  rw [getReg_likelihood_ext, hwf.transformBeta_inverseTransformBeta]
  rfl

section
variable {initial : Vec ℝ (ncols b p)} {s : Irls ℝ (ncols b p)}
  (hd : raw.finalize std b = some d) (hl1 : options.l1 ≤ 0) (hi : Irls.Inv g d options initial s)
include hd hl1 hi

theorem nextObj_ext (v : Vec ℝ (ncols b p)) : s.nextObj g d v
    = penLogLik g raw b options.l1 options.l2 (scale d) (d.inverseTransformBeta v) := by
  obtain ⟨h1, h2, h3⟩ := hi.same.noL1 (getReg_noL1 hl1) s.guess
  rw [← objective_ext hd]
  simp only [Irls.nextObj, h1, h2]

theorem lastObj_ext : s.lastObj
    = penLogLik g raw b options.l1 options.l2 (scale d) (d.inverseTransformBeta s.guess) := by
  obtain ⟨h1, h2, h3⟩ := hi.same.noL1 (getReg_noL1 hl1) s.guess
  rw [← objective_ext hd]
  simp only [Irls.lastObj, h1, h2, hi.last]

omit hl1 in
theorem fStep_ext (v : Vec ℝ (ncols b p)) (m : ℝ) :
    Irls.fStep g d s.prep.reg s.guess v m
    = penLogLik g raw b options.l1 options.l2 (scale d) (d.inverseTransformBeta s.guess
      + m • (d.inverseTransformBeta v - d.inverseTransformBeta s.guess)) := by
  rw [← inverse_interp hd, ← objective_ext hd]
  have := (hi.same.prepare s.guess).likelihood
  simp only [Irls.fStep, Irls.prep, this]
  rfl

theorem small_ext {v : Vec ℝ (ncols b p)} (h : s.small g d options.tol v = true) :
    |penLogLik g raw b options.l1 options.l2 (scale d) (d.inverseTransformBeta v)
      - penLogLik g raw b options.l1 options.l2 (scale d) (d.inverseTransformBeta s.guess)|
      ≤ options.tol * n ∧
    ∑ i, (v i - s.guess i) ^ 2 ≤ ((ncols b p : ℕ) + ∑ i, v i ^ 2) * options.tol ^ 2 := by
  rw [Irls.small, Bool.and_eq_true] at h
  obtain ⟨h1, h2⟩ := h
  constructor
  · rw [smallDelta, le_real, nextObj_ext hd hl1 hi, lastObj_ext hd hl1 hi] at h1
    exact h1
  · rw [smallDeltaVec, le_real] at h2
    simpa [vsub, ← sq, mul_assoc] using h2

end

/-- C56.  When a fit without L1 returns, its result is certified in one of three ways. -/
theorem C56_certified (he : env.Exact) (hg : LawfulAdj g) (hd : raw.finalize std b = some d)
    (hl1 : options.l1 ≤ 0) {f : Fit ℝ n p b} (h : regression env g d options = .ok f) :
    Certified env.eps g raw b options.l1 options.l2 (scale d) d.transformBeta options.tol
      f.result := by
  have hwf := Dataset.finalize_wf hd
  obtain ⟨s0, s', hi, hp, hn, hh⟩ := regression_inv h
    (P := fun s => s.done = true → Certified env.eps g raw b options.l1 options.l2 (scale d)
      d.transformBeta options.tol (d.inverseTransformBeta s.guess))
    (by intro h; simp [Irls.new] at h)
    (by
      intro s s' v l hi _ hn hdone
      obtain ⟨h1, h2, h3⟩ := hi.same.noL1 (getReg_noL1 hl1) s.guess
      have hc := s.nextRaw_case env g d options.tol
      rw [hn] at hc
      generalize hr : (RawNext.cand s' v l : RawNext ℝ (ncols b p)) = r at hc
      cases hc <;> simp only [RawNext.cand.injEq, reduceCtorEq] at hr
      case admm ht => rw [h1, h3] at ht; simp at ht
      case full hs ht he' hg' =>
        obtain ⟨rfl, rfl, rfl⟩ := hr
        obtain ⟨e1, e2⟩ := small_ext hd hl1 hi hdone
        refine .small (d.inverseTransformBeta s.guess)
          (d.inverseTransformBeta v - d.inverseTransformBeta s.guess)
          (newton_ext hd hg (hi.same.prepare _) hl1 (sol_sound he hg hl1 hi.same hs)) 1
          (Or.inl rfl) ?_ ?_ ?_
        · rw [one_smul, add_sub_cancel]; rfl
        · rw [add_sub_cancel]; exact e1
        · rw [add_sub_cancel, hwf.transformBeta_inverseTransformBeta,
            hwf.transformBeta_inverseTransformBeta]
          exact e2
      case scaled v' hs ht he' hg' m hm h0 =>
        obtain ⟨rfl, rfl, rfl⟩ := hr
        obtain ⟨e1, e2⟩ := small_ext hd hl1 hi hdone
        have hm0 : m ≠ 0 := by
          rw [Bool.eq_false_iff, ne_eq, eq_real] at h0; exact h0
        refine .small (d.inverseTransformBeta s.guess)
          (d.inverseTransformBeta v' - d.inverseTransformBeta s.guess)
          (newton_ext hd hg (hi.same.prepare _) hl1 (sol_sound he hg hl1 hi.same hs)) m
          (stepScale_mult hm hm0) ?_ ?_ ?_
        · exact inverse_interp hd _ _ _
        · rw [add_sub_cancel]; exact e1
        · rw [add_sub_cancel, hwf.transformBeta_inverseTransformBeta,
            hwf.transformBeta_inverseTransformBeta]
          exact e2)
  have hres : f.result = d.inverseTransformBeta s0.guess := by
    have hg := hi.guess
    by_cases hne : f.history = []
    · rcases C25_best_of_history h with ⟨-, -, h3, -⟩ | ⟨pre, opt, post, h3, -⟩
      · rw [hne] at hh
        rw [List.map_eq_nil_iff.mp hh.symm] at hg
        rw [h3, hg]; rfl
      · rw [hne] at h3; simp at h3
    · have h1 := (C26_monotone hl1 h).2.1 hne
      rw [hh, List.getLast?_map] at h1
      rw [hg]
      cases hl : s0.history.getLast? with
      | none => rw [hl] at h1; simp at h1
      | some st =>
        rw [hl] at h1
        simp only [Option.map_some, Option.some.injEq] at h1
        simp only [Option.map_some, Option.getD_some]
        exact (congrArg IrlsStep.guess h1).symm
  rw [hres]
  obtain ⟨h1, h2, h3⟩ := hi.same.noL1 (getReg_noL1 hl1) s0.guess
  have hc := s0.nextRaw_case env g d options.tol
  rw [hn] at hc
  generalize hr : (RawNext.stop s' : RawNext ℝ (ncols b p)) = r at hc
  cases hc <;> try (simp only [reduceCtorEq] at hr)
  case done hdone => exact hp hdone
  case equal hdone v hs ht heq =>
    refine .stationary ?_
    have hv : v = s0.guess := by
      funext j
      simp only [vecEq, List.all_eq_true, List.mem_finRange, forall_const, eq_real] at heq
      exact heq j
    have := newton_ext hd hg (hi.same.prepare _) hl1 (sol_sound he hg hl1 hi.same hs)
    rw [hv, sub_self, mulVec_zero] at this
    exact this.symm
  case zero hdone v hs ht heq hgt m hm h0 =>
    rw [eq_real] at h0
    subst h0
    obtain ⟨e1, e2⟩ := stepScale_zero hm
    have e3 : Irls.fStep g d s0.prep.reg s0.guess v 0 = _ := fStep_ext hd hi v 0
    rw [zero_smul, add_zero] at e3
    refine .noImprovement (d.inverseTransformBeta v - d.inverseTransformBeta s0.guess)
      (newton_ext hd hg (hi.same.prepare _) hl1 (sol_sound he hg hl1 hi.same hs)) ?_ ?_ ?_
    · rw [add_sub_cancel, ← nextObj_ext hd hl1 hi, ← lastObj_ext hd hl1 hi]
      rw [Bool.eq_false_iff, ne_eq, gt_real, not_lt] at hgt
      exact hgt
    · intro j hj
      have := e1 j (by
        rw [hwf.transformBeta_inverseTransformBeta] at hj
        simp only [sqrt_real, vsum_real, abs_mul, abs_of_nonneg (Real.sqrt_nonneg _)]
        simpa [sq] using hj)
      rw [show Irls.fStep g d (s0.reg.prepare s0.guess) s0.guess v 0 = _ from e3,
        show Irls.fStep g d (s0.reg.prepare s0.guess) s0.guess v _ = _ from
          fStep_ext hd hi v _] at this
      exact this
    · have := e2
      rw [show Irls.fStep g d (s0.reg.prepare s0.guess) s0.guess v 0 = _ from e3,
        show Irls.fStep g d (s0.reg.prepare s0.guess) s0.guess v _ = _ from
          fStep_ext hd hi v _] at this
      exact this

/-- The hypotheses are met by a standardized linear fit that takes several steps. -/
example : ∃ (d : Dataset ℝ 3 1 true) (o : FitOptions ℝ (ncols true 1)) (f : Fit ℝ 3 1 true),
    (exRaw ![1, 3, 5]).finalize true true = some d ∧ o.l1 ≤ 0 ∧
      regression (exactEnv (1 / 2) 0) Family.linear.glm d o = .ok f := by
  obtain ⟨d, h⟩ := exLinSetting true (1 / 2) (by norm_num) 0 0 none
  obtain ⟨N, hN⟩ := C57_converges h (by norm_num [exOpts]) (by norm_num)
  obtain ⟨f, hf⟩ := hN N le_rfl
  exact ⟨d, { exOpts 0 0 none 0 with maxIter := N }, f, h.built, le_rfl, hf⟩

end GLM
