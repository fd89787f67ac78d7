/-
  C72: the default starting point.
-/
import Verif.Spec.Start
import Verif.Props.SharedLikelihood

namespace GLM
open Spec Matrix
variable {n p : ℕ} {b : Bool} {env : Env ℝ} {g : Glm ℝ} {raw : Dataset ℝ n p false} {std : Bool}
  {d : Dataset ℝ n p b} {options : FitOptions ℝ (ncols b p)}

theorem startTargets_finalize (hd : raw.finalize std b = some d) :
    (startTargets g raw).finalize std b = some { d with y := (startTargets g raw).y } := by
  unfold Dataset.finalize at hd ⊢
  cases std
  · simp only [Bool.false_eq_true, if_false, Option.some.injEq] at hd ⊢
    rw [← hd]; rfl
  · simp only [if_true] at hd ⊢
    have e : Standardizer.fromDataset (startTargets g raw) b = Standardizer.fromDataset raw b := rfl
    rw [e]
    cases hs : Standardizer.fromDataset raw b with
    | none => rw [hs] at hd; simp at hd
    | some s =>
      rw [hs] at hd
      simp only [Option.map_some, Option.some.injEq] at hd ⊢
      rw [← hd]; rfl

/-- The same options with an explicit starting point. -/
def FitOptions.withStart {k : ℕ} (o : FitOptions ℝ k) (β : Vec ℝ k) : FitOptions ℝ k :=
  { o with initGuess := some β }

/-- The same fit recorded under other options. -/
def Fit.withOptions (f : Fit ℝ n p b) (o : FitOptions ℝ (ncols b p)) : Fit ℝ n p b :=
  { f with options := o }

theorem leastSquares_unique {β β' : Vec ℝ (ncols b p)} (hw : ∀ i, 0 ≤ totalWt raw i)
    (hu : IsUnit (gram raw b).det) (h1 : IsLeastSquares raw b β) (h2 : IsLeastSquares raw b β') :
    β = β' := by
  rw [isLeastSquares_iff hw] at h1 h2
  have h3 := lin_score_add (raw := raw) β (β' - β)
  rw [add_sub_cancel, h1, h2, zero_sub, eq_comm, neg_eq_zero] at h3
  have h5 := congrArg (fun v => (gram raw b)⁻¹ *ᵥ v) h3
  simp only [mulVec_mulVec, nonsing_inv_mul _ hu, one_mulVec, mulVec_zero] at h5
  exact (sub_eq_zero.mp h5).symm

theorem transformBeta_withY (y : Vec ℝ n) (β : Vec ℝ (ncols b p)) :
    ({ d with y := y } : Dataset ℝ n p b).transformBeta β = d.transformBeta β := by
  cases b <;> rfl

/-- The vector the default start is regressed on. -/
theorem initGuess_target (hd : raw.finalize std b = some d) :
    g.initGuess env d = match env.solveh (d.xConj.dotM d.x) (d.xConj.dotV fun i =>
        (startTargets g raw).y i - offset raw i) with
      | .ok sol => sol
      | .error _ => vzeros := by
  have hbar : (vmean? d.y).getD 0 = (∑ k, raw.y k) / n := by
    rw [Dataset.finalize_y hd]
    unfold vmean?
    split
    · subst_vars; simp
    · simp only [Option.getD_some, vsum_real, ofNat_real]
  have hmu : ∀ i, (Scalar.half : ℝ) * (d.y i + (vmean? d.y).getD 0)
      = (raw.y i + (∑ k, raw.y k) / n) / 2 := by
    intro i
    rw [hbar, Dataset.finalize_y hd, half_real]
    ring
  have hoff : d.linearOffset = raw.linearOffset := (Dataset.finalize_cases hd).2.1
  unfold Glm.initGuess
  dsimp only
  simp only [hmu, hoff]
  have hs : ∀ i, (startTargets g raw).y i = g.link.func ((raw.y i + (∑ k, raw.y k) / n) / 2) :=
    fun _ => rfl
  simp only [hs]
  unfold offset
  cases raw.linearOffset with
  | none =>
    simp only [sub_zero]
    split <;> simp_all
  | some off =>
    dsimp only
    have e : vsub (fun i => g.link.func ((raw.y i + (∑ k, raw.y k) / n) / 2)) off
        = fun i => g.link.func ((raw.y i + (∑ k, raw.y k) / n) / 2) - off i := rfl
    rw [e]
    split <;> simp_all

/-- **C72** (default start).  In exact arithmetic, when the weighted Gram matrix is regular and no
initial guess is given, the iteration starts, on the user's scale, at the weighted least-squares
solution for the responses averaged with their mean and mapped through the link, given the offset. -/
theorem C72_default_start (he : env.Exact) (hd : raw.finalize std b = some d)
    (hw : ∀ i, 0 ≤ totalWt raw i) (hu : IsUnit (gram raw b).det) (hnone : options.initGuess = none) :
    IsLeastSquares (startTargets g raw) b
      (d.inverseTransformBeta (initialGuess env g d options)) := by
  have hwf := Dataset.finalize_wf hd
  have hd' := startTargets_finalize (g := g) hd
  set d' : Dataset ℝ n p b := { d with y := (startTargets g raw).y } with hd'def
  have hw' : ∀ i, 0 ≤ totalWt (startTargets g raw) i := hw
  rw [isLeastSquares_iff hw', ← Dataset.finalize_score (Family.lawfulAdj .linear) hd']
  have hsym : (Matrix.of (d.xConj.dotM d.x)).IsSymm := by rw [dotM_gramInt]; exact gramInt_symm
  have hu' : IsUnit (Matrix.of (d.xConj.dotM d.x)).det := by
    rw [dotM_gramInt]
    rw [← Dataset.finalize_gram hd, det_mul, det_mul] at hu
    exact isUnit_of_mul_isUnit_right (isUnit_of_mul_isUnit_left hu)
  obtain ⟨γ, hγ⟩ := he.solveh_complete
    (d.xConj.dotV fun i => (startTargets g raw).y i - offset raw i) hsym hu'
  have hinit : initialGuess env g d options = γ := by
    unfold initialGuess
    rw [hnone]
    dsimp only
    rw [initGuess_target hd, hγ]
  have hT : d'.transformBeta (d.inverseTransformBeta γ) = γ := by
    rw [hd'def, transformBeta_withY]
    exact hwf.transformBeta_inverseTransformBeta γ
  rw [hinit, hT]
  have h0 : d'.scoreInt Family.linear.glm γ = 0 := by
    funext j
    have hs := congrFun (he.solveh_sound hsym hγ) j
    rw [Dataset.scoreInt_apply (Family.lawfulAdj .linear)]
    have hlp : ∀ i, d'.linearPredictorStd γ i = ∑ k, d.x i k * γ k + offset raw i := by
      intro i
      rw [Dataset.linearPredictorStd_real]
      have e : offset d' i = offset d i := rfl
      rw [e, Dataset.finalize_offset hd]
    have hx : ∀ i j, d'.x i j = d.x i j := fun _ _ => rfl
    have ht : ∀ i, totalWt d' i = totalWt d i := fun _ => rfl
    have hy : ∀ i, d'.y i = (startTargets g raw).y i := fun _ => rfl
    simp only [linG_dNat, linG_mean, hlp, hx, ht, hy, mul_one, Pi.zero_apply]
    simp only [mulVec, dotProduct, of_apply, Mat.dotM, Mat.dotV, vdotBy_real,
      Dataset.xConj_real, Finset.sum_mul] at hs
    rw [Finset.sum_comm] at hs
    rw [← sub_eq_zero, ← Finset.sum_sub_distrib] at hs
    rw [← neg_eq_zero, ← Finset.sum_neg_distrib, ← hs]
    refine Finset.sum_congr rfl fun i _ => ?_
    have : ∑ k, totalWt d i * d.x i j * d.x i k * γ k
        = totalWt d i * d.x i j * ∑ k, d.x i k * γ k := by
      rw [Finset.mul_sum]; exact Finset.sum_congr rfl fun k _ => by ring
    rw [this]; ring
  rw [h0, mulVec_zero]

/-- **C72** (standardization).  The default start does not depend on whether the features were
standardized. -/
theorem C72_standardization_free {std' : Bool} {d' : Dataset ℝ n p b}
    {options' : FitOptions ℝ (ncols b p)} {env' : Env ℝ} (he : env.Exact) (he' : env'.Exact)
    (hd : raw.finalize std b = some d) (hd' : raw.finalize std' b = some d')
    (hw : ∀ i, 0 ≤ totalWt raw i) (hu : IsUnit (gram raw b).det)
    (hnone : options.initGuess = none) (hnone' : options'.initGuess = none) :
    d.inverseTransformBeta (initialGuess env g d options)
      = d'.inverseTransformBeta (initialGuess env' g d' options') := by
  exact leastSquares_unique (raw := startTargets g raw) hw hu
    (C72_default_start (g := g) he hd hw hu hnone) (C72_default_start (g := g) he' hd' hw hu hnone')

/-- **C72** (fallback).  If the solver refuses the Gram matrix, the iteration starts at zero. -/
theorem C72_fallback (hd : raw.finalize std b = some d) (hnone : options.initGuess = none)
    (herr : ∀ rhs, ∃ e, env.solveh (d.xConj.dotM d.x) rhs = .error e) :
    d.inverseTransformBeta (initialGuess env g d options) = 0 := by
  obtain ⟨e, h⟩ := herr (d.xConj.dotV fun i => (startTargets g raw).y i - offset raw i)
  have hinit : initialGuess env g d options = vzeros := by
    unfold initialGuess
    rw [hnone]
    dsimp only
    rw [initGuess_target hd, h]
  have h0 : d.transformBeta 0 = 0 := by rw [Dataset.transformBeta_eq, mulVec_zero]
  have hz : (vzeros : Vec ℝ (ncols b p)) = 0 := rfl
  rw [hinit, hz]
  conv_lhs => rw [← h0]
  exact (Dataset.finalize_wf hd).inverseTransformBeta_transformBeta 0

/-- A fit does not see how its starting point was obtained: giving no guess is the same as giving
the default start explicitly. -/
theorem regression_default_start {β₀ : Vec ℝ (ncols b p)} (hd : raw.finalize std b = some d)
    (hβ : d.inverseTransformBeta (initialGuess env g d options) = β₀) :
    regression env g d (options.withStart β₀)
      = (regression env g d options).map (·.withOptions (options.withStart β₀)) := by
  have hcore := regressionCore_congr (env := env) (g := g) (g' := g) (d := d) (d' := d) (o := options)
    (o' := options.withStart β₀) (fun _ => rfl) (fun _ => rfl) rfl rfl rfl rfl rfl
    (by rw [← hβ]; exact (Dataset.finalize_wf hd).transformBeta_inverseTransformBeta _)
  unfold regression
  rw [hcore]
  cases regressionCore env g d options <;> rfl

/-- **C72** (as seen by the user).  Omitting the initial guess gives the same outcome, with the same
coefficients, history and iteration count, as supplying the least-squares solution for the
transformed responses. -/
theorem C72_same_as_explicit {β₀ : Vec ℝ (ncols b p)} (he : env.Exact)
    (hd : raw.finalize std b = some d) (hw : ∀ i, 0 ≤ totalWt raw i) (hu : IsUnit (gram raw b).det)
    (hnone : options.initGuess = none) (hβ : IsLeastSquares (startTargets g raw) b β₀) :
    regression env g d (options.withStart β₀)
      = (regression env g d options).map (·.withOptions (options.withStart β₀)) :=
  regression_default_start hd (leastSquares_unique (raw := startTargets g raw) hw hu
    (C72_default_start he hd hw hu hnone) hβ)

/-- **C72** (singular designs).  If the solver refuses the Gram matrix, omitting the guess is the
same as starting from zero. -/
theorem C72_zero_start (hd : raw.finalize std b = some d) (hnone : options.initGuess = none)
    (herr : ∀ rhs, ∃ e, env.solveh (d.xConj.dotM d.x) rhs = .error e) :
    regression env g d (options.withStart 0)
      = (regression env g d options).map (·.withOptions (options.withStart 0)) :=
  regression_default_start hd (C72_fallback hd hnone herr)

/-! ### The hypotheses can be met -/

/-- With an offset of one on every row. -/
noncomputable def exOffRaw (y : Vec ℝ 3) : Dataset ℝ 3 1 false :=
  { exRaw y with linearOffset := some fun _ => 1 }

theorem exOffRaw_finalize (y : Vec ℝ 3) (std : Bool) :
    ∃ d, (exOffRaw y).finalize std true = some d := by
  cases std
  · exact ⟨_, rfl⟩
  · have h : Scalar.gt (exOffRaw y).nEff 1 = true := by
      have e : (exOffRaw y).nEff = (exRaw y).nEff := rfl
      rw [e, exRaw_nEff, gt_real]; norm_num
    exact ⟨_, by simp only [Dataset.finalize, Standardizer.fromDataset, if_true, h]; rfl⟩

/-- The start depends on the link and on the offset: for Poisson responses all equal to `e`, the
target is one everywhere, and an offset of one leaves zero as the least-squares start.  With or
without standardization, the fit with no guess is the fit from zero. -/
example (std : Bool) : ∃ d, (exOffRaw fun _ => Real.exp 1).finalize std true = some d ∧
    regression (exactEnv 0 1) Family.poisson.glm d ((exOpts 0 0 none 5).withStart 0)
      = (regression (exactEnv 0 1) Family.poisson.glm d (exOpts 0 0 none 5)).map
          (·.withOptions ((exOpts 0 0 none 5).withStart 0)) := by
  obtain ⟨d, hd⟩ := exOffRaw_finalize (fun _ => Real.exp 1) std
  have hw : ∀ i, 0 ≤ totalWt (exOffRaw fun _ => Real.exp 1) i :=
    fun i => (exRaw_totalWt_pos (fun _ => Real.exp 1) i).le
  refine ⟨d, hd, C72_same_as_explicit (exactEnv_exact le_rfl 1) hd hw
    (exRaw_gram_det fun _ => Real.exp 1) rfl ?_⟩
  have ht : ∀ i, (startTargets Family.poisson.glm (exOffRaw fun _ => Real.exp 1)).y i = 1 := by
    intro i
    have h2 : (Real.exp 1 + (∑ _k : Fin 3, Real.exp 1) / (3 : ℕ)) / 2 = Real.exp 1 := by
      simp
    change Family.poisson.glm.link.func ((Real.exp 1 + (∑ _k : Fin 3, Real.exp 1) / (3 : ℕ)) / 2) = 1
    rw [h2, func_real]
    exact Real.log_exp 1
  have h0 : sse (startTargets Family.poisson.glm (exOffRaw fun _ => Real.exp 1)) true 0 = 0 := by
    unfold sse
    refine Finset.sum_eq_zero fun i _ => ?_
    rw [ht]
    simp [linPred, offset, startTargets, exOffRaw]
  intro β
  rw [h0]
  exact Finset.sum_nonneg fun i _ => mul_nonneg (hw i) (sq_nonneg _)

end GLM
