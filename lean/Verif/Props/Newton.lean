/-
  C22, C23, C30: the IRLS equation over the reals.
-/
import Verif.Lemmas.Quad
import Verif.Lemmas.Trace
import Verif.Lemmas.Witness
import Verif.Lemmas.FamilyDeriv
import Verif.Props.Iteration
import Mathlib.LinearAlgebra.Matrix.PosDef

namespace GLM
open Spec Matrix
variable {n p : ℕ} {b : Bool} {env : Env ℝ} {g : Glm ℝ} {raw : Dataset ℝ n p false} {std : Bool}
  {d : Dataset ℝ n p b} {options : FitOptions ℝ (ncols b p)}

/-! ### C22 -/

/-- What a solution of the IRLS system is (internal helper). -/
theorem sol_sound (he : env.Exact) (hg : LawfulAdj g) (hl1 : options.l1 ≤ 0)
    {s : Irls ℝ (ncols b p)} (hr : Reg.Same s.reg (getReg options)) {v : Vec ℝ (ncols b p)}
    (h : s.sol env g d = .ok v) :
    Matrix.of ((s.reg.prepare s.guess).irlsMat (Irls.irlsMatVec env.eps g d s.guess).1 s.guess)
      *ᵥ v = (s.reg.prepare s.guess).irlsVec (Irls.irlsMatVec env.eps g d s.guess).2 s.guess := by
  refine he.solveh_sound ?_ h
  rw [lhsInt_eq hg (hr.prepare _) hl1]
  exact lhsInt_symm hg _ _

/-- Where the IRLS matrix is regular, the solution of the IRLS system is determined by the Newton
equation on the user's scale. -/
theorem sol_eq (he : env.Exact) (hg : LawfulAdj g) (hd : raw.finalize std b = some d)
    (hl1 : options.l1 ≤ 0) {s : Irls ℝ (ncols b p)} (hr : Reg.Same s.reg (getReg options))
    (hu : IsUnit (newtonMat env.eps g raw b options.l2 (scale d)
      (d.inverseTransformBeta s.guess)).det) {β' : Vec ℝ (ncols b p)}
    (hv : newtonMat env.eps g raw b options.l2 (scale d) (d.inverseTransformBeta s.guess)
        *ᵥ (β' - d.inverseTransformBeta s.guess)
      = penScore g raw b options.l1 options.l2 (scale d) (d.inverseTransformBeta s.guess)) :
    s.sol env g d = .ok (d.transformBeta β') := by
  have hwf := Dataset.finalize_wf hd
  have hs' := hr.prepare s.guess
  have hu' := (newtonMat_det hd hg options.l2 _).mp hu
  rw [hwf.transformBeta_inverseTransformBeta] at hu'
  refine he.solveh_eq ?_ ?_ ?_
  · rw [lhsInt_eq hg hs' hl1]; exact lhsInt_symm hg _ _
  · rw [lhsInt_eq hg hs' hl1]; exact hu'
  · rw [lhsInt_eq hg hs' hl1, rhsInt_eq hg hs' hl1]
    rw [newtonMat_eq hd hg, ← Dataset.tmat_gradient hd hg,
      hwf.transformBeta_inverseTransformBeta, ← mulVec_mulVec, ← mulVec_mulVec] at hv
    have hT : IsUnit d.tmatᵀ.det := by
      rw [det_transpose]; exact isUnit_iff_ne_zero.mpr hwf.det_tmat
    have := congrArg (fun z => (d.tmatᵀ)⁻¹ *ᵥ z) hv
    simp only [mulVec_mulVec, nonsing_inv_mul _ hT, one_mulVec] at this
    rw [← Matrix.mul_assoc, nonsing_inv_mul _ hT, Matrix.one_mul] at this
    rw [← this, ← mulVec_mulVec, mulVec_sub, ← Dataset.transformBeta_eq, ← Dataset.transformBeta_eq,
      hwf.transformBeta_inverseTransformBeta, mulVec_sub]
    abel

/-- The line-search loop returns positive powers of the constant only. -/
theorem stepScaleLoop_pow {f : ℝ → ℝ} (fuel : ℕ) (t : ℝ) : ∀ (j : ℕ) (m : ℝ),
    stepScaleLoop f (f 0) t fuel ((0.618033988749894 : ℝ) ^ j) = some (some m) →
    ∃ j : ℕ, m = (0.618033988749894 : ℝ) ^ (j + 1) := by
  induction fuel with
  | zero => simp [stepScaleLoop]
  | succ k ih =>
    intro j m h
    have e : (0.618033988749894 : ℝ) ^ j * goldenScale = 0.618033988749894 ^ (j + 1) := by
      rw [pow_succ]; congr 1; rw [goldenScale_real]; norm_num
    simp only [stepScaleLoop, e] at h
    split at h
    · split at h
      · simp only [Option.some.injEq] at h
        exact ⟨j, h.symm⟩
      · exact ih _ _ h
    · simp at h

theorem stepScale_mult {fuel : ℕ} {f : ℝ → ℝ} {tol m : ℝ} (h : stepScale fuel f tol = some m)
    (hm : m ≠ 0) : StepMult m := by
  unfold stepScale at h
  dsimp only at h
  split at h
  · simp at h
  · rename_i x hx
    simp only [Option.some.injEq] at h
    subst h
    obtain ⟨j, hj⟩ := stepScaleLoop_pow fuel |tol| 0 x (by simpa using hx)
    exact Or.inr (Or.inl ⟨j, hj⟩)
  · split at h <;> simp only [Option.some.injEq] at h
    · refine Or.inr (Or.inr ?_)
      rw [← h, goldenScale_real]; norm_num
    · exact absurd h.symm hm

/-- Every accepted step without L1 is a multiple of the Newton step (internal helper). -/
theorem cand_newton (he : env.Exact) (hg : LawfulAdj g) (hd : raw.finalize std b = some d)
    (hl1 : options.l1 ≤ 0) {initial : Vec ℝ (ncols b p)} {s s' : Irls ℝ (ncols b p)}
    {v : Vec ℝ (ncols b p)} {l : ℝ} (hi : Irls.Inv g d options initial s)
    (h : s.nextRaw env g d options.tol = .cand s' v l) :
    ∃ m, StepMult m ∧ newtonMat env.eps g raw b options.l2 (scale d)
        (d.inverseTransformBeta s.guess)
        *ᵥ (d.inverseTransformBeta v - d.inverseTransformBeta s.guess)
      = m • penScore g raw b options.l1 options.l2 (scale d) (d.inverseTransformBeta s.guess) := by
  obtain ⟨h1, h2, h3⟩ := hi.same.noL1 (getReg_noL1 hl1) s.guess
  have hc := s.nextRaw_case env g d options.tol
  rw [h] at hc
  generalize hr : (RawNext.cand s' v l : RawNext ℝ (ncols b p)) = r at hc
  cases hc <;> simp only [RawNext.cand.injEq, reduceCtorEq] at hr
  case admm ht => rw [h1, h3] at ht; simp at ht
  case full hs ht he' hg' =>
    obtain ⟨-, rfl, rfl⟩ := hr
    refine ⟨1, Or.inl rfl, ?_⟩
    rw [one_smul]
    exact newton_ext hd hg (hi.same.prepare _) hl1 (sol_sound he hg hl1 hi.same hs)
  case scaled v' hs ht he' hg' m hm h0 =>
    obtain ⟨-, rfl, rfl⟩ := hr
    have hm0 : m ≠ 0 := by
      rw [Bool.eq_false_iff, ne_eq, eq_real] at h0; exact h0
    refine ⟨m, stepScale_mult hm hm0, ?_⟩
    rw [← newton_ext hd hg (hi.same.prepare _) hl1 (sol_sound he hg hl1 hi.same hs)]
    rw [← mulVec_smul]
    congr 1
    have hwf := Dataset.finalize_wf hd
    have hlin : ∀ u w : Vec ℝ (ncols b p), d.tmat *ᵥ u = d.tmat *ᵥ w → u = w := by
      intro u w h
      rw [← Dataset.transformBeta_eq, ← Dataset.transformBeta_eq] at h
      rw [← hwf.inverseTransformBeta_transformBeta u, h, hwf.inverseTransformBeta_transformBeta]
    have hT : ∀ u, d.tmat *ᵥ d.inverseTransformBeta u = u := by
      intro u; rw [← Dataset.transformBeta_eq, hwf.transformBeta_inverseTransformBeta]
    apply hlin
    rw [mulVec_smul, mulVec_sub, mulVec_sub, hT, hT, hT]
    funext j
    simp only [Pi.sub_apply, Pi.smul_apply, smul_eq_mul, Irls.interp]
    ring

/-- C22.  In exact arithmetic, without L1: each point of the history of a successful fit (on the
user's scale, starting from the initial guess) is reached from the previous one by a multiple of the
Newton step: `(I_ε(β) + Λ)(β' - β) = m · score_reg(β)`. -/
theorem C22_newton_steps (he : env.Exact) (hg : LawfulAdj g) (hd : raw.finalize std b = some d)
    (hl1 : options.l1 ≤ 0) {f : Fit ℝ n p b} (h : regression env g d options = .ok f) :
    (d.inverseTransformBeta (initialGuess env g d options) ::
        f.history.map IrlsStep.guess).IsChain fun β β' =>
      ∃ m, StepMult m ∧ newtonMat env.eps g raw b options.l2 (scale d) β *ᵥ (β' - β)
        = m • penScore g raw b options.l1 options.l2 (scale d) β := by
  obtain ⟨hist, hh, hc⟩ := regression_chain h
    (R := fun γ v => ∃ m, StepMult m ∧ newtonMat env.eps g raw b options.l2 (scale d)
        (d.inverseTransformBeta γ) *ᵥ (d.inverseTransformBeta v - d.inverseTransformBeta γ)
      = m • penScore g raw b options.l1 options.l2 (scale d) (d.inverseTransformBeta γ))
    (fun s s' v l hi hn => cand_newton he hg hd hl1 hi hn)
  have e : d.inverseTransformBeta (initialGuess env g d options) :: f.history.map IrlsStep.guess
      = (initialGuess env g d options :: hist.map IrlsStep.guess).map d.inverseTransformBeta := by
    rw [hh]; simp [Function.comp_def]
  rw [e, List.isChain_map]
  exact hc

/-- The solution of the IRLS system at `γ` for a fresh regularizer, as an external point. -/
noncomputable def newtonPoint (env : Env ℝ) (g : Glm ℝ) (d : Dataset ℝ n p b)
    (options : FitOptions ℝ (ncols b p)) (β : Vec ℝ (ncols b p)) :
    Except LinalgError (Vec ℝ (ncols b p)) :=
  (((getReg options).nextGuess env (d.transformBeta β)
    (Irls.irlsMatVec env.eps g d (d.transformBeta β)).2
    (Irls.irlsMatVec env.eps g d (d.transformBeta β)).1).2).map d.inverseTransformBeta

/-- C22 (one step, and its fixed points): where the IRLS matrix is regular, the next point exists,
solves the Newton equation, and equals the current point exactly when the regularized score
vanishes. -/
theorem C22_fixed_point (he : env.Exact) (hg : LawfulAdj g) (hd : raw.finalize std b = some d)
    (hl1 : options.l1 ≤ 0) (β : Vec ℝ (ncols b p))
    (hu : IsUnit (newtonMat env.eps g raw b options.l2 (scale d) β).det) :
    ∃ β', newtonPoint env g d options β = .ok β' ∧
      newtonMat env.eps g raw b options.l2 (scale d) β *ᵥ (β' - β)
        = penScore g raw b options.l1 options.l2 (scale d) β ∧
      (β' = β ↔ penScore g raw b options.l1 options.l2 (scale d) β = 0) := by
  have hwf := Dataset.finalize_wf hd
  have hsame : Reg.Same ((getReg options).prepare (d.transformBeta β)) (getReg options) :=
    (Reg.Same.refl _).prepare _
  have hu' := (newtonMat_det hd hg options.l2 β).mp hu
  rw [← lhsInt_eq hg hsame hl1] at hu'
  have hsymm : (Matrix.of (((getReg options).prepare (d.transformBeta β)).irlsMat
      (Irls.irlsMatVec env.eps g d (d.transformBeta β)).1 (d.transformBeta β))).IsSymm := by
    rw [lhsInt_eq hg hsame hl1]; exact lhsInt_symm hg _ _
  obtain ⟨v, hv⟩ := he.solveh_complete (((getReg options).prepare (d.transformBeta β)).irlsVec
      (Irls.irlsMatVec env.eps g d (d.transformBeta β)).2 (d.transformBeta β)) hsymm hu'
  have hn := newton_ext hd hg hsame hl1 (he.solveh_sound hsymm hv)
  rw [hwf.inverseTransformBeta_transformBeta] at hn
  refine ⟨d.inverseTransformBeta v, ?_, hn, ?_⟩
  · unfold newtonPoint Reg.nextGuess
    dsimp only
    rw [hv]; rfl
  · constructor
    · intro h
      rw [h, sub_self, mulVec_zero] at hn
      exact hn.symm
    · intro h
      rw [h] at hn
      have := congrArg (fun z => (newtonMat env.eps g raw b options.l2 (scale d) β)⁻¹ *ᵥ z) hn
      simp only [mulVec_mulVec, nonsing_inv_mul _ hu, one_mulVec, mulVec_zero] at this
      exact sub_eq_zero.mp this

/-- C22 (whole fit): started at a zero of the regularized score where the IRLS matrix is regular, a
fit returns that point without taking a step, whatever the budget and tolerance. -/
theorem C22_stationary_start (he : env.Exact) (hg : LawfulAdj g)
    (hd : raw.finalize std b = some d) (hl1 : options.l1 ≤ 0) {β : Vec ℝ (ncols b p)}
    (hβ : options.initGuess = some β)
    (hu : IsUnit (newtonMat env.eps g raw b options.l2 (scale d) β).det)
    (hs : penScore g raw b options.l1 options.l2 (scale d) β = 0) :
    ∃ f, regression env g d options = .ok f ∧ f.history = [] ∧ f.nIter = 0 ∧ f.result = β := by
  have hwf := Dataset.finalize_wf hd
  have hinit : initialGuess env g d options = d.transformBeta β := by
    unfold initialGuess; rw [hβ]
  set s := Irls.new g d (initialGuess env g d options) options with hsdef
  have hguess : s.guess = d.transformBeta β := hinit
  have hsol : s.sol env g d = .ok s.guess := by
    have hext : d.inverseTransformBeta s.guess = β := by
      rw [hguess, hwf.inverseTransformBeta_transformBeta]
    rw [hguess]
    refine sol_eq he hg hd hl1 (Reg.Same.refl _) ?_ ?_
    · rw [hext]; exact hu
    · rw [hext, hs, sub_self, mulVec_zero]
  obtain ⟨t1, t2, t3⟩ := (Reg.Same.refl (getReg options)).noL1 (getReg_noL1 hl1) s.guess
  have hstop := Irls.nextRaw_equal (env := env) (g := g) (data := d) (tol := options.tol) (s := s)
    (v := s.guess) rfl hsol (by
      change ((getReg options).prepare s.guess).terminateOk options.tol = true
      rw [t1]; exact t3 _) (by simp [vecEq])
  refine ⟨Fit.new g d options (s.prep.makeLastStep) s.prep, ?_, rfl, rfl, ?_⟩
  · rw [regression_eq, ← hsdef, fitLoop_eq, hstop]
    rfl
  · change d.inverseTransformBeta (initialGuess env g d options) = β
    rw [hinit, hwf.inverseTransformBeta_transformBeta]

/-! ### C30 -/

/-- C30.  With `l2 > 0`, non-negative weights and variances and, if there is an intercept, one
observation that carries weight, the IRLS matrix is positive definite. -/
theorem C30_ridge_posDef {eps l2 : ℝ} {σ : Fin p → ℝ} {β : Vec ℝ (ncols b p)} (heps : 0 ≤ eps)
    (hl2 : 0 < l2) (hσ : ∀ j, 0 < σ j) (hw : ∀ i, 0 ≤ totalWt raw i)
    (hv : ∀ i, 0 ≤ g.variance (meanAt g raw b β i))
    (hint : b = true → ∃ i, 0 < totalWt raw i *
      (g.link.dNatParam (linPred raw b β i) ^ 2 * g.variance (meanAt g raw b β i) + eps)) :
    (newtonMat eps g raw b l2 σ β).PosDef := by
  refine PosDef.of_dotProduct_mulVec_pos (isHermitian_of_symm (newtonMat_symm _ _ _ _)) ?_
  intro x hx
  have hstar : star x = x := by ext; simp
  rw [hstar, quad_newton]
  have h1 : ∀ i, 0 ≤ totalWt raw i * (g.link.dNatParam (linPred raw b β i) ^ 2
        * g.variance (meanAt g raw b β i) + eps) := fun i =>
    mul_nonneg (hw i) (add_nonneg (mul_nonneg (sq_nonneg _) (hv i)) heps)
  have h1' : ∀ i, 0 ≤ totalWt raw i * (g.link.dNatParam (linPred raw b β i) ^ 2
        * g.variance (meanAt g raw b β i) + eps) * (∑ j, design b raw.x i j * x j) ^ 2 := fun i =>
    mul_nonneg (h1 i) (sq_nonneg _)
  have h2 : ∀ j, 0 ≤ max l2 0 * σ j ^ 2 * slopes b x j ^ 2 := fun j =>
    mul_nonneg (mul_nonneg (le_max_right _ _) (sq_nonneg _)) (sq_nonneg _)
  have hA := Finset.sum_nonneg fun i (_ : i ∈ Finset.univ) => h1' i
  have hB := Finset.sum_nonneg fun j (_ : j ∈ Finset.univ) => h2 j
  refine lt_of_le_of_ne (add_nonneg hA hB) fun h0 => hx ?_
  have hA0 : ∑ i, totalWt raw i * (g.link.dNatParam (linPred raw b β i) ^ 2
        * g.variance (meanAt g raw b β i) + eps) * (∑ j, design b raw.x i j * x j) ^ 2 = 0 := by
    linarith
  have hB0 : ∑ j, max l2 0 * σ j ^ 2 * slopes b x j ^ 2 = 0 := by linarith
  rw [Finset.sum_eq_zero_iff_of_nonneg fun i _ => h1' i] at hA0
  rw [Finset.sum_eq_zero_iff_of_nonneg fun j _ => h2 j] at hB0
  refine eq_zero_of_slopes (raw := raw) x (fun j => ?_) fun hb => ?_
  · have := hB0 j (Finset.mem_univ j)
    rw [max_eq_left hl2.le] at this
    have hne : l2 * σ j ^ 2 ≠ 0 := (mul_pos hl2 (pow_pos (hσ j) 2)).ne'
    simpa using (mul_eq_zero.mp this).resolve_left hne
  · obtain ⟨i, hi⟩ := hint hb
    refine ⟨i, ?_⟩
    have := hA0 i (Finset.mem_univ i)
    simpa using (mul_eq_zero.mp this).resolve_left hi.ne'

/-- Without regularization, a positive `eps` and a design of full column rank make the IRLS matrix
positive definite. -/
theorem C30_fullRank_posDef {eps l2 : ℝ} {σ : Fin p → ℝ} {β : Vec ℝ (ncols b p)} (heps : 0 < eps)
    (hw : ∀ i, 0 ≤ totalWt raw i) (hv : ∀ i, 0 ≤ g.variance (meanAt g raw b β i))
    (hu : IsUnit (gram raw b).det) :
    (newtonMat eps g raw b l2 σ β).PosDef := by
  refine PosDef.of_dotProduct_mulVec_pos (isHermitian_of_symm (newtonMat_symm _ _ _ _)) ?_
  intro x hx
  have hstar : star x = x := by ext; simp
  rw [hstar, quad_newton]
  have hB : 0 ≤ ∑ j, max l2 0 * σ j ^ 2 * slopes b x j ^ 2 := Finset.sum_nonneg fun j _ =>
    mul_nonneg (mul_nonneg (le_max_right _ _) (sq_nonneg _)) (sq_nonneg _)
  have hle : eps * (x ⬝ᵥ (gram raw b *ᵥ x)) ≤ ∑ i, totalWt raw i *
      (g.link.dNatParam (linPred raw b β i) ^ 2 * g.variance (meanAt g raw b β i) + eps)
      * (∑ j, design b raw.x i j * x j) ^ 2 := by
    rw [quad_gram, Finset.mul_sum]
    refine Finset.sum_le_sum fun i _ => ?_
    have : 0 ≤ totalWt raw i * (g.link.dNatParam (linPred raw b β i) ^ 2
        * g.variance (meanAt g raw b β i)) * (∑ j, design b raw.x i j * x j) ^ 2 :=
      mul_nonneg (mul_nonneg (hw i) (mul_nonneg (sq_nonneg _) (hv i))) (sq_nonneg _)
    linarith
  have hG : 0 < x ⬝ᵥ (gram raw b *ᵥ x) := gram_pos hw hu hx
  have := mul_pos heps hG
  linarith

/-- C30 (whole fit): under ridge regularization (with or without an intercept), or with a design of
full column rank, and a positive machine epsilon, an L1-free fit never ends with a linear-algebra
error. -/
theorem C30_no_linalg_error (he : env.Exact) (hg : LawfulAdj g) (hd : raw.finalize std b = some d)
    (hl1 : options.l1 ≤ 0) (heps : 0 < env.eps) (hw : ∀ i, 0 ≤ totalWt raw i)
    (hv : ∀ ω, 0 ≤ g.variance (g.link.funcInv ω))
    (hreg : (0 < options.l2 ∧ (b = true → ∃ i, 0 < totalWt raw i)) ∨ IsUnit (gram raw b).det) :
    regression env g d options ≠ .err .linalg := by
  intro h
  obtain ⟨s, s', hi, -, hn⟩ := (fitLoop_inv (P := fun _ => True) (fun _ _ _ _ _ _ _ => trivial) _
    none Irls.Inv.new trivial).2.2.1 (regression_err h)
  have hpos : (newtonMat env.eps g raw b options.l2 (scale d)
      (d.inverseTransformBeta s.guess)).PosDef := by
    rcases hreg with ⟨hl2, hint⟩ | hu
    · refine C30_ridge_posDef heps.le hl2 (Dataset.scale_pos hd) hw (fun i => hv _) fun hb => ?_
      obtain ⟨i, hi⟩ := hint hb
      exact ⟨i, mul_pos hi (add_pos_of_nonneg_of_pos (mul_nonneg (sq_nonneg _) (hv _)) heps)⟩
    · exact C30_fullRank_posDef heps hw (fun i => hv _) hu
  have hu := (isUnit_iff_isUnit_det _).mp hpos.isUnit
  have hsol := sol_eq he hg hd hl1 hi.same hu (β' := (newtonMat env.eps g raw b options.l2 (scale d)
      (d.inverseTransformBeta s.guess))⁻¹ *ᵥ penScore g raw b options.l1 options.l2 (scale d)
      (d.inverseTransformBeta s.guess) + d.inverseTransformBeta s.guess) (by
    rw [add_sub_cancel_right, mulVec_mulVec, mul_nonsing_inv _ hu, one_mulVec])
  have hc := s.nextRaw_case env g d options.tol
  rw [hn] at hc
  generalize hr : (RawNext.linalg s' : RawNext ℝ (ncols b p)) = r at hc
  cases hc <;> try (simp only [reduceCtorEq] at hr)
  case linalg hs => rw [hsol] at hs; simp at hs

/-- The variance of every family of the crate is non-negative at every linear predictor. -/
theorem Family.variance_nonneg (fam : Family) (hv : ValidFamily fam) (ω : ℝ) :
    0 ≤ (fam.glm (F := ℝ)).variance ((fam.glm (F := ℝ)).link.funcInv ω) := by
  by_cases hw : ω ∈ predDom fam
  · rw [variance_real]
    exact (varianceFn_pos fam hv (funcInv_mem fam hv hw)).le
  · rw [variance_real, funcInv_real]
    cases fam <;> simp only [predDom, Set.mem_univ, not_true_eq_false] at hw <;>
      simp only [varianceFn] <;> positivity

/-- C30 for every family of the crate: positive epsilon and non-negative weights, and either an L2
penalty or full column rank, rule out a linear-algebra error. -/
theorem C30_families (fam : Family) (hfam : ValidFamily fam) (he : env.Exact)
    (hd : raw.finalize std b = some d) (hl1 : options.l1 ≤ 0) (heps : 0 < env.eps)
    (hw : ∀ i, 0 ≤ totalWt raw i)
    (hreg : (0 < options.l2 ∧ (b = true → ∃ i, 0 < totalWt raw i)) ∨ IsUnit (gram raw b).det) :
    regression env fam.glm d options ≠ .err .linalg :=
  C30_no_linalg_error he (Family.lawfulAdj fam) hd hl1 heps hw (fam.variance_nonneg hfam) hreg

/-! ### Concrete cases -/

/-- A Poisson fit of the data set with ridge penalty cannot fail in linear algebra. -/
example (std : Bool) (init : Option (Vec ℝ (ncols true 1))) (m : ℕ) : ∃ d,
    (exRaw ![1, 0, 4]).finalize std true = some d ∧
    regression (exactEnv (1 / 1000) 7) Family.poisson.glm d (exOpts 0 2 init m) ≠ .err .linalg := by
  obtain ⟨d, hd⟩ := exRaw_finalize ![1, 0, 4] std true
  exact ⟨d, hd, C30_families .poisson trivial (exactEnv_exact (by norm_num) 7) hd le_rfl
    (by norm_num [exactEnv]) (fun i => (exRaw_totalWt_pos _ i).le)
    (Or.inl ⟨by norm_num [exOpts], fun _ => ⟨0, exRaw_totalWt_pos _ 0⟩⟩)⟩

/-- All counts one: `β = 0` is stationary for Poisson regression, with any ridge penalty. -/
theorem exPoisson_stationary (σ : Fin 1 → ℝ) (l2 : ℝ) :
    penScore Family.poisson.glm (exRaw ![1, 1, 1]) true 0 l2 σ 0 = 0 := by
  funext j
  have hlin : ∀ i, linPred (exRaw ![1, 1, 1]) true 0 i = 0 := fun i => by
    rw [exRaw_linPred]; simp
  have hy : ∀ i, (exRaw ![1, 1, 1]).y i = 1 := fun i => by fin_cases i <;> rfl
  have h0 : slopes true (0 : Vec ℝ (ncols true 1)) = 0 := rfl
  simp [penScore, scoreVec, meanAt, hlin, hy, funcInv_real, h0, onSlopes_zero]

theorem exPoisson_newton (y : Vec ℝ 3) (σ : Fin 1 → ℝ) {eps l2 : ℝ} (heps : 0 < eps)
    (β : Vec ℝ (ncols true 1)) :
    IsUnit (newtonMat eps Family.poisson.glm (exRaw y) true l2 σ β).det :=
  (Matrix.isUnit_iff_isUnit_det _).mp
    (C30_fullRank_posDef heps (fun i => (exRaw_totalWt_pos _ i).le)
    (fun _ => Family.variance_nonneg .poisson trivial _) (exRaw_gram_det _)).isUnit

/-- The stationary start is met by a concrete Poisson regression. -/
example (std : Bool) (m : ℕ) : ∃ d f, (exRaw ![1, 1, 1]).finalize std true = some d ∧
    regression (exactEnv (1 / 1000) 7) Family.poisson.glm d (exOpts 0 2 (some 0) m) = .ok f ∧
    f.result = 0 := by
  obtain ⟨d, hd⟩ := exRaw_finalize ![1, 1, 1] std true
  obtain ⟨f, h1, -, -, h2⟩ := C22_stationary_start (options := exOpts 0 2 (some 0) m)
    (exactEnv_exact (by norm_num : (0 : ℝ) ≤ 1 / 1000) 7) (Family.lawfulAdj .poisson) hd le_rfl rfl
    (exPoisson_newton _ _ (by norm_num [exactEnv]) _) (exPoisson_stationary _ _)
  exact ⟨d, f, hd, h1, h2⟩

end GLM
