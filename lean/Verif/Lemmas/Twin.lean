/-
  Two fits whose problems correspond step by step: the objective of one is an increasing affine
  function of the objective of the other at corresponding coefficients, and the Newton equations
  correspond.  Used for C79 and C82.
-/
import Verif.Spec.Coding
import Verif.Props.RidgeLinear
import Verif.Props.Start

namespace GLM
open Spec Matrix
variable {n n' p p' : ℕ} {b b' : Bool} {env : Env ℝ} {g g' : Glm ℝ} {raw : Dataset ℝ n p false}
  {raw' : Dataset ℝ n' p' false} {T : Matrix (Fin (ncols b p)) (Fin (ncols b' p')) ℝ}
  {t : Vec ℝ (ncols b p)} {c κ : ℝ}

section algebra
variable {k k' : ℕ}

/-- A symmetric matrix is determined by its quadratic form. -/
theorem symm_eq_of_quad {A B : Matrix (Fin k) (Fin k) ℝ} (hA : A.IsSymm) (hB : B.IsSymm)
    (h : ∀ x, x ⬝ᵥ (A *ᵥ x) = x ⬝ᵥ (B *ᵥ x)) : A = B := by
  have key : ∀ x y, x ⬝ᵥ (A *ᵥ y) = x ⬝ᵥ (B *ᵥ y) := by
    intro x y
    have h1 := h (x + y)
    simp only [mulVec_add, dotProduct_add, add_dotProduct] at h1
    rw [h x, h y, dot_mulVec_comm hA y x, dot_mulVec_comm hB y x] at h1
    linarith
  ext i j
  have := key (Pi.single i 1) (Pi.single j 1)
  simpa [mulVec_single, single_dotProduct] using this

theorem isUnit_det_of_mul {A B : Matrix (Fin k) (Fin k) ℝ} (h : A * B = 1) : IsUnit A.det :=
  (Matrix.isUnit_iff_isUnit_det _).mp (IsUnit.of_mul_eq_one _ h)

variable {S : Matrix (Fin k) (Fin k') ℝ} {U : Matrix (Fin k') (Fin k) ℝ}

/-- Inverse of a matrix in other coordinates. -/
theorem congr_mul_inv (h1 : S * U = 1) (h2 : U * S = 1) {A : Matrix (Fin k) (Fin k) ℝ}
    (hA : IsUnit A.det) : (Sᵀ * A * S) * (U * A⁻¹ * Uᵀ) = 1 := by
  calc (Sᵀ * A * S) * (U * A⁻¹ * Uᵀ) = Sᵀ * A * (S * U) * A⁻¹ * Uᵀ := by
        simp only [Matrix.mul_assoc]
    _ = Sᵀ * (A * A⁻¹) * Uᵀ := by rw [h1, Matrix.mul_one, Matrix.mul_assoc Sᵀ]
    _ = 1 := by rw [mul_nonsing_inv _ hA, Matrix.mul_one, ← transpose_mul, h2, transpose_one]

theorem congr_det (h1 : S * U = 1) (h2 : U * S = 1) (A : Matrix (Fin k) (Fin k) ℝ) :
    IsUnit (Sᵀ * A * S).det ↔ IsUnit A.det := by
  refine ⟨fun h => ?_, fun h => isUnit_det_of_mul (congr_mul_inv h1 h2 h)⟩
  have := isUnit_det_of_mul (congr_mul_inv h2 h1 h)
  have e : Uᵀ * (Sᵀ * A * S) * U = A := by
    calc Uᵀ * (Sᵀ * A * S) * U = (Uᵀ * Sᵀ) * A * (S * U) := by simp only [Matrix.mul_assoc]
      _ = A := by rw [← transpose_mul, h1, transpose_one, Matrix.one_mul, Matrix.mul_one]
  rwa [e] at this

theorem congr_inv (h1 : S * U = 1) (h2 : U * S = 1) {A : Matrix (Fin k) (Fin k) ℝ}
    (hA : IsUnit A.det) : (Sᵀ * A * S)⁻¹ = U * A⁻¹ * Uᵀ :=
  inv_eq_right_inv (congr_mul_inv h1 h2 hA)

end algebra

/-- The problems of two fits correspond: at corresponding coefficients `T β' + t` and `β'` the
objective of the one is `c` times that of the other plus `κ`, with corresponding derivatives and
Newton matrices. -/
structure Twin (eps : ℝ) (T : Matrix (Fin (ncols b p)) (Fin (ncols b' p')) ℝ) (t : Vec ℝ (ncols b p))
    (c κ : ℝ) (g g' : Glm ℝ) (raw : Dataset ℝ n p false) (raw' : Dataset ℝ n' p' false)
    (l1 l2 l1' l2' : ℝ) (σ : Fin p → ℝ) (σ' : Fin p' → ℝ) : Prop where
  invertible : ∃ U : Matrix (Fin (ncols b' p')) (Fin (ncols b p)) ℝ, T * U = 1 ∧ U * T = 1
  pos : 0 < c
  obj : ∀ β', penLogLik g raw b l1 l2 σ (T *ᵥ β' + t) = c * penLogLik g' raw' b' l1' l2' σ' β' + κ
  score : ∀ β', c • penScore g' raw' b' l1' l2' σ' β' = Tᵀ *ᵥ penScore g raw b l1 l2 σ (T *ᵥ β' + t)
  newton : ∀ β', c • newtonMat eps g' raw' b' l2' σ' β'
    = Tᵀ * newtonMat eps g raw b l2 σ (T *ᵥ β' + t) * T

/-- A recorded step of the one fit, in terms of the other. -/
noncomputable def twinStep (T : Matrix (Fin (ncols b p)) (Fin (ncols b' p')) ℝ) (t : Vec ℝ (ncols b p))
    (c κ : ℝ) (st : IrlsStep ℝ (ncols b' p')) : IrlsStep ℝ (ncols b p) :=
  { guess := T *ᵥ st.guess + t, like := c * st.like + κ }

/-- Corresponding errors. -/
inductive TwinError (T : Matrix (Fin (ncols b p)) (Fin (ncols b' p')) ℝ) (t : Vec ℝ (ncols b p))
    (c κ : ℝ) (d : Dataset ℝ n p b) (d' : Dataset ℝ n' p' b') :
    FitError ℝ (ncols b p) → FitError ℝ (ncols b' p') → Prop
  | linalg : TwinError T t c κ d d' .linalg .linalg
  | maxIter (m : ℕ) {h h'} (hh : h.map (extStep d) = (h'.map (extStep d')).map (twinStep T t c κ)) :
      TwinError T t c κ d d' (.maxIter m h) (.maxIter m h')

/-- Two fits took corresponding courses. -/
structure TwinCourse (T : Matrix (Fin (ncols b p)) (Fin (ncols b' p')) ℝ) (t : Vec ℝ (ncols b p))
    (c κ : ℝ) (f : Fit ℝ n p b) (f' : Fit ℝ n' p' b') : Prop where
  result : f.result = T *ᵥ f'.result + t
  history : f.history = f'.history.map (twinStep T t c κ)
  nIter : f.nIter = f'.nIter

/-- The convergence tests of two corresponding fits agree: either both tolerances are zero, or they
are equal and corresponding internal coefficients have the same lengths and distances. -/
def TwinTol (T : Matrix (Fin (ncols b p)) (Fin (ncols b' p')) ℝ) (t : Vec ℝ (ncols b p)) (c : ℝ)
    (d : Dataset ℝ n p b) (d' : Dataset ℝ n' p' b') (tol tol' : ℝ) : Prop :=
  (tol = 0 ∧ tol' = 0) ∨ (tol = tol' ∧ c = 1 ∧ n = n' ∧ ncols b p = ncols b' p' ∧
    ∀ u u' v v', d.inverseTransformBeta u = T *ᵥ d'.inverseTransformBeta u' + t →
      d.inverseTransformBeta v = T *ᵥ d'.inverseTransformBeta v' + t →
      ∑ j, u j * u j = ∑ j, u' j * u' j ∧
      ∑ j, (u j - v j) * (u j - v j) = ∑ j, (u' j - v' j) * (u' j - v' j))

section affine

theorem gt_affine (hc : 0 < c) (x y : ℝ) :
    Scalar.gt (c * x + κ) (c * y + κ) = Scalar.gt x y := by
  rw [Bool.eq_iff_iff, gt_real, gt_real]
  constructor
  · intro h; exact lt_of_mul_lt_mul_left (by linarith) hc.le
  · intro h; have := mul_lt_mul_of_pos_left h hc; linarith

theorem totalCmp_affine (hc : 0 < c) (x y : ℝ) :
    Scalar.totalCmp (c * x + κ) (c * y + κ) = Scalar.totalCmp x y := by
  have e1 : c * x + κ < c * y + κ ↔ x < y := by
    constructor
    · intro h; exact lt_of_mul_lt_mul_left (by linarith) hc.le
    · intro h; have := mul_lt_mul_of_pos_left h hc; linarith
  have e2 : c * x + κ = c * y + κ ↔ x = y := by
    rw [add_left_inj]; exact mul_right_inj' hc.ne'
  change (if _ then _ else if _ then _ else _) = (if _ then _ else if _ then _ else _)
  simp only [e1, e2]

theorem stepScaleLoop_affine (hc : 0 < c) (f : ℝ → ℝ) (f0 tol : ℝ) : ∀ (fuel : ℕ) (x : ℝ),
    stepScaleLoop (fun m => c * f m + κ) (c * f0 + κ) tol fuel x = stepScaleLoop f f0 tol fuel x
  | 0, _ => rfl
  | fuel + 1, x => by
    simp only [stepScaleLoop, gt_affine hc, stepScaleLoop_affine hc f f0 tol fuel]

theorem stepScale_affine (hc : 0 < c) (fuel : ℕ) (f : ℝ → ℝ) (tol : ℝ) :
    stepScale fuel (fun m => c * f m + κ) tol = stepScale fuel f tol := by
  simp only [stepScale, stepScaleLoop_affine hc, gt_affine hc]

end affine

/-! ### The iteration -/

theorem vecEq_iff {k : ℕ} {u v : Vec ℝ k} : vecEq u v = true ↔ u = v := by
  simp only [vecEq, List.all_eq_true, List.mem_finRange, forall_true_left, eq_real]
  exact ⟨fun h => funext h, fun h j => congrFun h j⟩

theorem smallDeltaVec_zero {k : ℕ} {u v : Vec ℝ k} (h : smallDeltaVec u v 0 = true) : u = v := by
  rw [smallDeltaVec, le_real] at h
  simp only [mul_zero, vsum_real] at h
  have h0 := (Finset.sum_eq_zero_iff_of_nonneg fun j _ => mul_self_nonneg (vsub u v j)).mp
    (le_antisymm h (Finset.sum_nonneg fun j _ => mul_self_nonneg _))
  funext j
  have := mul_self_eq_zero.mp (h0 j (Finset.mem_univ j))
  exact sub_eq_zero.mp this

section run
variable {std std' : Bool} {d : Dataset ℝ n p b} {d' : Dataset ℝ n' p' b'}
  {o : FitOptions ℝ (ncols b p)} {o' : FitOptions ℝ (ncols b' p')}

theorem inverse_inj (hd : raw.finalize std b = some d) {u v : Vec ℝ (ncols b p)}
    (h : d.inverseTransformBeta u = d.inverseTransformBeta v) : u = v := by
  have hwf := Dataset.finalize_wf hd
  rw [← hwf.transformBeta_inverseTransformBeta u, h, hwf.transformBeta_inverseTransformBeta]

/-- Corresponding states of the two iterations. -/
structure TwinSim (T : Matrix (Fin (ncols b p)) (Fin (ncols b' p')) ℝ) (t : Vec ℝ (ncols b p))
    (c κ : ℝ) (g g' : Glm ℝ) (d : Dataset ℝ n p b) (d' : Dataset ℝ n' p' b') (o : FitOptions ℝ (ncols b p))
    (o' : FitOptions ℝ (ncols b' p')) (s : Irls ℝ (ncols b p)) (s' : Irls ℝ (ncols b' p')) :
    Prop where
  inv : ∃ i, Irls.Inv g d o i s
  inv' : ∃ i, Irls.Inv g' d' o' i s'
  guess : d.inverseTransformBeta s.guess = T *ᵥ d'.inverseTransformBeta s'.guess + t
  done : s.done = s'.done
  nIter : s.nIter = s'.nIter
  history : s.history.map (extStep d) = (s'.history.map (extStep d')).map (twinStep T t c κ)

/-- Corresponding outcomes of one call. -/
inductive TwinNext (T : Matrix (Fin (ncols b p)) (Fin (ncols b' p')) ℝ) (t : Vec ℝ (ncols b p))
    (c κ : ℝ) (g g' : Glm ℝ) (d : Dataset ℝ n p b) (d' : Dataset ℝ n' p' b') (o : FitOptions ℝ (ncols b p))
    (o' : FitOptions ℝ (ncols b' p')) : RawNext ℝ (ncols b p) → RawNext ℝ (ncols b' p') → Prop
  | stop {s s'} (h : TwinSim T t c κ g g' d d' o o' s s') : TwinNext T t c κ g g' d d' o o' (.stop s) (.stop s')
  | linalg {s s'} : TwinNext T t c κ g g' d d' o o' (.linalg s) (.linalg s')
  | diverge {s s'} : TwinNext T t c κ g g' d d' o o' (.diverge s) (.diverge s')
  | cand {s s' v v'} (h : TwinSim T t c κ g g' d d' o o' s s')
      (hv : d.inverseTransformBeta v = T *ᵥ d'.inverseTransformBeta v' + t) :
      TwinNext T t c κ g g' d d' o o' (.cand s v (g.logLike d v)) (.cand s' v' (g'.logLike d' v'))

variable (he : env.Exact) (hdec : env.Decides) (hg : LawfulAdj g) (hg' : LawfulAdj g')
  (h : Twin env.eps T t c κ g g' raw raw' o.l1 o.l2 o'.l1 o'.l2 (scale d) (scale d'))
  (hd : raw.finalize std b = some d) (hd' : raw'.finalize std' b' = some d')
  (h1 : o.l1 ≤ 0) (h1' : o'.l1 ≤ 0)

theorem sol_singular (hdec : env.Decides) (hg : LawfulAdj g) (hd : raw.finalize std b = some d)
    (h1 : o.l1 ≤ 0) {s : Irls ℝ (ncols b p)} (hr : Reg.Same s.reg (getReg o))
    (hu : ¬ IsUnit (newtonMat env.eps g raw b o.l2 (scale d)
      (d.inverseTransformBeta s.guess)).det) : s.sol env g d = .error .failed := by
  rw [newtonMat_det hd hg, (Dataset.finalize_wf hd).transformBeta_inverseTransformBeta] at hu
  refine hdec.solveh _ ?_
  rwa [lhsInt_eq hg (hr.prepare _) h1]

include he hdec hg hg' h hd hd' h1 h1' in
/-- The systems of the two iterations have corresponding solutions. -/
theorem twin_sol {s : Irls ℝ (ncols b p)} {s' : Irls ℝ (ncols b' p')}
    (hs : TwinSim T t c κ g g' d d' o o' s s') :
    (s.sol env g d = .error .failed ∧ s'.sol env g' d' = .error .failed) ∨
    ∃ v v', s.sol env g d = .ok v ∧ s'.sol env g' d' = .ok v' ∧
      d.inverseTransformBeta v = T *ᵥ d'.inverseTransformBeta v' + t := by
  obtain ⟨i, hi⟩ := hs.inv
  obtain ⟨i', hi'⟩ := hs.inv'
  obtain ⟨U, hU1, hU2⟩ := h.invertible
  have hN := h.newton (d'.inverseTransformBeta s'.guess)
  have hS := h.score (d'.inverseTransformBeta s'.guess)
  rw [← hs.guess] at hN hS
  set N := newtonMat env.eps g raw b o.l2 (scale d) (d.inverseTransformBeta s.guess) with hNdef
  have hdet : IsUnit (newtonMat env.eps g' raw' b' o'.l2 (scale d')
      (d'.inverseTransformBeta s'.guess)).det ↔ IsUnit N.det := by
    rw [← congr_det hU1 hU2 N, ← hN, det_smul, isUnit_iff_ne_zero, isUnit_iff_ne_zero,
      mul_ne_zero_iff, and_iff_right (pow_ne_zero _ h.pos.ne')]
  by_cases hu : IsUnit N.det
  · right
    set β' := d'.inverseTransformBeta s'.guess with hβ'
    set S := penScore g raw b o.l1 o.l2 (scale d) (d.inverseTransformBeta s.guess) with hSdef
    set δ := N⁻¹ *ᵥ S with hδ
    have hNδ : N *ᵥ δ = S := by rw [hδ, mulVec_mulVec, mul_nonsing_inv _ hu, one_mulVec]
    refine ⟨_, _, sol_eq he hg hd h1 hi.same (β' := d.inverseTransformBeta s.guess + δ) hu
      (by rw [add_sub_cancel_left]; exact hNδ),
      sol_eq he hg' hd' h1' hi'.same (β' := β' + U *ᵥ δ) (hdet.mpr hu) ?_, ?_⟩
    · rw [add_sub_cancel_left]
      refine smul_right_injective _ h.pos.ne' ?_
      change c • (_ *ᵥ _) = c • _
      rw [← smul_mulVec, hN, hS, mulVec_mulVec, Matrix.mul_assoc, hU1, Matrix.mul_one,
        ← mulVec_mulVec, hNδ]
    · rw [(Dataset.finalize_wf hd).inverseTransformBeta_transformBeta,
        (Dataset.finalize_wf hd').inverseTransformBeta_transformBeta, mulVec_add, mulVec_mulVec, hU1,
        one_mulVec, hs.guess]
      abel
  · left
    exact ⟨sol_singular hdec hg hd h1 hi.same hu,
      sol_singular hdec hg' hd' h1' hi'.same (fun hc => hu (hdet.mp hc))⟩

theorem TwinSim.frame {s s1 : Irls ℝ (ncols b p)} {s' s1' : Irls ℝ (ncols b' p')}
    (hs : TwinSim T t c κ g g' d d' o o' s s') (hf : Irls.Frame s s1) (hf' : Irls.Frame s' s1')
    (hdone : s1.done = s1'.done) : TwinSim T t c κ g g' d d' o o' s1 s1' where
  inv := hs.inv.imp fun _ hi => hi.frame hf
  inv' := hs.inv'.imp fun _ hi => hi.frame hf'
  guess := by rw [hf.guess, hf'.guess]; exact hs.guess
  done := hdone
  nIter := by rw [hf.nIter, hf'.nIter]; exact hs.nIter
  history := by rw [hf.history, hf'.history]; exact hs.history

theorem Irls.frame_prep (s : Irls ℝ (ncols b p)) (c : Bool) :
    Irls.Frame s { s.prep with done := c } := ⟨rfl, rfl, rfl, rfl, Or.inr rfl⟩

include he hdec hg hg' h hd hd' h1 h1' in
/-- One call of the iterator. -/
theorem twin_next (ht : TwinTol T t c d d' o.tol o'.tol) {s : Irls ℝ (ncols b p)}
    {s' : Irls ℝ (ncols b' p')} (hs : TwinSim T t c κ g g' d d' o o' s s') :
    TwinNext T t c κ g g' d d' o o' (s.nextRaw env g d o.tol) (s'.nextRaw env g' d' o'.tol) := by
  cases hdone : s.done
  case true =>
    rw [Irls.nextRaw_done hdone, Irls.nextRaw_done (hs.done ▸ hdone)]
    exact .stop hs
  have hdone' : s'.done = false := hs.done ▸ hdone
  obtain ⟨i, hi⟩ := hs.inv
  obtain ⟨i', hi'⟩ := hs.inv'
  rcases twin_sol he hdec hg hg' h hd hd' h1 h1' hs with ⟨e1, e2⟩ | ⟨v, v', e1, e2, hv⟩
  · rw [Irls.nextRaw_linalg hdone e1, Irls.nextRaw_linalg hdone' e2]
    exact .linalg
  have hobj : ∀ β', penLogLik g raw b o.l1 o.l2 (scale d) (T *ᵥ β' + t)
      = c * penLogLik g' raw' b' o'.l1 o'.l2 (scale d') β' + κ := h.obj
  have hline : ∀ m : ℝ, d.inverseTransformBeta s.guess
      + m • (d.inverseTransformBeta v - d.inverseTransformBeta s.guess)
      = T *ᵥ (d'.inverseTransformBeta s'.guess
        + m • (d'.inverseTransformBeta v' - d'.inverseTransformBeta s'.guess)) + t := by
    intro m
    rw [hs.guess, hv, mulVec_add, mulVec_smul, mulVec_sub]
    funext j
    simp only [Pi.add_apply, Pi.smul_apply, Pi.sub_apply, smul_eq_mul]
    ring
  have heq : vecEq v s.guess = vecEq v' s'.guess := by
    rw [Bool.eq_iff_iff, vecEq_iff, vecEq_iff]
    obtain ⟨U, hU1, hU2⟩ := h.invertible
    constructor
    · rintro rfl
      refine inverse_inj hd' ?_
      have e : T *ᵥ d'.inverseTransformBeta v' = T *ᵥ d'.inverseTransformBeta s'.guess :=
        add_right_cancel (hv.symm.trans hs.guess)
      have := congrArg (fun z => U *ᵥ z) e
      simpa only [mulVec_mulVec, hU2, one_mulVec] using this
    · rintro rfl
      exact inverse_inj hd (hv.trans hs.guess.symm)
  have hgt : Scalar.gt (s.nextObj g d v) s.lastObj = Scalar.gt (s'.nextObj g' d' v') s'.lastObj := by
    rw [nextObj_ext hd h1 hi, lastObj_ext hd h1 hi, nextObj_ext hd' h1' hi', lastObj_ext hd' h1' hi',
      hv, hs.guess, hobj, hobj, gt_affine h.pos]
  have hscale : s.scale env g d o.tol v = s'.scale env g' d' o'.tol v' := by
    have hf : Irls.fStep g d (s.reg.prepare s.guess) s.guess v
        = fun m => c * Irls.fStep g' d' (s'.reg.prepare s'.guess) s'.guess v' m + κ := by
      funext m
      have e1 := fStep_ext hd hi v m
      have e2 := fStep_ext hd' hi' v' m
      rw [hline, hobj, ← e2] at e1
      exact e1
    simp only [Irls.scale, hf, stepScale_affine h.pos]
    rcases ht with ⟨t1, t2⟩ | ⟨t1, -, -, t4, t5⟩
    · rw [t1, t2, mul_zero, mul_zero]
    · rw [t1]
      have e := (t5 _ _ _ _ hs.guess hs.guess).1
      simp only [vsum_real, Finset.sum_add_distrib, e, Finset.sum_const, Finset.card_univ,
        Fintype.card_fin, t4]
  have hsm : vecEq v s.guess = false → vecEq v' s'.guess = false →
      s.small g d o.tol v = s'.small g' d' o'.tol v' := by
    intro hne hne'
    rcases ht with ⟨t1, t2⟩ | ⟨t1, t2, t3, t4, t5⟩
    · have k1 : s.small g d o.tol v = false := by
        rw [Irls.small, t1, Bool.and_eq_false_iff]
        right
        rw [Bool.eq_false_iff]
        intro hc
        rw [vecEq_iff.mpr (smallDeltaVec_zero hc)] at hne
        exact absurd hne (by simp)
      have k2 : s'.small g' d' o'.tol v' = false := by
        rw [Irls.small, t2, Bool.and_eq_false_iff]
        right
        rw [Bool.eq_false_iff]
        intro hc
        rw [vecEq_iff.mpr (smallDeltaVec_zero hc)] at hne'
        exact absurd hne' (by simp)
      rw [k1, k2]
    · have e1 : s.nextObj g d v - s.lastObj = s'.nextObj g' d' v' - s'.lastObj := by
        rw [nextObj_ext hd h1 hi, lastObj_ext hd h1 hi, nextObj_ext hd' h1' hi',
          lastObj_ext hd' h1' hi', hv, hs.guess, hobj, hobj, t2]
        ring
      obtain ⟨e2, e3⟩ := t5 _ _ _ _ hv hs.guess
      have k1 : smallDelta (s.nextObj g d v) s.lastObj (o.tol * Scalar.ofNat n)
          = smallDelta (s'.nextObj g' d' v') s'.lastObj (o'.tol * Scalar.ofNat n') := by
        unfold smallDelta
        rw [e1, t1, t3]
      have k2 : smallDeltaVec v s.guess o.tol = smallDeltaVec v' s'.guess o'.tol := by
        simp only [smallDeltaVec, vsum_real, vsub, t1, t4]
        rw [e2]
        congr 1
      rw [Irls.small, Irls.small, k1, k2]
  have hframe : ∀ e : Bool,
      TwinSim T t c κ g g' d d' o o' { s.prep with done := e } { s'.prep with done := e } :=
    fun e => hs.frame (Irls.frame_prep s e) (Irls.frame_prep s' e) rfl
  have hprep : TwinSim T t c κ g g' d d' o o' s.prep s'.prep :=
    hs.frame ⟨rfl, rfl, rfl, rfl, Or.inr rfl⟩ ⟨rfl, rfl, rfl, rfl, Or.inr rfl⟩ hs.done
  have ht1 : (s.reg.prepare s.guess).terminateOk o.tol = true := by
    obtain ⟨t1, -, t3⟩ := hi.same.noL1 (getReg_noL1 h1) s.guess
    rw [t1]; exact t3 _
  have ht1' : (s'.reg.prepare s'.guess).terminateOk o'.tol = true := by
    obtain ⟨t1, -, t3⟩ := hi'.same.noL1 (getReg_noL1 h1') s'.guess
    rw [t1]; exact t3 _
  have c1 := Irls.nextRaw_case env g d o.tol s
  have c2 := Irls.nextRaw_case env g' d' o'.tol s'
  generalize s.nextRaw env g d o.tol = r at c1
  generalize s'.nextRaw env g' d' o'.tol = r' at c2
  have no : ∀ {P : Prop}, true = false → P := fun hh => absurd hh (by simp)
  cases c1 with
  | done x => exact no (x.symm.trans hdone)
  | linalg _ _ x => rw [e1] at x; cases x
  | admm _ _ _ x => exact no (ht1.symm.trans x)
  | equal _ w x _ y =>
    rw [e1] at x; cases x
    cases c2 with
    | done x => exact no (x.symm.trans hdone')
    | linalg _ _ x => rw [e2] at x; cases x
    | admm _ _ _ x => exact no (ht1'.symm.trans x)
    | equal => exact .stop hprep
    | full _ w x _ z | diverge _ w x _ z | zero _ w x _ z | scaled _ w x _ z =>
      rw [e2] at x; cases x; exact no ((heq ▸ y).symm.trans z)
  | full _ w x _ y q =>
    rw [e1] at x; cases x
    cases c2 with
    | done x => exact no (x.symm.trans hdone')
    | linalg _ _ x => rw [e2] at x; cases x
    | admm _ _ _ x => exact no (ht1'.symm.trans x)
    | equal _ w x _ z => rw [e2] at x; cases x; exact no (z.symm.trans (heq ▸ y))
    | full _ w x _ z _ =>
      rw [e2] at x; cases x
      rw [hsm y z]
      exact .cand (hframe _) hv
    | diverge _ w x _ z q' | zero _ w x _ z q' | scaled _ w x _ z q' =>
      rw [e2] at x; cases x; exact no ((hgt ▸ q).symm.trans q')
  | diverge _ w x _ y q m =>
    rw [e1] at x; cases x
    cases c2 with
    | done x => exact no (x.symm.trans hdone')
    | linalg _ _ x => rw [e2] at x; cases x
    | admm _ _ _ x => exact no (ht1'.symm.trans x)
    | equal _ w x _ z => rw [e2] at x; cases x; exact no (z.symm.trans (heq ▸ y))
    | full _ w x _ z q' => rw [e2] at x; cases x; exact no (q'.symm.trans (hgt ▸ q))
    | diverge => exact .diverge
    | zero _ w x _ z q' k hk | scaled _ w x _ z q' k hk =>
      rw [e2] at x; cases x; rw [← hscale, m] at hk; cases hk
  | zero _ w x _ y q m hm h0 =>
    rw [e1] at x; cases x
    cases c2 with
    | done x => exact no (x.symm.trans hdone')
    | linalg _ _ x => rw [e2] at x; cases x
    | admm _ _ _ x => exact no (ht1'.symm.trans x)
    | equal _ w x _ z => rw [e2] at x; cases x; exact no (z.symm.trans (heq ▸ y))
    | full _ w x _ z q' => rw [e2] at x; cases x; exact no (q'.symm.trans (hgt ▸ q))
    | diverge _ w x _ z q' k => rw [e2] at x; cases x; rw [← hscale, hm] at k; cases k
    | zero _ w x _ z q' k hk =>
      rw [e2] at x; cases x
      rw [hsm y z]
      exact .stop (hframe _)
    | scaled _ w x _ z q' k hk h0' =>
      rw [e2] at x; cases x; rw [← hscale, hm] at hk; cases hk
      exact no (h0.symm.trans h0')
  | scaled _ w x _ y q m hm h0 =>
    rw [e1] at x; cases x
    cases c2 with
    | done x => exact no (x.symm.trans hdone')
    | linalg _ _ x => rw [e2] at x; cases x
    | admm _ _ _ x => exact no (ht1'.symm.trans x)
    | equal _ w x _ z => rw [e2] at x; cases x; exact no (z.symm.trans (heq ▸ y))
    | full _ w x _ z q' => rw [e2] at x; cases x; exact no (q'.symm.trans (hgt ▸ q))
    | diverge _ w x _ z q' k => rw [e2] at x; cases x; rw [← hscale, hm] at k; cases k
    | zero _ w x _ z q' k hk h0' =>
      rw [e2] at x; cases x; rw [← hscale, hm] at hk; cases hk
      exact no (h0'.symm.trans h0)
    | scaled _ w x _ z q' k hk h0' =>
      rw [e2] at x; cases x; rw [← hscale, hm] at hk; cases hk
      rw [hsm y z]
      refine .cand (hframe _) ?_
      rw [inverse_interp hd, inverse_interp hd', hline]

/-- Corresponding recorded steps. -/
def TwinRel (T : Matrix (Fin (ncols b p)) (Fin (ncols b' p')) ℝ) (t : Vec ℝ (ncols b p))
    (c κ : ℝ) (d : Dataset ℝ n p b) (d' : Dataset ℝ n' p' b') (x : IrlsStep ℝ (ncols b p))
    (x' : IrlsStep ℝ (ncols b' p')) : Prop :=
  extStep d x = twinStep T t c κ (extStep d' x')

theorem TwinRel.like {x : IrlsStep ℝ (ncols b p)} {x' : IrlsStep ℝ (ncols b' p')}
    (hx : TwinRel T t c κ d d' x x') : x.like = c * x'.like + κ := by
  have := congrArg IrlsStep.like hx
  exact this

theorem TwinRel.best (hc : 0 < c) {x y : IrlsStep ℝ (ncols b p)} {x' y' : IrlsStep ℝ (ncols b' p')}
    (hx : TwinRel T t c κ d d' x x') (hy : TwinRel T t c κ d d' y y') :
    TwinRel T t c κ d d' (maxByLike (some x) y) (maxByLike (some x') y') := by
  have e : Scalar.totalCmp x.like y.like = Scalar.totalCmp x'.like y'.like := by
    rw [hx.like, hy.like]
    exact totalCmp_affine hc _ _
  simp only [maxByLike, e]
  cases Scalar.totalCmp x'.like y'.like <;> first | exact hx | exact hy

include h hd hd' in
theorem TwinSim.candStep {s : Irls ℝ (ncols b p)} {s' : Irls ℝ (ncols b' p')}
    (hs : TwinSim T t c κ g g' d d' o o' s s') {v : Vec ℝ (ncols b p)} {v' : Vec ℝ (ncols b' p')}
    (hv : d.inverseTransformBeta v = T *ᵥ d'.inverseTransformBeta v' + t) :
    TwinRel T t c κ d d' (s.candStep v (g.logLike d v)) (s'.candStep v' (g'.logLike d' v')) := by
  obtain ⟨i, hi⟩ := hs.inv
  obtain ⟨i', hi'⟩ := hs.inv'
  have e : g.logLike d v + s.reg.likelihood v = c * (g'.logLike d' v' + s'.reg.likelihood v') + κ := by
    rw [hi.same.likelihood, hi'.same.likelihood, objective_ext hd, objective_ext hd', hv, h.obj]
  simp only [TwinRel, extStep, twinStep, Irls.candStep, e, hv]

include h hd hd' in
theorem TwinSim.candState {s : Irls ℝ (ncols b p)} {s' : Irls ℝ (ncols b' p')}
    (hs : TwinSim T t c κ g g' d d' o o' s s') {v : Vec ℝ (ncols b p)} {v' : Vec ℝ (ncols b' p')}
    (hv : d.inverseTransformBeta v = T *ᵥ d'.inverseTransformBeta v' + t) :
    TwinSim T t c κ g g' d d' o o' (s.candState v (g.logLike d v)) (s'.candState v' (g'.logLike d' v')) where
  inv := hs.inv.imp fun _ hi => hi.cand v
  inv' := hs.inv'.imp fun _ hi => hi.cand v'
  guess := hv
  done := hs.done
  nIter := congrArg (· + 1) hs.nIter
  history := by
    have := hs.candStep h hd hd' hv
    simp only [Irls.candState, List.map_append, List.map_cons, List.map_nil]
    rw [hs.history]
    congr 2

/-- Corresponding intermediate results of the fitting loop. -/
inductive TwinBest (T : Matrix (Fin (ncols b p)) (Fin (ncols b' p')) ℝ) (t : Vec ℝ (ncols b p))
    (c κ : ℝ) (d : Dataset ℝ n p b) (d' : Dataset ℝ n' p' b') :
    Option (IrlsStep ℝ (ncols b p)) → Option (IrlsStep ℝ (ncols b' p')) → Prop
  | none : TwinBest T t c κ d d' none none
  | some {x x'} (h : TwinRel T t c κ d d' x x') : TwinBest T t c κ d d' (some x) (some x')

include he hdec hg hg' h hd hd' h1 h1' in
theorem twin_fitLoop (ht : TwinTol T t c d d' o.tol o'.tol) (hm : o.maxIter = o'.maxIter)
    (s : Irls ℝ (ncols b p)) (best : Option (IrlsStep ℝ (ncols b p))) :
    ∀ s' best', TwinSim T t c κ g g' d d' o o' s s' → TwinBest T t c κ d d' best best' →
      Related (TwinError T t c κ d d')
        (fun x x' => TwinBest T t c κ d d' x.1 x'.1 ∧ TwinSim T t c κ g g' d d' o o' x.2 x'.2)
        (fitLoop env g d o s best) (fitLoop env g' d' o' s' best') := by
  refine fitLoop_ind env g d o (motive := fun s best => ∀ s' best', TwinSim T t c κ g g' d d' o o' s s' →
      TwinBest T t c κ d d' best best' → Related (TwinError T t c κ d d')
        (fun x x' => TwinBest T t c κ d d' x.1 x'.1 ∧ TwinSim T t c κ g g' d d' o o' x.2 x'.2)
        (fitLoop env g d o s best) (fitLoop env g' d' o' s' best')) ?_ s best
  intro s best ih s' best' hs hb
  have hn := twin_next he hdec hg hg' h hd hd' h1 h1' ht hs
  rw [fitLoop_eq env g d o s best, fitLoop_eq env g' d' o' s' best']
  generalize hr : s.nextRaw env g d o.tol = r at hn ih ⊢
  generalize hr' : s'.nextRaw env g' d' o'.tol = r' at hn ⊢
  cases hn with
  | stop hs1 => exact .ok ⟨hb, hs1⟩
  | linalg => exact .err .linalg
  | diverge => exact .diverge
  | @cand s1 s1' v v' hs1 hv =>
    have hstep := hs1.candStep h hd hd' hv
    have hstate := hs1.candState h hd hd' hv
    dsimp only
    rw [hs1.nIter, hm]
    by_cases hlt : s1'.nIter + 1 > o'.maxIter
    · rw [if_pos hlt, if_pos hlt]
      exact .err (.maxIter _ hstate.history)
    · rw [if_neg hlt, if_neg hlt]
      refine ih s1 v _ rfl (by rw [hs1.nIter, hm]; omega) _ _ hstate ?_
      cases hb with
      | none => exact .some hstep
      | some hx => exact .some (hx.best h.pos hstep)

/-- Corresponding problems are fitted the same way. -/
theorem twin_run (he : env.Exact) (hdec : env.Decides) (hg : LawfulAdj g) (hg' : LawfulAdj g')
    (h : Twin env.eps T t c κ g g' raw raw' o.l1 o.l2 o'.l1 o'.l2 (scale d) (scale d'))
    (hd : raw.finalize std b = some d) (hd' : raw'.finalize std' b' = some d')
    (h1 : o.l1 ≤ 0) (h1' : o'.l1 ≤ 0) (ht : TwinTol T t c d d' o.tol o'.tol)
    (hm : o.maxIter = o'.maxIter)
    (hstart : d.inverseTransformBeta (initialGuess env g d o)
      = T *ᵥ d'.inverseTransformBeta (initialGuess env g' d' o') + t) :
    Related (TwinError T t c κ d d') (TwinCourse T t c κ) (regression env g d o)
      (regression env g' d' o') := by
  have hs0 : TwinSim T t c κ g g' d d' o o' (Irls.new g d (initialGuess env g d o) o)
      (Irls.new g' d' (initialGuess env g' d' o') o') :=
    ⟨⟨_, .new⟩, ⟨_, .new⟩, hstart, rfl, rfl, rfl⟩
  have hl := twin_fitLoop he hdec hg hg' h hd hd' h1 h1' ht hm _ none _ none hs0 .none
  rw [regression_eq, regression_eq]
  generalize fitLoop env g d o _ none = x at hl
  generalize fitLoop env g' d' o' _ none = y at hl
  cases hl with
  | panic => exact .panic
  | diverge => exact .diverge
  | err e => exact .err e
  | @ok x y hxy =>
    obtain ⟨best, s⟩ := x
    obtain ⟨best', s'⟩ := y
    obtain ⟨hb, hs⟩ := hxy
    simp only at hb hs
    have hlast : TwinRel T t c κ d d' (best.getD s.makeLastStep) (best'.getD s'.makeLastStep) := by
      cases hb with
      | some hx => exact hx
      | none =>
        obtain ⟨i, hi⟩ := hs.inv
        obtain ⟨i', hi'⟩ := hs.inv'
        have e : s.lastLikeData + s.reg.likelihood s.guess
            = c * (s'.lastLikeData + s'.reg.likelihood s'.guess) + κ := by
          rw [hi.last, hi'.last, hi.same.likelihood, hi'.same.likelihood, objective_ext hd,
            objective_ext hd', hs.guess, h.obj]
        simp only [Option.getD, TwinRel, extStep, twinStep, Irls.makeLastStep, e, hs.guess]
    refine .ok ⟨congrArg IrlsStep.guess hlast, ?_, hs.nIter⟩
    exact hs.history

end run

end GLM
