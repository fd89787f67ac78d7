/-
  C40, C41: hat matrix, leverages, Fisher information, covariance.
-/
import Verif.Props.Tests
import Verif.Props.Lasso

namespace GLM
open Spec Matrix
variable {n p : ℕ} {b : Bool} {env env' : Env ℝ} {g : Glm ℝ} {raw : Dataset ℝ n p false} {std : Bool}
  {d : Dataset ℝ n p b} {options : FitOptions ℝ (ncols b p)} {f : Fit ℝ n p b}

theorem of_dotM {l m k : ℕ} (a : Mat ℝ l m) (c : Mat ℝ m k) :
    Matrix.of (a.dotM c) = Matrix.of a * Matrix.of c := by rw [dotM_real]; rfl

theorem posSemidef_of_nonneg {k : ℕ} {m : Matrix (Fin k) (Fin k) ℝ} (hs : m.IsSymm)
    (h : ∀ x, 0 ≤ x ⬝ᵥ (m *ᵥ x)) : m.PosSemidef := by
  refine PosSemidef.of_dotProduct_mulVec_nonneg (isHermitian_of_symm hs) fun x => ?_
  have : star x = x := by ext; simp
  rw [this]; exact h x

theorem PosSemidef_real_nonneg {k : ℕ} {m : Matrix (Fin k) (Fin k) ℝ} (h : m.PosSemidef)
    (x : Fin k → ℝ) : 0 ≤ x ⬝ᵥ (m *ᵥ x) := by
  have := h.dotProduct_mulVec_nonneg x
  have hx : star x = x := by ext; simp
  rwa [hx] at this

theorem ridgeMat_posSemidef (l2 : ℝ) (σ : Fin p → ℝ) : (ridgeMat l2 σ b).PosSemidef :=
  posSemidef_of_nonneg (isSymm_diagonal _) (ridge_nonneg l2 σ)

/-- Information of the data is positive semidefinite. -/
theorem fisherMat_posSemidef (hw : ∀ i, 0 ≤ totalWt raw i) {β : Vec ℝ (ncols b p)}
    (hv : ∀ i, 0 ≤ g.variance (meanAt g raw b β i)) : (fisherMat g raw b β).PosSemidef := by
  refine posSemidef_of_nonneg (fisherMat_symm β) fun x => ?_
  rw [quad_fisher]
  exact Finset.sum_nonneg fun i _ =>
    mul_nonneg (mul_nonneg (mul_nonneg (hw i) (sq_nonneg _)) (hv i)) (sq_nonneg _)

section
variable (hg : LawfulAdj g) (hd : raw.finalize std b = some d)
  (h : regression env g d options = .ok f)
include hg hd h

/-- The matrix behind `fisher()`: the information of the data, plus a positive semidefinite matrix
that does not depend on the argument.  Without L1 that matrix is the curvature of the L2 penalty;
with L1 it also contains a positive multiple of the identity on the standardized scale, including the
intercept, which comes from the solver (ADMM), not from the objective. -/
theorem fisher_decomp : ∃ P : Matrix (Fin (ncols b p)) (Fin (ncols b p)) ℝ, P.PosSemidef ∧
    (∀ β, Matrix.of (f.fisher β) = fisherMat g raw b β + P) ∧
    (options.l1 ≤ 0 → P = ridgeMat options.l2 (scale d) b) ∧
    (0 < options.l1 → ∃ z : ℤ,
      P = ridgeMat options.l2 (scale d) b + (2 ^ z : ℝ) • (d.tmatᵀ * d.tmat)) := by
  rcases le_or_gt options.l1 0 with hl1 | hl1
  · refine ⟨ridgeMat options.l2 (scale d) b, ridgeMat_posSemidef _ _, ?_, fun _ => rfl,
      fun h => absurd hl1 (not_le.mpr h)⟩
    obtain ⟨-, -, h3, -⟩ := C10_external hg hd hl1 h
    exact h3
  · obtain ⟨st, -, -, hreg, ⟨z, hz⟩, -⟩ := C34_fit hl1 h
    obtain ⟨rfl, rfl, rfl, hf⟩ := regression_ofRaw hd h
    obtain ⟨st', hst'⟩ := hf.same.regL1 hl1
    have hst : st' = st := by
      rcases hreg with hreg | hreg <;> rw [hreg] at hst' <;> simp only [RegL1] at hst' <;>
        rcases hst' with ⟨-, h⟩ | ⟨-, h⟩ <;> cases h <;> rfl
    subst hst
    refine ⟨ridgeMat f.options.l2 (scale f.data) b + (2 ^ z : ℝ) • (f.data.tmatᵀ * f.data.tmat),
      ?_, ?_, fun h => absurd hl1 (not_lt.mpr h), fun _ => ⟨z, rfl⟩⟩
    · refine posSemidef_of_nonneg ?_ fun x => ?_
      · refine IsSymm.add (isSymm_diagonal _) (IsSymm.smul ?_ _)
        rw [IsSymm, transpose_mul, transpose_transpose]
      · rw [add_mulVec, dotProduct_add, smul_mulVec, dotProduct_smul, ← mulVec_mulVec,
          dotProduct_mulVec _ (f.data.tmatᵀ), vecMul_transpose, smul_eq_mul]
        refine add_nonneg (ridge_nonneg _ _ _) (mul_nonneg (zpow_nonneg two_pos.le _) ?_)
        exact Finset.sum_nonneg fun i _ => mul_self_nonneg _
    · intro β
      have h1 : f.fisher β = (f.data.tmatᵀ * Matrix.of (f.reg.irlsMat
          (f.data.fisherInt f.g (f.data.transformBeta β)) (f.data.transformBeta β))
            * f.data.tmat : Matrix _ _ ℝ) := by
        rw [← Dataset.inverseTransformFisher_eq]; rfl
      have h2 : Matrix.of (f.fisher β) = _ := h1
      rw [h2, hst'.irlsMat, Matrix.mul_add, Matrix.mul_add, Matrix.add_mul, Matrix.add_mul,
        Dataset.finalize_fisher hg hd, Dataset.tmat_conj_onSlopes, Matrix.mul_smul, Matrix.smul_mul,
        Matrix.mul_one, hz, ridgeMat, add_assoc]
      simp only [mul_comm]

/-! ### C41 -/

/-- **C41**: `fisher(β)` is symmetric and positive semidefinite for non-negative weights, at every
`β` at which the variance function is non-negative, for every regularization. -/
theorem C41_fisher (hw : ∀ i, 0 ≤ totalWt raw i) {β : Vec ℝ (ncols b p)}
    (hv : ∀ i, 0 ≤ g.variance (meanAt g raw b β i)) :
    (Matrix.of (f.fisher β)).IsSymm ∧ ∀ x, 0 ≤ x ⬝ᵥ (Matrix.of (f.fisher β) *ᵥ x) := by
  obtain ⟨P, hP, hF, -⟩ := fisher_decomp hg hd h
  have := (fisherMat_posSemidef hw hv).add hP
  rw [hF]
  refine ⟨?_, PosSemidef_real_nonneg this⟩
  have h2 := this.1
  rwa [IsHermitian, conjTranspose_eq_transpose_of_trivial] at h2

/-- The covariance matrix in terms of the user's data: `φ F⁻¹ I F⁻¹` with `F` the matrix behind
`fisher()` and `I` the information of the data. -/
theorem covariance_eq (he : env'.Exact) {cov : Mat ℝ (ncols b p) (ncols b p)}
    (hcov : f.covariance env' = .ok cov) :
    IsUnit (Matrix.of (f.fisher f.result)).det ∧
    Matrix.of cov = f.dispersion • ((Matrix.of (f.fisher f.result))⁻¹ * fisherMat g raw b f.result
      * (Matrix.of (f.fisher f.result))⁻¹) := by
  obtain ⟨rfl, rfl, rfl, hf⟩ := regression_ofRaw hd h
  unfold Fit.covariance Fit.fisherInv at hcov
  cases hF : env'.inv (f.fisher f.result) with
  | error e => rw [hF] at hcov; simp [bind, Except.bind] at hcov
  | ok a =>
    rw [hF] at hcov
    obtain ⟨hu, ha⟩ := he.inv_ok hF
    simp only [bind, Except.bind, pure, Except.pure, Except.ok.injEq] at hcov
    refine ⟨hu, ?_⟩
    rw [← ha, ← hcov]
    have hdat : Matrix.of (f.data.inverseTransformFisher (f.fisherDataStd f.resultStd))
        = fisherMat f.g raw b f.result := by
      rw [← Dataset.finalize_fisher hg hd, ← hf.resultStd]
      exact f.data.inverseTransformFisher_eq _
    rw [← hdat, ← of_dotM, ← of_dotM]
    ext i j
    exact mul_comm _ _

/-- **C41**: the covariance matrix is symmetric and positive semidefinite for non-negative weights and
dispersion, with every regularization. -/
theorem C41_covariance (he : env'.Exact) (hw : ∀ i, 0 ≤ totalWt raw i)
    (hv : ∀ i, 0 ≤ g.variance (meanAt g raw b f.result i)) (hφ : 0 ≤ f.dispersion)
    {cov : Mat ℝ (ncols b p) (ncols b p)} (hcov : f.covariance env' = .ok cov) :
    (Matrix.of cov).IsSymm ∧ ∀ x, 0 ≤ x ⬝ᵥ (Matrix.of cov *ᵥ x) := by
  obtain ⟨hu, hc⟩ := covariance_eq hg hd h he hcov
  have hFs := (C41_fisher hg hd h hw hv).1
  have hI := fisherMat_posSemidef (g := g) (raw := raw) hw hv
  set F := Matrix.of (f.fisher f.result)
  have hFi : (F⁻¹)ᵀ = F⁻¹ := by rw [transpose_nonsing_inv, hFs]
  rw [hc]
  constructor
  · rw [IsSymm, transpose_smul, transpose_mul, transpose_mul, hFi, fisherMat_symm,
      Matrix.mul_assoc]
  · intro x
    rw [smul_mulVec, dotProduct_smul, smul_eq_mul]
    refine mul_nonneg hφ ?_
    rw [← mulVec_mulVec, ← mulVec_mulVec, dotProduct_mulVec x F⁻¹]
    have : x ᵥ* F⁻¹ = F⁻¹ *ᵥ x := by rw [← mulVec_transpose, hFi]
    rw [this]
    exact PosSemidef_real_nonneg hI _

/-- **C41**: without regularization the covariance matrix is `φ` times the inverse of `fisher()` at
the result; the call succeeds exactly when the information is regular. -/
theorem C41_unregularized (he : env'.Exact) (hl1 : options.l1 ≤ 0) (hl2 : options.l2 ≤ 0) :
    (∀ cov, f.covariance env' = .ok cov →
      Matrix.of cov = f.dispersion • (Matrix.of (f.fisher f.result))⁻¹) ∧
    ((∃ cov, f.covariance env' = .ok cov) ↔ IsUnit (fisherMat g raw b f.result).det) := by
  have hF : Matrix.of (f.fisher f.result) = fisherMat g raw b f.result := by
    obtain ⟨-, -, h3, -⟩ := C10_external hg hd hl1 h
    rw [h3, ridgeMat, max_eq_right hl2]; simp [onSlopes_zero]
  constructor
  · intro cov hcov
    obtain ⟨hu, hc⟩ := covariance_eq hg hd h he hcov
    rw [hc, hF, nonsing_inv_mul _ (by rwa [hF] at hu), Matrix.one_mul]
  · constructor
    · rintro ⟨cov, hcov⟩
      have := (covariance_eq hg hd h he hcov).1
      rwa [hF] at this
    · intro hu
      obtain ⟨a, ha⟩ := he.inv_complete (m := f.fisher f.result) (by rwa [hF])
      exact ⟨_, by unfold Fit.covariance Fit.fisherInv; rw [ha]; rfl⟩

/-! ### C40 -/

/-- The hat matrix in terms of the user's data, with any regularization:
`V η' X F⁻¹ Xᵀ η' W` with `F` the matrix behind `fisher()`. -/
theorem hat_eq (he : env'.Exact) {H : Mat ℝ n n} (hH : f.hat env' = .ok H) :
    IsUnit (Matrix.of (f.fisher f.result)).det ∧
    Matrix.of H = diagonal (fun i => g.variance (meanAt g raw b f.result i)
        * g.link.dNatParam (linPred raw b f.result i))
      * design b raw.x * (Matrix.of (f.fisher f.result))⁻¹ * (design b raw.x)ᵀ
      * diagonal (fun i => totalWt raw i * g.link.dNatParam (linPred raw b f.result i)) := by
  obtain ⟨rfl, rfl, rfl, hf⟩ := regression_ofRaw hd h
  have hwf := Dataset.finalize_wf hd
  unfold Fit.hat Fit.fisherStdInv at hH
  cases hF : env'.inv (f.fisherStd f.resultStd) with
  | error e => rw [hF] at hH; simp [bind, Except.bind] at hH
  | ok a =>
    rw [hF] at hH
    obtain ⟨hu, ha⟩ := he.inv_ok hF
    simp only [bind, Except.bind, pure, Except.pure, Except.ok.injEq] at hH
    have hFe : Matrix.of (f.fisher f.result)
        = f.data.tmatᵀ * Matrix.of (f.fisherStd f.resultStd) * f.data.tmat := by
      rw [hf.resultStd, ← Dataset.inverseTransformFisher_eq]; rfl
    have hT : IsUnit f.data.tmat.det := isUnit_iff_ne_zero.mpr hwf.det_tmat
    have hTt : IsUnit f.data.tmatᵀ.det := by rwa [det_transpose]
    refine ⟨?_, ?_⟩
    · rw [hFe, det_mul, det_mul]
      exact (hTt.mul hu).mul hT
    · have hX : Matrix.of f.data.x = design b raw.x * f.data.tmat⁻¹ := by
        rw [Dataset.finalize_design hd, Matrix.mul_assoc, mul_nonsing_inv _ hT, Matrix.mul_one]
      have hL : Matrix.of (fun i j => f.g.variance (f.yHat i) * f.g.link.dNatParam (f.xLinPred i)
            * f.data.x i j)
          = diagonal (fun i => f.g.variance (meanAt f.g raw b f.result i)
            * f.g.link.dNatParam (linPred raw b f.result i)) * Matrix.of f.data.x := by
        ext i j
        rw [diagonal_mul, of_apply, of_apply, hf.mean, hf.lin]
      have hR : Matrix.of (fun j i => f.data.xConj j i * f.g.link.dNatParam (f.xLinPred i))
          = (Matrix.of f.data.x)ᵀ * diagonal (fun i => totalWt raw i
            * f.g.link.dNatParam (linPred raw b f.result i)) := by
        ext j i
        rw [mul_diagonal, of_apply, transpose_apply, of_apply, Dataset.xConj_real,
          Dataset.finalize_totalWt hd, hf.lin]
        ring
      have hH2 : Matrix.of H = Matrix.of (fun i j => f.g.variance (f.yHat i)
          * f.g.link.dNatParam (f.xLinPred i) * f.data.x i j) * (Matrix.of a
          * Matrix.of (fun j i => f.data.xConj j i * f.g.link.dNatParam (f.xLinPred i))) := by
        rw [← hH, of_dotM, of_dotM]
      rw [hH2, hL, hR, ha, hX, hFe, Matrix.mul_inv_rev, Matrix.mul_inv_rev, transpose_mul,
        transpose_nonsing_inv]
      simp only [Matrix.mul_assoc]

omit hg hd h in
/-- `Xᵀ W η' · V η' X` is the information of the data. -/
theorem hat_core (β : Vec ℝ (ncols b p)) :
    (design b raw.x)ᵀ * diagonal (fun i => totalWt raw i * g.link.dNatParam (linPred raw b β i))
      * (diagonal (fun i => g.variance (meanAt g raw b β i)
        * g.link.dNatParam (linPred raw b β i)) * design b raw.x) = fisherMat g raw b β := by
  ext j k
  rw [Matrix.mul_apply]
  simp only [mul_diagonal, diagonal_mul, transpose_apply, fisherMat]
  exact Finset.sum_congr rfl fun i _ => by ring

/-- The hat matrix fixes the (weighted) column space of the design, without regularization. -/
theorem C40_fixes (he : env'.Exact) (hl1 : options.l1 ≤ 0) (hl2 : options.l2 ≤ 0) {H : Mat ℝ n n}
    (hH : f.hat env' = .ok H) :
    Matrix.of H * (diagonal (fun i => g.variance (meanAt g raw b f.result i)
        * g.link.dNatParam (linPred raw b f.result i)) * design b raw.x)
      = diagonal (fun i => g.variance (meanAt g raw b f.result i)
        * g.link.dNatParam (linPred raw b f.result i)) * design b raw.x := by
  obtain ⟨hu, hHe⟩ := hat_eq hg hd h he hH
  have hF : Matrix.of (f.fisher f.result) = fisherMat g raw b f.result := by
    obtain ⟨-, -, h3, -⟩ := C10_external hg hd hl1 h
    rw [h3, ridgeMat, max_eq_right hl2]; simp [onSlopes_zero]
  rw [hHe, Matrix.mul_assoc _ (diagonal _) (diagonal _ * _), Matrix.mul_assoc _ (design b raw.x)ᵀ,
    ← Matrix.mul_assoc (design b raw.x)ᵀ, hat_core, ← hF, Matrix.mul_assoc,
    nonsing_inv_mul _ hu, Matrix.mul_one]

/-- **C40**: without regularization the hat matrix is idempotent. -/
theorem C40_idempotent (he : env'.Exact) (hl1 : options.l1 ≤ 0) (hl2 : options.l2 ≤ 0)
    {H : Mat ℝ n n} (hH : f.hat env' = .ok H) : Matrix.of H * Matrix.of H = Matrix.of H := by
  obtain ⟨hu, hHe⟩ := hat_eq hg hd h he hH
  have hfix := C40_fixes hg hd h he hl1 hl2 hH
  conv_lhs => rw [hHe]
  conv_rhs => rw [hHe]
  rw [hHe] at hfix
  rw [← Matrix.mul_assoc, ← Matrix.mul_assoc, ← Matrix.mul_assoc, hfix]

/-- **C40**: without regularization the leverages sum to the number of parameters. -/
theorem C40_trace (he : env'.Exact) (hl1 : options.l1 ≤ 0) (hl2 : options.l2 ≤ 0)
    {lev : Vec ℝ n} (hlev : f.leverage env' = .ok lev) : ∑ i, lev i = (ncols b p : ℕ) := by
  unfold Fit.leverage at hlev
  cases hH : f.hat env' with
  | error e => rw [hH] at hlev; simp [bind, Except.bind] at hlev
  | ok H =>
    rw [hH] at hlev
    simp only [bind, Except.bind, pure, Except.pure, Except.ok.injEq] at hlev
    obtain ⟨hu, hHe⟩ := hat_eq hg hd h he hH
    have hF : Matrix.of (f.fisher f.result) = fisherMat g raw b f.result := by
      obtain ⟨-, -, h3, -⟩ := C10_external hg hd hl1 h
      rw [h3, ridgeMat, max_eq_right hl2]; simp [onSlopes_zero]
    have htr : ∑ i, lev i = trace (Matrix.of H) := by rw [← hlev]; rfl
    rw [htr, hHe, Matrix.mul_assoc, Matrix.mul_assoc, trace_mul_comm, Matrix.mul_assoc, hat_core,
      ← hF, nonsing_inv_mul _ hu, trace_one, Fintype.card_fin]

/-- **C40**: with any regularization, non-negative weights and variance: every leverage lies between
0 and 1. -/
theorem C40_leverage (he : env'.Exact) (hw : ∀ i, 0 ≤ totalWt raw i)
    (hv : ∀ i, 0 ≤ g.variance (meanAt g raw b f.result i)) {lev : Vec ℝ n}
    (hlev : f.leverage env' = .ok lev) (i : Fin n) : 0 ≤ lev i ∧ lev i ≤ 1 := by
  unfold Fit.leverage at hlev
  cases hH : f.hat env' with
  | error e => rw [hH] at hlev; simp [bind, Except.bind] at hlev
  | ok H =>
    rw [hH] at hlev
    simp only [bind, Except.bind, pure, Except.pure, Except.ok.injEq] at hlev
    obtain ⟨hu, hHe⟩ := hat_eq hg hd h he hH
    obtain ⟨P, hP, hF, -⟩ := fisher_decomp hg hd h
    have hF := hF f.result
    set F := Matrix.of (f.fisher f.result) with hFdef
    set x : Fin (ncols b p) → ℝ := fun j => design b raw.x i j with hx
    set z := F⁻¹ *ᵥ x with hz
    set a := totalWt raw i * g.link.dNatParam (linPred raw b f.result i) ^ 2
      * g.variance (meanAt g raw b f.result i) with ha
    have ha0 : 0 ≤ a := mul_nonneg (mul_nonneg (hw i) (sq_nonneg _)) (hv i)
    have hli : lev i = a * (x ⬝ᵥ z) := by
      have h1 : lev i = Matrix.of H i i := by rw [← hlev]; rfl
      rw [h1, hHe, mul_diagonal, Matrix.mul_apply]
      have h2 : ∀ j, (diagonal (fun i => g.variance (meanAt g raw b f.result i)
          * g.link.dNatParam (linPred raw b f.result i)) * design b raw.x * F⁻¹) i j
          * (design b raw.x)ᵀ j i = g.variance (meanAt g raw b f.result i)
          * g.link.dNatParam (linPred raw b f.result i) * (∑ k, x k * F⁻¹ k j * x j) := by
        intro j
        rw [Matrix.mul_assoc, diagonal_mul, Matrix.mul_apply, mul_assoc, Finset.sum_mul]
        rfl
      simp only [h2, ← Finset.mul_sum]
      have h3 : ∑ j, ∑ k, x k * F⁻¹ k j * x j = x ⬝ᵥ z := by
        rw [Finset.sum_comm]
        simp only [dotProduct, hz, mulVec, Finset.mul_sum, mul_assoc]
      rw [h3, ha]; ring
    have hFz : F *ᵥ z = x := by rw [hz, mulVec_mulVec, mul_nonsing_inv _ hu, one_mulVec]
    have hq : x ⬝ᵥ z = z ⬝ᵥ (F *ᵥ z) := by rw [hFz, dotProduct_comm]
    have hge : a * (x ⬝ᵥ z) ^ 2 ≤ x ⬝ᵥ z := by
      have hq2 : x ⬝ᵥ z = ∑ i, totalWt raw i
          * g.link.dNatParam (linPred raw b f.result i) ^ 2 * g.variance (meanAt g raw b f.result i)
          * (∑ j, design b raw.x i j * z j) ^ 2 + z ⬝ᵥ (P *ᵥ z) := by
        rw [hq, hF, add_mulVec, dotProduct_add, quad_fisher]
      have h1 : a * (x ⬝ᵥ z) ^ 2 ≤ ∑ i, totalWt raw i
          * g.link.dNatParam (linPred raw b f.result i) ^ 2 * g.variance (meanAt g raw b f.result i)
          * (∑ j, design b raw.x i j * z j) ^ 2 := by
        have : x ⬝ᵥ z = ∑ j, design b raw.x i j * z j := rfl
        rw [this]
        exact Finset.single_le_sum (f := fun i => totalWt raw i
          * g.link.dNatParam (linPred raw b f.result i) ^ 2 * g.variance (meanAt g raw b f.result i)
          * (∑ j, design b raw.x i j * z j) ^ 2) (fun i _ =>
            mul_nonneg (mul_nonneg (mul_nonneg (hw i) (sq_nonneg _)) (hv i)) (sq_nonneg _))
          (Finset.mem_univ i)
      have h2 := PosSemidef_real_nonneg hP z
      linarith
    have ht : 0 ≤ x ⬝ᵥ z := le_trans (mul_nonneg ha0 (sq_nonneg _)) hge
    rw [hli]
    refine ⟨mul_nonneg ha0 ht, ?_⟩
    rcases ht.eq_or_lt with h0 | h0
    · rw [← h0, mul_zero]; exact zero_le_one
    · by_contra hcon
      push Not at hcon
      nlinarith [mul_lt_mul_of_pos_right hcon h0]

/-- **C40**: at a zero of the unpenalized score the hat matrix annihilates the response residuals. -/
theorem C40_residuals (he : env'.Exact) (hs : scoreVec g raw b f.result = 0) {H : Mat ℝ n n}
    (hH : f.hat env' = .ok H) :
    Matrix.of H *ᵥ (fun i => raw.y i - meanAt g raw b f.result i) = 0 := by
  obtain ⟨hu, hHe⟩ := hat_eq hg hd h he hH
  have h1 : ((design b raw.x)ᵀ * diagonal (fun i => totalWt raw i
      * g.link.dNatParam (linPred raw b f.result i)))
      *ᵥ (fun i => raw.y i - meanAt g raw b f.result i) = 0 := by
    rw [← hs]
    funext j
    simp only [mulVec, dotProduct, mul_diagonal, transpose_apply, scoreVec]
    exact Finset.sum_congr rfl fun i _ => by ring
  rw [hHe, Matrix.mul_assoc, ← mulVec_mulVec, h1, mulVec_zero]

end

/-- **C40**: the hat matrix and the leverages are available whenever the Fisher information at the
result is regular. -/
theorem C40_available (hd : raw.finalize std b = some d) (h : regression env g d options = .ok f)
    (he : env'.Exact) (hu : IsUnit (Matrix.of (f.fisher f.result)).det) :
    ∃ H, f.hat env' = .ok H ∧ f.leverage env' = .ok fun i => H i i := by
  obtain ⟨rfl, rfl, rfl, hf⟩ := regression_ofRaw hd h
  have hFe : Matrix.of (f.fisher f.result)
      = f.data.tmatᵀ * Matrix.of (f.fisherStd f.resultStd) * f.data.tmat := by
    rw [hf.resultStd, ← Dataset.inverseTransformFisher_eq]; rfl
  rw [hFe, det_mul, det_mul] at hu
  have hu' : IsUnit (Matrix.of (f.fisherStd f.resultStd)).det :=
    isUnit_of_mul_isUnit_right (isUnit_of_mul_isUnit_left hu)
  obtain ⟨a, ha⟩ := he.inv_complete hu'
  have hH : ∃ H, f.hat env' = .ok H := ⟨_, by unfold Fit.hat Fit.fisherStdInv; rw [ha]; rfl⟩
  obtain ⟨H, hH⟩ := hH
  refine ⟨H, hH, ?_⟩
  unfold Fit.leverage
  rw [hH]; rfl

/-- **C40**: for an exact unregularized linear fit the hat matrix maps the responses (minus offset) to
the fitted means (minus offset). -/
theorem C40_linear (hd : raw.finalize std b = some d)
    (h : regression env Family.linear.glm d options = .ok f) (he : env'.Exact)
    (hl1 : options.l1 ≤ 0) (hl2 : options.l2 ≤ 0) (hs : f.score f.result = 0) {H : Mat ℝ n n}
    (hH : f.hat env' = .ok H) :
    Matrix.of H *ᵥ (fun i => raw.y i - offset raw i) = fun i => f.yHat i - offset raw i := by
  have hg := Family.lawfulAdj Family.linear
  obtain ⟨-, h2, -⟩ := C10_external hg hd hl1 h
  have hs0 : scoreVec Family.linear.glm raw b f.result = 0 := by
    rw [← hs, h2]
    funext j
    simp [penScore, max_eq_right hl1, max_eq_right hl2, onSlopes_zero]
  have h1 := C40_residuals hg hd h he hs0 hH
  have h3 := C40_fixes hg hd h he hl1 hl2 hH
  have hone : diagonal (fun i => (Family.linear.glm (F := ℝ)).variance
      (meanAt Family.linear.glm raw b f.result i)
      * (Family.linear.glm (F := ℝ)).link.dNatParam (linPred raw b f.result i))
      = (1 : Matrix (Fin n) (Fin n) ℝ) := by
    rw [← diagonal_one]
    congr 1
    funext i
    simp only [variance_real, varianceFn, dNatParam_real, mul_one]
  rw [hone, Matrix.one_mul] at h3
  have hmean : ∀ i, meanAt Family.linear.glm raw b f.result i - offset raw i
      = (design b raw.x *ᵥ f.result) i := by
    intro i
    simp only [meanAt, funcInv_real, linPred, mulVec, dotProduct]
    ring
  obtain ⟨hgg, -, -, hf⟩ := regression_ofRaw hd h
  have hsplit : (fun i => raw.y i - offset raw i)
      = (fun i => raw.y i - meanAt Family.linear.glm raw b f.result i)
        + design b raw.x *ᵥ f.result := by
    funext i
    rw [Pi.add_apply, ← hmean]; ring
  rw [hsplit, mulVec_add, h1, zero_add, mulVec_mulVec, h3]
  funext i
  rw [← hmean, hf.mean, hgg]

/-- The example meets the hypotheses: its hat matrix exists, with leverages in `[0, 1]` summing to
two, and its covariance matrix exists. -/
example (std : Bool) : ∃ d f H cov, (exRaw ![0, 1, 4]).finalize std true = some d ∧
    regression (exactEnv 0 0) Family.linear.glm d (exOpts 0 0 none 1) = .ok f ∧
    f.hat (exactEnv 0 0) = .ok H ∧ (∀ i, 0 ≤ H i i ∧ H i i ≤ 1) ∧ ∑ i, H i i = 2 ∧
    f.covariance (exactEnv 0 0) = .ok cov ∧ 0 ≤ f.dispersion ∧
    scoreVec Family.linear.glm (exRaw ![0, 1, 4]) true f.result = 0 := by
  obtain ⟨d, f, hd, hf, hr, hs⟩ := exLinFit_score std
  have hg := Family.lawfulAdj Family.linear
  have he := exactEnv_exact (le_refl (0 : ℝ)) 0
  obtain ⟨-, h2, h3, -⟩ := C10_external hg hd le_rfl hf
  have hfish : fisherMat Family.linear.glm (exRaw ![0, 1, 4]) true f.result
      = gram (exRaw ![0, 1, 4]) true := lin_fisher _
  have hF : Matrix.of (f.fisher f.result) = gram (exRaw ![0, 1, 4]) true := by
    rw [h3, ridgeMat, hfish]; simp [exOpts, onSlopes_zero]
  obtain ⟨H, hH, hlev⟩ := C40_available hd hf he (by rw [hF]; exact exRaw_gram_det _)
  obtain ⟨cov, hcov⟩ := (C41_unregularized hg hd hf he le_rfl le_rfl).2.mpr
    (by rw [hfish]; exact exRaw_gram_det _)
  refine ⟨d, f, H, cov, hd, hf, hH, ?_, ?_, hcov, ?_, ?_⟩
  · exact C40_leverage hg hd hf he (fun i => (exRaw_totalWt_pos _ i).le)
      (fun i => Family.variance_nonneg .linear trivial _) hlev
  · rw [C40_trace hg hd hf he le_rfl le_rfl hlev]; norm_num
  · have hN : effCount (exRaw ![0, 1, 4]) = 4 := by
      rw [← nEff_effCount, exRaw_nEff]
    exact C42_nonneg hd hf trivial (fun _ => Set.mem_univ _)
      (fun i => by fin_cases i <;> simp [freq, exRaw])
      (fun i => by simp [varWt, exRaw]) (fun _ => Set.mem_univ _) (by rw [hN]; norm_num)
  · rw [← hs, h2]
    funext j
    simp [penScore, exOpts, onSlopes_zero]

end GLM
