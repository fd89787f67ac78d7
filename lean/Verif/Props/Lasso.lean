/-
  C35, C58: stationary points of the L1 iteration are L1 optima; L1 systems are solvable.
-/
import Verif.Props.Penalty

namespace GLM
open Spec Matrix
variable {n p : ℕ} {b : Bool} {env : Env ℝ} {g : Glm ℝ} {raw : Dataset ℝ n p false} {std : Bool}
  {d : Dataset ℝ n p b} {options : FitOptions ℝ (ncols b p)}

theorem onSlopes_slopes {v : Vec ℝ (ncols b p)} {l : ℝ} {z : Vec ℝ (ncols b p)}
    (h : ∀ j, IsSubgrad (onSlopes b (fun _ : Fin p => l) j) (z j) (v j)) :
    v = onSlopes b (slopes b v) := by
  cases b
  · rfl
  · funext j
    refine Fin.cases ?_ (fun j => ?_) (j : Fin (p + 1))
    · have := h (0 : Fin (p + 1))
      simp only [onSlopes, Fin.cons_zero] at this ⊢
      exact this.zero
    · simp [onSlopes, slopes]

theorem slopes_subgrad {v : Vec ℝ (ncols b p)} {l : ℝ} {z : Vec ℝ (ncols b p)}
    (h : ∀ j, IsSubgrad (onSlopes b (fun _ : Fin p => l) j) (z j) (v j)) (j : Fin p) :
    IsSubgrad l (slopes b z j) (slopes b v j) := by
  cases b
  · exact h j
  · simpa [onSlopes, slopes] using h j.succ

/-- A subgradient in units `σ`. -/
theorem Spec.IsSubgrad.rescale {l x u σ : ℝ} (hσ : 0 < σ) (h : IsSubgrad l (σ * x) u) :
    IsSubgrad (l * σ) x (σ * u) := by
  refine ⟨?_, ?_⟩
  · rw [abs_mul, abs_of_pos hσ, mul_comm]
    exact mul_le_mul_of_nonneg_right h.1 hσ.le
  · have := h.2
    rw [abs_mul, abs_of_pos hσ] at this
    linarith

/-- The step of the L1 iteration: from external coefficients `β` to `β'`, with dual variable `ζ`
(external), the Newton matrix applied to the step plus a multiple of `β' - ζ` is the score minus the
gradient of the L2 penalty minus a subgradient of the L1 penalty at `ζ`. -/
theorem C35_step (he : env.Exact) (hg : LawfulAdj g) (hd : raw.finalize std b = some d)
    (hl1 : 0 < options.l1) {r : Reg ℝ (ncols b p)} {st : Admm ℝ (ncols b p)}
    (hr : RegL1 options r st) (hρ : ∃ z : ℤ, st.rho = 2 ^ z) {γ v : Vec ℝ (ncols b p)}
    (hv : (r.nextGuess env γ (Irls.irlsMatVec env.eps g d γ).2
      (Irls.irlsMatVec env.eps g d γ).1).2 = .ok v) :
    ∃ (ρ : ℝ) (ζ : Vec ℝ (ncols b p)) (u : Fin p → ℝ), 0 < ρ ∧
      d.transformBeta ζ = (st.prepare (onSlopes b fun _ : Fin p => options.l1) γ).dual ∧
      (∀ j, IsSubgrad (max options.l1 0 * scale d j) (slopes b ζ j) (u j)) ∧
      newtonMat env.eps g raw b options.l2 (scale d) (d.inverseTransformBeta γ)
          *ᵥ (d.inverseTransformBeta v - d.inverseTransformBeta γ)
        + ρ • ((d.tmatᵀ * d.tmat) *ᵥ (d.inverseTransformBeta v - ζ))
        = scoreVec g raw b (d.inverseTransformBeta γ) - onSlopes b fun j =>
          u j + max options.l2 0 * (scale d j ^ 2 * slopes b (d.inverseTransformBeta γ) j) := by
  have hwf := Dataset.finalize_wf hd
  set st' := st.prepare (onSlopes b fun _ : Fin p => options.l1) γ with hst'
  have hr' : RegL1 options (r.prepare γ) st' := hr.prepare γ
  have hinv : AdmmInv (onSlopes b fun _ : Fin p => options.l1) st' :=
    AdmmInv.prepare (fun j => onSlopes_nonneg hl1.le j) hρ γ
  have hsol := he.solveh_sound (hr'.mat_symm (d := d) (eps := env.eps) hg γ) hv
  have hint := hr'.step_int hg hsol
  set c : Vec ℝ (ncols b p) := st'.rho • st'.cumRes with hc
  have hsub : ∀ j, IsSubgrad (onSlopes b (fun _ : Fin p => options.l1) j) (st'.dual j) (c j) :=
    fun j => hinv.sub j
  have hT : ∀ u, d.tmat *ᵥ d.inverseTransformBeta u = u := by
    intro u; rw [← Dataset.transformBeta_eq, hwf.transformBeta_inverseTransformBeta]
  refine ⟨st'.rho, d.inverseTransformBeta st'.dual, fun j => scale d j * slopes b c j,
    hinv.rho_pos, hwf.transformBeta_inverseTransformBeta _, fun j => ?_, ?_⟩
  · rw [max_eq_left hl1.le]
    refine IsSubgrad.rescale (Dataset.scale_pos hd j) ?_
    rw [← Dataset.slopes_transformBeta, hwf.transformBeta_inverseTransformBeta]
    exact slopes_subgrad hsub j
  · have h1 := congrArg (fun z => d.tmatᵀ *ᵥ z) hint
    simp only [mulVec_add, mulVec_sub, mulVec_smul] at h1
    rw [onSlopes_slopes hsub, Dataset.tmat_transpose_onSlopes, Dataset.tmat_transpose_onSlopes] at h1
    have h2 := Dataset.finalize_score hg hd (d.inverseTransformBeta γ)
    rw [hwf.transformBeta_inverseTransformBeta] at h2
    rw [h2] at h1
    rw [newtonMat_eq hd hg, hwf.transformBeta_inverseTransformBeta, ← mulVec_mulVec,
      ← mulVec_mulVec, ← mulVec_mulVec, mulVec_sub d.tmat, mulVec_sub d.tmat, hT, hT, hT,
      mulVec_sub, mulVec_sub, mulVec_sub, h1, sub_sub]
    congr 1
    funext j
    rw [Pi.add_apply, onSlopes_add]
    congr 1
    funext i
    have := Dataset.slopes_transformBeta d (d.inverseTransformBeta γ) i
    rw [hwf.transformBeta_inverseTransformBeta] at this
    rw [this]
    ring

/-- C35.  If the iteration with L1 maps the coefficients to themselves and the dual variable has
reached them, they satisfy the optimality conditions of the elastic-net problem. -/
theorem C35_kkt (he : env.Exact) (hg : LawfulAdj g) (hd : raw.finalize std b = some d)
    (hl1 : 0 < options.l1) {r : Reg ℝ (ncols b p)} {st : Admm ℝ (ncols b p)}
    (hr : RegL1 options r st) (hρ : ∃ z : ℤ, st.rho = 2 ^ z) {β : Vec ℝ (ncols b p)}
    (hfix : (r.nextGuess env (d.transformBeta β)
      (Irls.irlsMatVec env.eps g d (d.transformBeta β)).2
      (Irls.irlsMatVec env.eps g d (d.transformBeta β)).1).2 = .ok (d.transformBeta β))
    (hdual : (st.prepare (onSlopes b fun _ : Fin p => options.l1) (d.transformBeta β)).dual
      = d.transformBeta β) :
    KKT g raw b options.l1 options.l2 (scale d) β := by
  have hwf := Dataset.finalize_wf hd
  obtain ⟨ρ, ζ, u, -, h1, h2, h3⟩ := C35_step he hg hd hl1 hr hρ hfix
  rw [hdual] at h1
  have hζ : ζ = β := by
    rw [← hwf.inverseTransformBeta_transformBeta ζ, h1, hwf.inverseTransformBeta_transformBeta]
  subst hζ
  rw [hwf.inverseTransformBeta_transformBeta] at h3
  rw [sub_self, mulVec_zero, mulVec_zero, smul_zero, add_zero] at h3
  exact ⟨u, h2, (sub_eq_zero.mp h3.symm)⟩

/-- The penalty lies above every supporting plane given by a subgradient. -/
theorem penalty_le_of_subgrad (l1 l2 : ℝ) {σ : Fin p → ℝ} (hσ : ∀ j, 0 < σ j)
    {β : Vec ℝ (ncols b p)} {u : Fin p → ℝ}
    (hu : ∀ j, IsSubgrad (max l1 0 * σ j) (slopes b β j) (u j)) (β' : Vec ℝ (ncols b p)) :
    penalty l1 l2 σ b β + onSlopes b (fun j => u j + max l2 0 * (σ j ^ 2 * slopes b β j))
        ⬝ᵥ (β' - β)
      + ((β' - β) ⬝ᵥ (ridgeMat l2 σ b *ᵥ (β' - β))) / 2 ≤ penalty l1 l2 σ b β' := by
  have hs : slopes b (β' - β) = slopes b β' - slopes b β := by cases b <;> rfl
  rw [onSlopes_dot _ _ _ hs, quad_ridge, hs]
  simp only [penalty, Finset.mul_sum, Finset.sum_div, ← Finset.sum_add_distrib]
  refine Finset.sum_le_sum fun j _ => ?_
  simp only [Pi.sub_apply]
  have := (hu j).le (slopes b β' j)
  rw [abs_mul, abs_mul, abs_of_pos (hσ j)]
  nlinarith [this]

/-- C35 (optimum): in a log-concave setting, admissible coefficients that satisfy the optimality
conditions maximize the penalized log-likelihood over all admissible coefficients. -/
theorem C35_optimum {fam : Family} (h : Spec.Concave fam raw) {l1 l2 : ℝ} {σ : Fin p → ℝ}
    (hσ : ∀ j, 0 < σ j) {β : Vec ℝ (ncols b p)} (hβ : Admissible fam raw b β)
    (hk : KKT fam.glm raw b l1 l2 σ β) (β' : Vec ℝ (ncols b p))
    (hβ' : Admissible fam raw b β') :
    penLogLik fam.glm raw b l1 l2 σ β' ≤ penLogLik fam.glm raw b l1 l2 σ β := by
  obtain ⟨u, hu, hk⟩ := hk
  have h1 := logLik_gap (raw := raw) fam β β'
  have h2 := penalty_le_of_subgrad (b := b) l1 l2 hσ hu β'
  have h3 := Finset.sum_nonneg fun i (_ : i ∈ Finset.univ) => gapAt_nonneg h hβ hβ' i
  have h4 := ridge_nonneg (b := b) l2 σ (β' - β)
  rw [hk] at h1
  simp only [penLogLik]
  linarith

/-- C35 for the iteration: in a log-concave setting (in particular with canonical links), a fixed
point of the L1 iteration whose dual variable equals it maximizes the penalized log-likelihood. -/
theorem C35_fixed_point {fam : Family} (he : env.Exact) (hd : raw.finalize std b = some d)
    (h : Spec.Concave fam raw) (hl1 : 0 < options.l1) {r : Reg ℝ (ncols b p)}
    {st : Admm ℝ (ncols b p)} (hr : RegL1 options r st) (hρ : ∃ z : ℤ, st.rho = 2 ^ z)
    {β : Vec ℝ (ncols b p)} (hβ : Admissible fam raw b β)
    (hfix : (r.nextGuess env (d.transformBeta β)
      (Irls.irlsMatVec env.eps fam.glm d (d.transformBeta β)).2
      (Irls.irlsMatVec env.eps fam.glm d (d.transformBeta β)).1).2 = .ok (d.transformBeta β))
    (hdual : (st.prepare (onSlopes b fun _ : Fin p => options.l1) (d.transformBeta β)).dual
      = d.transformBeta β) (β' : Vec ℝ (ncols b p)) (hβ' : Admissible fam raw b β') :
    penLogLik fam.glm raw b options.l1 options.l2 (scale d) β'
      ≤ penLogLik fam.glm raw b options.l1 options.l2 (scale d) β :=
  C35_optimum h (Dataset.scale_pos hd) hβ
    (C35_kkt he (Family.lawfulAdj fam) hd hl1 hr hρ hfix hdual) β' hβ'

/-! ### C58 -/

/-- The internal matrix without the ADMM term is positive semidefinite. -/
theorem lhsInt_quad_nonneg {eps : ℝ} (hg : LawfulAdj g) (heps : 0 ≤ eps)
    (hw : ∀ i, 0 ≤ totalWt d i) (hv : ∀ ω, 0 ≤ g.variance (g.link.funcInv ω)) (l2 : ℝ)
    (γ x : Vec ℝ (ncols b p)) : 0 ≤ x ⬝ᵥ (lhsInt eps g d l2 γ *ᵥ x) := by
  have hq : ∀ c : Fin n → ℝ, x ⬝ᵥ ((fun j k => ∑ i, c i * d.x i j * d.x i k :
      Matrix (Fin (ncols b p)) (Fin (ncols b p)) ℝ) *ᵥ x) = ∑ i, c i * (∑ j, d.x i j * x j) ^ 2 := by
    intro c
    simp only [dotProduct, mulVec, Finset.sum_mul, Finset.mul_sum, sq]
    calc _ = ∑ j, ∑ k, ∑ i, _ := rfl
      _ = ∑ j, ∑ i, ∑ k, _ := Finset.sum_congr rfl fun j _ => Finset.sum_comm
      _ = ∑ i, ∑ j, ∑ k, _ := Finset.sum_comm
      _ = _ := by
        refine Finset.sum_congr rfl fun i _ => ?_
        rw [Finset.sum_comm]
        exact Finset.sum_congr rfl fun j _ => Finset.sum_congr rfl fun k _ => by ring
  have h1 : 0 ≤ x ⬝ᵥ (Matrix.of (d.fisherInt g γ) *ᵥ x) := by
    have : Matrix.of (d.fisherInt g γ) = fun j k => ∑ i, (totalWt d i *
        g.link.dNatParam (d.linearPredictorStd γ i) ^ 2 *
        g.variance (g.link.funcInv (d.linearPredictorStd γ i))) * d.x i j * d.x i k := by
      funext j k; exact Dataset.fisherInt_apply hg d γ j k
    rw [this, hq]
    exact Finset.sum_nonneg fun i _ =>
      mul_nonneg (mul_nonneg (mul_nonneg (hw i) (sq_nonneg _)) (hv _)) (sq_nonneg _)
  have h2 : 0 ≤ x ⬝ᵥ (d.gramInt *ᵥ x) := by
    unfold Dataset.gramInt
    rw [hq]
    exact Finset.sum_nonneg fun i _ => mul_nonneg (hw i) (sq_nonneg _)
  have h3 : 0 ≤ x ⬝ᵥ (diagonal (onSlopes b fun _ : Fin p => max l2 0) *ᵥ x) := by
    simp only [dotProduct, mulVec_diagonal]
    refine Finset.sum_nonneg fun j _ => ?_
    have := mul_nonneg (onSlopes_nonneg (b := b) (p := p) (le_max_right l2 0) j)
      (mul_self_nonneg (x j))
    linarith
  rw [lhsInt, Matrix.add_mulVec (_ + _), Matrix.add_mulVec, smul_mulVec, dotProduct_add,
    dotProduct_add, dotProduct_smul, smul_eq_mul]
  have := mul_nonneg heps h2
  linarith

/-- C58.  With L1 regularization the linear system of every iteration is positive definite, for any
design, if weights and variances are non-negative. -/
theorem C58_posDef {eps : ℝ} (hg : LawfulAdj g) (heps : 0 ≤ eps) (hw : ∀ i, 0 ≤ totalWt d i)
    (hv : ∀ ω, 0 ≤ g.variance (g.link.funcInv ω)) {r : Reg ℝ (ncols b p)}
    {st : Admm ℝ (ncols b p)} (hr : RegL1 options r st) (hρ : 0 < st.rho)
    (γ : Vec ℝ (ncols b p)) :
    (Matrix.of (r.irlsMat (Irls.irlsMatVec eps g d γ).1 γ)).PosDef := by
  refine PosDef.of_dotProduct_mulVec_pos (isHermitian_of_symm (hr.mat_symm hg γ)) fun x hx => ?_
  rw [show star x = x from by ext; simp, hr.mat_eq hg, Matrix.add_mulVec, smul_mulVec, one_mulVec,
    dotProduct_add, dotProduct_smul, smul_eq_mul]
  have h1 := lhsInt_quad_nonneg hg heps hw hv options.l2 γ x
  have h2 : 0 < x ⬝ᵥ x := by
    rw [dotProduct]
    obtain ⟨j, hj⟩ := Function.ne_iff.mp hx
    exact Finset.sum_pos' (fun i _ => mul_self_nonneg _)
      ⟨j, Finset.mem_univ _, mul_self_pos.mpr hj⟩
  have := mul_pos hρ h2
  linarith

/-- C58 (whole fits): an L1 fit never ends with a linear-algebra error, whatever the design. -/
theorem C58_no_linalg_error (he : env.Exact) (hg : LawfulAdj g) (hd : raw.finalize std b = some d)
    (hl1 : 0 < options.l1) (hw : ∀ i, 0 ≤ totalWt raw i)
    (hv : ∀ ω, 0 ≤ g.variance (g.link.funcInv ω)) :
    regression env g d options ≠ .err .linalg := by
  intro h
  obtain ⟨s, s', -, ⟨st, h1, h2, -⟩, hn⟩ := (fitLoop_inv (P := L1Inv options)
    (fun s s' v l _ hs hn => hs.cand hl1 hn) _ none Irls.Inv.new (L1Inv.new hl1 _)).2.2.1
    (regression_err h)
  have hinv := AdmmInv.prepare (fun j => onSlopes_nonneg (b := b) (p := p) hl1.le j) h2.rho s.guess
  have hpd := C58_posDef (d := d) hg he.eps_nonneg
    (fun i => by rw [Dataset.finalize_totalWt hd]; exact hw i) hv (h1.prepare s.guess) hinv.rho_pos
    s.guess
  obtain ⟨v, hs⟩ := he.solveh_complete
    ((s.reg.prepare s.guess).irlsVec (Irls.irlsMatVec env.eps g d s.guess).2 s.guess)
    ((h1.prepare s.guess).mat_symm hg _) ((isUnit_iff_isUnit_det _).mp hpd.isUnit)
  have hc := s.nextRaw_case env g d options.tol
  rw [hn] at hc
  generalize hr : (RawNext.linalg s' : RawNext ℝ (ncols b p)) = r at hc
  cases hc <;> try (simp only [reduceCtorEq] at hr)
  case linalg hs' => 
    have : s.sol env g d = .ok v := hs
    rw [this] at hs'; simp at hs'

theorem C58_families (fam : Family) (hfam : ValidFamily fam) (he : env.Exact)
    (hd : raw.finalize std b = some d) (hl1 : 0 < options.l1) (hw : ∀ i, 0 ≤ totalWt raw i) :
    regression env fam.glm d options ≠ .err .linalg :=
  C58_no_linalg_error he (Family.lawfulAdj fam) hd hl1 hw (fam.variance_nonneg hfam)

/-! ### C35, converse -/

/-- Soft thresholding recovers a point from the point plus a subgradient there. -/
theorem softThresh_add_subgrad {l x u : ℝ} (hl : 0 ≤ l) (h : IsSubgrad l x u) :
    softThresh (x + u) l = x := by
  refine ((C33_prox (x := x + u) hl x).2 ?_).symm
  have h1 := h.le (softThresh (x + u) l)
  set s := softThresh (x + u) l
  nlinarith [sq_nonneg (s - x)]

/-- C35 (converse): coefficients that satisfy the optimality conditions are a fixed point of the L1
iteration, with a suitable ADMM state; so the fixed points of `C35_kkt` are exactly these. -/
theorem C35_kkt_conversely (he : env.Exact) (hg : LawfulAdj g) (hd : raw.finalize std b = some d)
    (hl1 : 0 < options.l1) (hw : ∀ i, 0 ≤ totalWt raw i)
    (hv : ∀ ω, 0 ≤ g.variance (g.link.funcInv ω)) {β : Vec ℝ (ncols b p)}
    (hk : KKT g raw b options.l1 options.l2 (scale d) β) :
    ∃ r st, RegL1 options r st ∧ st.rho = 1 ∧
      (st.prepare (onSlopes b fun _ : Fin p => options.l1) (d.transformBeta β)).dual
        = d.transformBeta β ∧
      (r.nextGuess env (d.transformBeta β) (Irls.irlsMatVec env.eps g d (d.transformBeta β)).2
        (Irls.irlsMatVec env.eps g d (d.transformBeta β)).1).2 = .ok (d.transformBeta β) := by
  have hwf := Dataset.finalize_wf hd
  obtain ⟨u, hu, hk⟩ := hk
  rw [max_eq_left hl1.le] at hu
  set γ := d.transformBeta β with hγ
  have hσ := Dataset.scale_pos hd
  let c : Fin p → ℝ := fun j => u j / scale d j
  have hc : ∀ j, IsSubgrad options.l1 (slopes b γ j) (c j) := by
    intro j
    have hj := hσ j
    refine ⟨?_, ?_⟩
    · rw [abs_div, abs_of_pos hj, div_le_iff₀ hj]; exact (hu j).1
    · rw [hγ, Dataset.slopes_transformBeta, abs_mul, abs_of_pos hj, div_mul_eq_mul_div,
        mul_comm (scale d j), ← mul_assoc, (hu j).2]
      field_simp
  have hc' : ∀ j, IsSubgrad (onSlopes b (fun _ : Fin p => options.l1) j) (γ j)
      (onSlopes b c j) := by
    intro j
    cases b
    · exact hc j
    · refine Fin.cases ?_ (fun j => ?_) (j : Fin (p + 1))
      · simp [onSlopes, IsSubgrad]
      · simpa [onSlopes, slopes] using hc j
  let st : Admm ℝ (ncols b p) := ⟨γ, onSlopes b c, 1, none, none⟩
  have hupd : st.updateRho = st := rfl
  have hdual : (st.prepare (onSlopes b fun _ : Fin p => options.l1) γ).dual = γ := by
    funext j
    simp only [Admm.prepare, hupd]
    change softThresh (γ j + onSlopes b c j) (onSlopes b (fun _ : Fin p => options.l1) j / 1) = γ j
    rw [div_one]
    exact softThresh_add_subgrad (onSlopes_nonneg hl1.le j) (hc' j)
  have hr : ∃ r, RegL1 options r st := by
    rcases le_or_gt options.l2 0 with h | h
    · exact ⟨_, Or.inl ⟨h, rfl⟩⟩
    · exact ⟨_, Or.inr ⟨h, rfl⟩⟩
  obtain ⟨r, hr⟩ := hr
  refine ⟨r, st, hr, rfl, hdual, ?_⟩
  have hr' := hr.prepare γ
  set st' := st.prepare (onSlopes b fun _ : Fin p => options.l1) γ with hst'
  have hcum : st'.cumRes = onSlopes b c := by
    funext j
    have := congrFun hdual j
    change onSlopes b c j + (γ j - st'.dual j) = onSlopes b c j
    rw [this]; ring
  have hρ : st'.rho = 1 := rfl
  have hpd := C58_posDef (d := d) hg he.eps_nonneg
    (fun i => by rw [Dataset.finalize_totalWt hd]; exact hw i) hv hr' (by rw [hρ]; exact one_pos) γ
  refine he.solveh_eq (hr'.mat_symm hg γ) ((isUnit_iff_isUnit_det _).mp hpd.isUnit) ?_
  have hs : d.scoreInt g γ = onSlopes b fun j => c j + max options.l2 0 * slopes b γ j := by
    have hT : IsUnit d.tmatᵀ.det := by
      rw [det_transpose]; exact isUnit_iff_ne_zero.mpr hwf.det_tmat
    have h1 := Dataset.finalize_score hg hd β
    rw [hk] at h1
    have h2 : d.tmatᵀ *ᵥ (onSlopes b fun j => c j + max options.l2 0 * slopes b γ j)
        = onSlopes b fun j => u j + max options.l2 0 * (scale d j ^ 2 * slopes b β j) := by
      rw [Dataset.tmat_transpose_onSlopes]
      congr 1
      funext j
      have := (hσ j).ne'
      simp only [c]
      rw [hγ, Dataset.slopes_transformBeta]
      field_simp
    have := congrArg (fun z => (d.tmatᵀ)⁻¹ *ᵥ z) (h1.trans h2.symm)
    simpa only [mulVec_mulVec, nonsing_inv_mul _ hT, one_mulVec] using this
  rw [hr'.mat_eq hg, hr'.irlsVec, irlsVec_real hg, irlsMat_real hg, hcum, hdual, hρ, hs, lhsInt,
    Matrix.add_mulVec, Matrix.add_mulVec (_ + _)]
  funext j
  have h1 := congrFun (onSlopes_mul (fun _ : Fin p => max options.l2 0) γ fun x => x) j
  simp only [Pi.add_apply, mulVec_diagonal, one_smul, one_mulVec, Pi.sub_apply]
  rw [h1, ← onSlopes_add]
  ring

/-- An L1 fit started at zero, where the score is zero, returns zero at once. -/
theorem C35_zero_start (he : env.Exact) (hg : LawfulAdj g) (hd : raw.finalize std b = some d)
    (hl1 : 0 < options.l1) (htol : 0 < options.tol) (hw : ∀ i, 0 ≤ totalWt raw i)
    (hv : ∀ ω, 0 ≤ g.variance (g.link.funcInv ω)) (hp : 0 < ncols b p)
    (hβ : options.initGuess = some 0) (hs : scoreVec g raw b 0 = 0) :
    ∃ f, regression env g d options = .ok f ∧ f.history = [] ∧ f.result = 0 := by
  have h0 : slopes b (0 : Vec ℝ (ncols b p)) = 0 := by cases b <;> rfl
  have hwf := Dataset.finalize_wf hd
  have hinit : initialGuess env g d options = d.transformBeta 0 := by
    unfold initialGuess; rw [hβ]
  set s := Irls.new g d (initialGuess env g d options) options with hsdef
  set γ := d.transformBeta 0 with hγ
  have hguess : s.guess = γ := hinit
  have hslope : slopes b γ = 0 := by
    funext j; rw [hγ, Dataset.slopes_transformBeta, h0]; simp
  have hthr : ∀ j, softThresh (γ j) (onSlopes b (fun _ : Fin p => options.l1) j) = γ j := by
    intro j
    have := softThresh_add_subgrad (x := γ j) (u := 0)
      (onSlopes_nonneg (b := b) (p := p) hl1.le j) (by
        refine ⟨by simpa using onSlopes_nonneg (b := b) (p := p) hl1.le j, ?_⟩
        rw [zero_mul, eq_comm]
        have h1 := congrFun (onSlopes_mul (fun _ : Fin p => options.l1) γ fun x => |x|) j
        rw [h1, hslope]
        simp [onSlopes_zero])
    simpa using this
  set st' := (Admm.init : Admm ℝ (ncols b p)).prepare (onSlopes b fun _ : Fin p => options.l1) γ
    with hst'
  have hdual : st'.dual = γ := by
    funext j
    have h : st'.dual j = softThresh (γ j + 0) (onSlopes b (fun _ : Fin p => options.l1) j / 1) :=
      rfl
    rw [h, add_zero, div_one, hthr]
  have hcum : st'.cumRes = 0 := by
    funext j
    change 0 + (γ j - st'.dual j) = 0
    rw [hdual]; ring
  have hr' : RegL1 options (s.reg.prepare γ) st' := (getReg_regL1 hl1).prepare γ
  have hpd := C58_posDef (d := d) hg he.eps_nonneg
    (fun i => by rw [Dataset.finalize_totalWt hd]; exact hw i) hv hr' one_pos γ
  have hscore : d.scoreInt g γ = 0 := by
    have hT : IsUnit d.tmatᵀ.det := by
      rw [det_transpose]; exact isUnit_iff_ne_zero.mpr hwf.det_tmat
    have h1 := Dataset.finalize_score hg hd 0
    rw [hs] at h1
    have := congrArg (fun z => (d.tmatᵀ)⁻¹ *ᵥ z) h1
    simpa only [mulVec_mulVec, nonsing_inv_mul _ hT, one_mulVec, mulVec_zero] using this
  have hsol : s.sol env g d = .ok s.guess := by
    rw [hguess]
    unfold Irls.sol
    rw [hguess]
    refine he.solveh_eq (hr'.mat_symm hg γ) ((isUnit_iff_isUnit_det _).mp hpd.isUnit) ?_
    rw [hr'.mat_eq hg, hr'.irlsVec, irlsVec_real hg, irlsMat_real hg, hcum, hdual, hscore, lhsInt,
      Matrix.add_mulVec, Matrix.add_mulVec (_ + _)]
    funext j
    have h1 := congrFun (onSlopes_mul (fun _ : Fin p => max options.l2 0) γ fun x => x) j
    simp only [Pi.add_apply, mulVec_diagonal, smul_mulVec, one_mulVec, Pi.smul_apply, Pi.sub_apply]
    rw [h1, hslope]
    simp [onSlopes_zero]
  have hterm : (s.reg.prepare s.guess).terminateOk options.tol = true := by
    rw [hguess, hr'.terminateOk]
    have hpos : (0 : ℝ) < Real.sqrt (ncols b p : ℕ) * options.tol :=
      mul_pos (Real.sqrt_pos.mpr (by exact_mod_cast hp)) htol
    have h1 : st'.rSq = some 0 := by
      change some (vsum fun j => (γ j - st'.dual j) * (γ j - st'.dual j)) = some 0
      rw [hdual]; simp
    have h2 : st'.sSq = some 0 := by
      change some (vsum fun j => ((st'.dual j - 0) * 1) * ((st'.dual j - 0) * 1)) = some 0
      rw [hdual, hγ, Dataset.transformBeta_eq, mulVec_zero]
      simp
    unfold Admm.terminateOk
    rw [h1, h2]
    simpa [Scalar.lt] using hpos
  have hstop := Irls.nextRaw_equal (env := env) (g := g) (data := d) (tol := options.tol) (s := s)
    (v := s.guess) rfl hsol hterm (by simp [vecEq])
  refine ⟨Fit.new g d options (s.prep.makeLastStep) s.prep, ?_, rfl, ?_⟩
  · rw [regression_eq, ← hsdef, fitLoop_eq, hstop]
    rfl
  · change d.inverseTransformBeta (initialGuess env g d options) = 0
    rw [hinit, hwf.inverseTransformBeta_transformBeta]

/-! ### Concrete cases -/

/-- Linear regression of `y = (0, 1, 1)` on `x = (0, 1, 2)` without intercept and with `l1 = 10`:
zero satisfies the optimality conditions (the score there is 4). -/
theorem exLasso_kkt : KKT Family.linear.glm (exRaw ![0, 1, 1]) false 10 0 (fun _ => 1) 0 := by
  refine ⟨fun _ => 4, fun j => ⟨by norm_num, by simp [slopes]⟩, ?_⟩
  funext j
  have hlin : ∀ i, linPred (exRaw ![0, 1, 1]) false 0 i = 0 := fun i => by
    simp [linPred, exRaw, Spec.offset]
  simp only [scoreVec, meanAt, hlin, exRaw_totalWt, Fin.sum_univ_three]
  simp [funcInv_real, dNatParam_real, onSlopes, slopes, design, exRaw]
  norm_num

/-- The hypotheses of `C35_fixed_point` are met there, so zero maximizes the penalized
log-likelihood. -/
example : ∃ (d : Dataset ℝ 3 1 false) (r : Reg ℝ (ncols false 1)) (st : Admm ℝ (ncols false 1)),
    (exRaw ![0, 1, 1]).finalize false false = some d ∧ RegL1 (exOpts 10 0 none 5) r st ∧
    st.rho = 1 ∧ (st.prepare (onSlopes false fun _ : Fin 1 => 10) (d.transformBeta 0)).dual
      = d.transformBeta 0 ∧
    (r.nextGuess (exactEnv (1 / 1000) 7) (d.transformBeta 0)
      (Irls.irlsMatVec (exactEnv (1 / 1000) 7).eps Family.linear.glm d (d.transformBeta 0)).2
      (Irls.irlsMatVec (exactEnv (1 / 1000) 7).eps Family.linear.glm d (d.transformBeta 0)).1).2
      = .ok (d.transformBeta 0) := by
  have hd : (exRaw ![0, 1, 1]).finalize false false = some (exRaw ![0, 1, 1]) := rfl
  obtain ⟨r, st, h1, h2, h3, h4⟩ := C35_kkt_conversely (options := exOpts 10 0 none 5)
    (exactEnv_exact (by norm_num : (0 : ℝ) ≤ 1 / 1000) 7) (Family.lawfulAdj .linear) hd
    (by norm_num [exOpts]) (fun i => (exRaw_totalWt_pos _ i).le)
    (Family.variance_nonneg .linear trivial) exLasso_kkt
  exact ⟨_, r, st, hd, h1, h2, h3, h4⟩

example (β' : Vec ℝ (ncols false 1)) :
    penLogLik Family.linear.glm (exRaw ![0, 1, 1]) false 10 0 (fun _ => 1) β'
      ≤ penLogLik Family.linear.glm (exRaw ![0, 1, 1]) false 10 0 (fun _ => 1) 0 :=
  C35_optimum (fam := .linear)
    ⟨trivial, trivial, Or.inl trivial, fun i => (exRaw_totalWt_pos _ i).le⟩ (fun _ => one_pos)
    (fun _ => trivial) exLasso_kkt β' (fun _ => trivial)

/-- A successful L1 fit, as in `C34_fit`; Poisson with all counts one. -/
example (std : Bool) (m : ℕ) : ∃ d f, (exRaw ![1, 1, 1]).finalize std true = some d ∧
    regression (exactEnv (1 / 1000) 7) Family.poisson.glm d (exOpts 2 3 (some 0) m) = .ok f ∧
    f.result = 0 := by
  obtain ⟨d, hd⟩ := exRaw_finalize ![1, 1, 1] std true
  have hs : scoreVec Family.poisson.glm (exRaw ![1, 1, 1]) true 0 = 0 := by
    have := exPoisson_stationary (fun _ => 1) 0
    unfold penScore at this
    funext j
    have h := congrFun this j
    simpa [onSlopes_zero] using h
  obtain ⟨f, h1, -, h2⟩ := C35_zero_start (options := exOpts 2 3 (some 0) m)
    (exactEnv_exact (by norm_num : (0 : ℝ) ≤ 1 / 1000) 7) (Family.lawfulAdj .poisson) hd
    (by norm_num [exOpts]) (by norm_num [exOpts]) (fun i => (exRaw_totalWt_pos _ i).le)
    (Family.variance_nonneg .poisson trivial) (by norm_num) rfl hs
  exact ⟨d, f, hd, h1, h2⟩

end GLM
