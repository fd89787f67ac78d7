/-
  C101: what a fit with zero tolerance certifies when its linear solver is not exact.
-/
import Verif.Props.Inexact
import Verif.Props.Ascent

namespace GLM
open Spec Matrix
variable {n p : ℕ} {b : Bool} {env : Env ℝ} {raw : Dataset ℝ n p false} {std : Bool}
  {d : Dataset ℝ n p b} {options : FitOptions ℝ (ncols b p)} {fam : Family} {f : Fit ℝ n p b}
  {κ : ℝ}

/-- Any direction with a positive product with the score is uphill. -/
theorem uphill_of_pos (hv : ValidFamily fam) {l1 l2 : ℝ} (hl1 : l1 ≤ 0) {σ : Fin p → ℝ}
    (hσ : ∀ j, 0 < σ j) {β δ : Vec ℝ (ncols b p)} (hβ : Admissible fam raw b β)
    (hdir : 0 < penScore fam.glm raw b l1 l2 σ β ⬝ᵥ δ) :
    ∃ τ > 0, ∀ m : ℝ, 0 < m → m < τ →
      penLogLik fam.glm raw b l1 l2 σ β < penLogLik fam.glm raw b l1 l2 σ (β + m • δ) := by
  have hg : IsGradientAt (penLogLik fam.glm raw b l1 l2 σ) (penScore fam.glm raw b l1 l2 σ β) β :=
    isGradientAt_sub (logLik_isGradientAt hv hβ) (penalty_isGradientAt hσ (Or.inl hl1))
  have hline : HasDerivAt (fun m : ℝ => β + m • δ) δ 0 := by
    simpa using ((hasDerivAt_id (0 : ℝ)).smul_const δ).const_add β
  have hg' : HasFDerivAt (penLogLik fam.glm raw b l1 l2 σ)
      (∑ j, penScore fam.glm raw b l1 l2 σ β j • ContinuousLinearMap.proj (R := ℝ)
        (φ := fun _ : Fin (ncols b p) => ℝ) j) (β + (0 : ℝ) • δ) := by
    rw [zero_smul, add_zero]; exact hg
  have hd := hg'.comp_hasDerivAt (0 : ℝ) hline
  have e : (∑ j, penScore fam.glm raw b l1 l2 σ β j • ContinuousLinearMap.proj (R := ℝ)
      (φ := fun _ : Fin (ncols b p) => ℝ) j) δ = penScore fam.glm raw b l1 l2 σ β ⬝ᵥ δ := by
    simp [dotProduct]
  rw [e] at hd
  have hlt := (hasDerivAt_iff_tendsto_slope.mp hd).eventually_const_lt hdir
  rw [eventually_nhdsWithin_iff, Metric.eventually_nhds_iff] at hlt
  obtain ⟨τ, hτ, h⟩ := hlt
  refine ⟨τ, hτ, fun m hm hmτ => ?_⟩
  have := h (y := m) (by rwa [Real.dist_eq, sub_zero, abs_of_pos hm]) hm.ne'
  rw [slope_def_field, sub_zero, div_pos_iff_of_pos_right hm] at this
  simpa using this

section solver
variable {g : Glm ℝ}

/-- The quadratic form of the system on the internal scale is that on the user's scale. -/
theorem quad_internal (hd : raw.finalize std b = some d) (hg : LawfulAdj g) {eps l2 : ℝ}
    (γ x : Vec ℝ (ncols b p)) :
    d.transformBeta x ⬝ᵥ (lhsInt eps g d l2 γ *ᵥ d.transformBeta x)
      = x ⬝ᵥ (newtonMat eps g raw b l2 (scale d) (d.inverseTransformBeta γ) *ᵥ x) := by
  have hwf := Dataset.finalize_wf hd
  rw [newtonMat_eq hd hg, hwf.transformBeta_inverseTransformBeta, Dataset.transformBeta_eq,
    ← mulVec_mulVec, ← mulVec_mulVec, dotProduct_mulVec x, vecMul_transpose]

/-- The answer of the solver is near the Newton point, in the norm of the Newton matrix. -/
theorem sol_near (hs : SolvesWithin env κ) (hg : LawfulAdj g) (hd : raw.finalize std b = some d)
    (hl1 : options.l1 ≤ 0) {s : Irls ℝ (ncols b p)} (hr : Reg.Same s.reg (getReg options))
    (hpd : (newtonMat env.eps g raw b options.l2 (scale d)
      (d.inverseTransformBeta s.guess)).PosDef) {δ : Vec ℝ (ncols b p)}
    (hδ : IsNewtonStep env.eps g raw b options.l1 options.l2 (scale d)
      (d.inverseTransformBeta s.guess) δ) {c : Vec ℝ (ncols b p)} (hc : s.sol env g d = .ok c) :
    let A := newtonMat env.eps g raw b options.l2 (scale d) (d.inverseTransformBeta s.guess)
    let t := d.inverseTransformBeta s.guess + δ
    (d.inverseTransformBeta c - t) ⬝ᵥ (A *ᵥ (d.inverseTransformBeta c - t))
      ≤ κ ^ 2 * (t ⬝ᵥ (A *ᵥ t)) := by
  intro A t
  have hwf := Dataset.finalize_wf hd
  have hex := sol_eq (env := exactEnv env.eps 0) (d := d) (exactEnv_exact hs.eps_nonneg 0) hg hd hl1 hr
    (posDef_det hpd) (β' := t) (by rw [add_sub_cancel_left]; exact hδ)
  have h1 := sol_sound (exactEnv_exact hs.eps_nonneg 0) hg hl1 hr hex
  have hm : Matrix.of ((s.reg.prepare s.guess).irlsMat (Irls.irlsMatVec env.eps g d s.guess).1
      s.guess) = lhsInt env.eps g d options.l2 s.guess := lhsInt_eq hg (hr.prepare _) hl1 _
  have hpd' : (lhsInt env.eps g d options.l2 s.guess).PosDef := by
    refine PosDef.of_dotProduct_mulVec_pos (isHermitian_of_symm (lhsInt_symm hg _ _)) fun x hx => ?_
    rw [show star x = x from by ext; simp, ← hwf.transformBeta_inverseTransformBeta x,
      quad_internal hd hg]
    have := hpd.dotProduct_mulVec_pos (x := d.inverseTransformBeta x) fun h0 => hx (by
      rw [← hwf.transformBeta_inverseTransformBeta x, h0, Dataset.transformBeta_eq, mulVec_zero])
    rwa [show star (d.inverseTransformBeta x) = d.inverseTransformBeta x from by ext; simp] at this
  have h2 := hs.close (hm.symm ▸ hpd') h1 hc
  rw [show Matrix.of ((s.reg.prepare s.guess).irlsMat
    (Irls.irlsMatVec (exactEnv env.eps 0).eps g d s.guess).1 s.guess)
      = lhsInt env.eps g d options.l2 s.guess from hm] at h2
  have e : c - d.transformBeta t = d.transformBeta (d.inverseTransformBeta c - t) := by
    conv_lhs => rw [← hwf.transformBeta_inverseTransformBeta c]
    simp only [Dataset.transformBeta_eq, mulVec_sub]
  rw [e, quad_internal hd hg, quad_internal hd hg] at h2
  exact h2

end solver

/-- With zero tolerance the iteration never marks itself as done. -/
theorem small_zero {g : Glm ℝ} {s : Irls ℝ (ncols b p)} {v : Vec ℝ (ncols b p)}
    (hne : vecEq v s.guess = false) : s.small g d 0 v = false := by
  rw [Bool.eq_false_iff]
  intro h
  rw [Irls.small, Bool.and_eq_true] at h
  have h2 := h.2
  rw [smallDeltaVec, le_real] at h2
  have h3 : ∑ i, (v i - s.guess i) ^ 2 ≤ 0 := by simpa [vsub, ← sq] using h2
  have h4 := (Finset.sum_eq_zero_iff_of_nonneg fun i _ => sq_nonneg (v i - s.guess i)).mp
    (le_antisymm h3 (Finset.sum_nonneg fun i _ => sq_nonneg _))
  rw [Bool.eq_false_iff] at hne
  apply hne
  simp only [vecEq, List.all_eq_true, List.mem_finRange, forall_const, eq_real]
  intro j
  have := h4 j (Finset.mem_univ j)
  exact sub_eq_zero.mp (by simpa using this)

/-- Cauchy-Schwarz for a positive semidefinite form. -/
theorem quad_cauchy {k : ℕ} {G : Matrix (Fin k) (Fin k) ℝ} (hG : G.IsSymm)
    (pG : ∀ x, 0 ≤ x ⬝ᵥ (G *ᵥ x)) (x y : Fin k → ℝ) :
    |x ⬝ᵥ (G *ᵥ y)| ≤ √(x ⬝ᵥ (G *ᵥ x)) * √(y ⬝ᵥ (G *ᵥ y)) := by
  have key : ∀ t : ℝ, 0 ≤ (y ⬝ᵥ (G *ᵥ y)) * (t * t) + (2 * (x ⬝ᵥ (G *ᵥ y))) * t
      + x ⬝ᵥ (G *ᵥ x) := by
    intro t
    have := pG (x + t • y)
    simp only [mulVec_add, mulVec_smul, dotProduct_add, add_dotProduct, dotProduct_smul,
      smul_dotProduct, smul_eq_mul] at this
    rw [dot_mulVec_comm hG y x] at this
    linarith
  have hdis := discrim_le_zero key
  rw [discrim] at hdis
  rw [← Real.sqrt_mul (pG x)]
  exact Real.abs_le_sqrt (by nlinarith)

/-- **C101** (Newton step).  A fit of any family without L1 penalty, with zero tolerance and a solver of
relative error at most `κ`, stops only where the exact Newton step is at most `κ` times the point it
leads to, in the norm of the Newton matrix. -/
theorem C101_newton_step (hs : SolvesWithin env κ) (hd : raw.finalize std b = some d)
    (hv : ValidFamily fam) (hw : ∀ i, 0 ≤ totalWt raw i) (hl1 : options.l1 ≤ 0)
    (htol : options.tol = 0) (hpd : (gram raw b + ridgeMat options.l2 (scale d) b).PosDef)
    (h : regression env fam.glm d options = .ok f) (ha : Admissible fam raw b f.result)
    {δ : Vec ℝ (ncols b p)}
    (hδ : newtonMat env.eps fam.glm raw b options.l2 (scale d) f.result *ᵥ δ = f.score f.result) :
    δ ⬝ᵥ (newtonMat env.eps fam.glm raw b options.l2 (scale d) f.result *ᵥ δ)
      ≤ κ ^ 2 * ((f.result + δ) ⬝ᵥ
        (newtonMat env.eps fam.glm raw b options.l2 (scale d) f.result *ᵥ (f.result + δ))) := by
  have hwf := Dataset.finalize_wf hd
  have hg := Family.lawfulAdj fam
  have hA := newtonMat_posDef (σ := scale d) (l2 := options.l2) hv hw hs.eps_nonneg hpd ha
  rw [(C10_external hg hd hl1 h).2.1] at hδ
  obtain ⟨s0, s', hi, hdone, hn, hh⟩ := regression_inv h (P := fun s => s.done = false) rfl (by
    intro s s' v l hi _ hn
    obtain ⟨t1, t2, t3⟩ := hi.same.noL1 (getReg_noL1 hl1) s.guess
    have hc := s.nextRaw_case env fam.glm d options.tol
    rw [hn] at hc
    generalize hr : (RawNext.cand s' v l : RawNext ℝ (ncols b p)) = r at hc
    cases hc <;> simp only [RawNext.cand.injEq, reduceCtorEq] at hr
    case admm ht => rw [t1, t3] at ht; simp at ht
    case full v' hs ht he hg =>
      obtain ⟨rfl, -, -⟩ := hr
      rw [htol]
      exact small_zero he
    case scaled v' hs ht he hg m hm h0 =>
      obtain ⟨rfl, -, -⟩ := hr
      rw [htol]
      exact small_zero he)
  have hres := result_eq_guess hl1 h hi hh
  rw [hres] at hδ hA ha ⊢
  set β := d.inverseTransformBeta s0.guess with hβ
  set A := newtonMat env.eps fam.glm raw b options.l2 (scale d) β with hAdef
  have hsym : A.IsSymm := newtonMat_symm _ _ _ _
  have pA : ∀ x, 0 ≤ x ⬝ᵥ (A *ᵥ x) := fun x => by
    have := hA.posSemidef.dotProduct_mulVec_nonneg x
    rwa [show star x = x from by ext; simp] at this
  have hc := s0.nextRaw_case env fam.glm d options.tol
  rw [hn] at hc
  generalize hr : (RawNext.stop s' : RawNext ℝ (ncols b p)) = r at hc
  cases hc <;> try (simp only [reduceCtorEq] at hr)
  case done h1 => rw [hdone] at h1; simp at h1
  case equal h1 c hsol ht heq =>
    have hv : c = s0.guess := by
      simp only [vecEq, List.all_eq_true, List.mem_finRange, forall_const, eq_real] at heq
      exact funext heq
    have := sol_near hs hg hd hl1 hi.same hA hδ hsol
    dsimp only at this
    rw [hv, ← hβ, sub_add_cancel_left, mulVec_neg, dotProduct_neg, neg_dotProduct, neg_neg] at this
    exact this
  case zero h1 c hsol ht heq hgt m hm h0 =>
    rw [eq_real] at h0
    subst h0
    obtain ⟨e1, -⟩ := stepScale_zero hm
    have hnear := sol_near hs hg hd hl1 hi.same hA hδ hsol
    dsimp only at hnear
    rw [← hβ, ← hAdef] at hnear
    by_contra hlt
    push Not at hlt
    set t := β + δ with ht'
    set e := d.inverseTransformBeta c - t with he
    have hce : d.inverseTransformBeta c - β = δ + e := by rw [he, ht']; abel
    have hdir : 0 < penScore fam.glm raw b options.l1 options.l2 (scale d) β ⬝ᵥ (δ + e) := by
      rw [← hδ, dotProduct_comm, add_dotProduct, dot_mulVec_comm hsym e δ]
      have h2 := (abs_le.mp (quad_cauchy hsym pA δ e)).1
      have h3 : √(e ⬝ᵥ (A *ᵥ e)) < √(δ ⬝ᵥ (A *ᵥ δ)) :=
        Real.sqrt_lt_sqrt (pA e) (hnear.trans_lt hlt)
      have h4 := Real.sq_sqrt (pA δ)
      have h5 : 0 < √(δ ⬝ᵥ (A *ᵥ δ)) := (Real.sqrt_nonneg _).trans_lt h3
      nlinarith
    obtain ⟨τ, hτ, hup⟩ := uphill_of_pos hv hl1 (Dataset.scale_pos hd) ha hdir
    obtain ⟨j, hj⟩ := exists_pow_lt_of_lt_one hτ (by norm_num : (0.618033988749894 : ℝ) < 1)
    have h2 := e1 j (by rw [htol, mul_zero, abs_zero]; positivity)
    have h3 := hup ((0.618033988749894 : ℝ) ^ (j + 1)) (by positivity)
      (lt_of_le_of_lt (pow_le_pow_of_le_one (by norm_num) (by norm_num) (Nat.le_succ j)) hj)
    have e3 : Irls.fStep fam.glm d s0.prep.reg s0.guess c 0 = _ := fStep_ext hd hi c 0
    rw [zero_smul, add_zero] at e3
    rw [show Irls.fStep fam.glm d (s0.reg.prepare s0.guess) s0.guess c 0 = _ from e3,
      show Irls.fStep fam.glm d (s0.reg.prepare s0.guess) s0.guess c _ = _ from
        fStep_ext hd hi c _, ← hβ, hce] at h2
    linarith

/-- **C101** (score).  Such a fit stops only where the score is small in every direction `x`: at most
`κ/(1-κ)` times the size of the coefficients times the size of `x`, sizes being measured by the Newton
matrix. -/
theorem C101_score (hs : SolvesWithin env κ) (hκ : κ < 1) (hd : raw.finalize std b = some d)
    (hv : ValidFamily fam) (hw : ∀ i, 0 ≤ totalWt raw i) (hl1 : options.l1 ≤ 0)
    (htol : options.tol = 0) (hpd : (gram raw b + ridgeMat options.l2 (scale d) b).PosDef)
    (h : regression env fam.glm d options = .ok f) (ha : Admissible fam raw b f.result)
    (x : Vec ℝ (ncols b p)) :
    let A := newtonMat env.eps fam.glm raw b options.l2 (scale d) f.result
    |f.score f.result ⬝ᵥ x| ≤ κ / (1 - κ) * √(f.result ⬝ᵥ (A *ᵥ f.result)) * √(x ⬝ᵥ (A *ᵥ x)) := by
  intro A
  have hA := newtonMat_posDef (σ := scale d) (l2 := options.l2) hv hw hs.eps_nonneg hpd ha
  have hsym : A.IsSymm := newtonMat_symm _ _ _ _
  have pA : ∀ x, 0 ≤ x ⬝ᵥ (A *ᵥ x) := fun x => by
    have := hA.posSemidef.dotProduct_mulVec_nonneg x
    rwa [show star x = x from by ext; simp] at this
  set δ := A⁻¹ *ᵥ f.score f.result with hδdef
  have hδ : A *ᵥ δ = f.score f.result := by
    rw [hδdef, mulVec_mulVec, mul_nonsing_inv _ (posDef_det hA), one_mulVec]
  have h1 := Real.sqrt_le_sqrt (C101_newton_step hs hd hv hw hl1 htol hpd h ha hδ)
  change √(δ ⬝ᵥ (A *ᵥ δ)) ≤ √(κ ^ 2 * ((f.result + δ) ⬝ᵥ (A *ᵥ (f.result + δ)))) at h1
  rw [Real.sqrt_mul (sq_nonneg _), Real.sqrt_sq hs.nonneg] at h1
  have h2 := mul_le_mul_of_nonneg_left (sqrt_quad_add hsym pA f.result δ) hs.nonneg
  have h3 : √(δ ⬝ᵥ (A *ᵥ δ)) ≤ κ / (1 - κ) * √(f.result ⬝ᵥ (A *ᵥ f.result)) := by
    rw [div_mul_eq_mul_div, le_div_iff₀ (by linarith)]
    linarith
  have e : f.score f.result ⬝ᵥ x = x ⬝ᵥ (A *ᵥ δ) := by rw [hδ, dotProduct_comm]
  rw [e]
  refine (quad_cauchy hsym pA x δ).trans ?_
  rw [mul_comm]
  exact mul_le_mul_of_nonneg_right h3 (Real.sqrt_nonneg _)

/-- The hypotheses hold for the fit with the solver that is wrong by 50%, with zero tolerance: it stops
at coefficients where the score is not zero. -/
theorem C101_example (std : Bool) : ∃ (d : Dataset ℝ 3 1 true) (f : Fit ℝ 3 1 true),
    SolvesWithin (scaledEnv (1 / 2)) (1 / 2) ∧
    (exRaw ![1, 3, 5]).finalize std true = some d ∧
    regression (scaledEnv (1 / 2)) Family.linear.glm d
      { exOpts 0 0 (some ![0, 0]) 1 with tol := 0 } = .ok f ∧
    (gram (exRaw ![1, 3, 5]) true + ridgeMat 0 (scale d) true).PosDef ∧
    Admissible .linear (exRaw ![1, 3, 5]) true f.result ∧ f.score f.result ≠ 0 := by
  obtain ⟨d, -, h, -⟩ := C100_example std
  set o : FitOptions ℝ (ncols true 1) := { exOpts 0 0 (some ![0, 0]) 1 with tol := 0 } with ho
  have h' : InexactSetting (scaledEnv (1 / 2)) (1 / 2) (exRaw ![1, 3, 5]) std d o ![1, 2] :=
    ⟨h.solver, h.built, h.noL1, h.weights, h.ident, h.solution⟩
  have hwf := Dataset.finalize_wf h.built
  have e : ∀ β, ridgeLoss (exRaw ![1, 3, 5]) true 0 (scale d) β = sse (exRaw ![1, 3, 5]) true β := by
    intro β; simp [ridgeLoss]
  have hs : ∀ β : Vec ℝ (ncols true 1), sse (exRaw ![1, 3, 5]) true β
      = (1 - (β 0 + 0 * β 1)) ^ 2 + 2 * (3 - (β 0 + 1 * β 1)) ^ 2 + (5 - (β 0 + 2 * β 1)) ^ 2 := by
    intro β
    simp only [sse, exRaw_linPred, Fin.sum_univ_three]
    norm_num [exRaw, totalWt, freq, varWt, show (![1, 3, 5] : Fin 3 → ℝ) 2 = 5 from rfl,
      show (![0, 1, 2] : Fin 3 → ℝ) 2 = 2 from rfl, show (![1, 2, 1] : Fin 3 → ℝ) 2 = 1 from rfl]
  obtain ⟨f, h1, h2, -⟩ := C100_sharp h' le_rfl (by
    change ridgeLoss _ _ 0 _ _ < ridgeLoss _ _ 0 _
      (d.inverseTransformBeta (d.transformBeta ![0, 0]))
    rw [hwf.inverseTransformBeta_transformBeta, e, e, hs, hs]
    norm_num)
  refine ⟨d, f, h'.solver, h'.built, h1, exRaw_posDef _ _ _, fun _ => trivial, fun h0 => ?_⟩
  rw [(C10_external (Family.lawfulAdj .linear) h'.built h'.noL1 h1).2.1] at h0
  have h3 := (isRidge_iff h'.noL1 h'.weights _).mpr h0 ![1, 2]
  change ridgeLoss _ _ 0 _ _ ≤ ridgeLoss _ _ 0 _ _ at h3
  rw [h2, e, e, hs, hs] at h3
  norm_num at h3

end GLM
