/-
  C70: the direction of each step, and what a fit with zero tolerance certifies.
-/
import Verif.Props.Optimum
import Verif.Props.Gradient
import Verif.Lemmas.OneStep

namespace GLM
open Spec Matrix
variable {n p : ℕ} {b : Bool} {env : Env ℝ} {raw : Dataset ℝ n p false} {std : Bool}
  {d : Dataset ℝ n p b} {options : FitOptions ℝ (ncols b p)} {fam : Family} {f : Fit ℝ n p b}

/-- At admissible coefficients the IRLS matrix is positive definite as soon as `XᵀWX` plus the L2
curvature is. -/
theorem newtonMat_posDef (hv : ValidFamily fam) (hw : ∀ i, 0 ≤ totalWt raw i) {eps l2 : ℝ}
    (heps : 0 ≤ eps) {σ : Fin p → ℝ} (hpd : (gram raw b + ridgeMat l2 σ b).PosDef)
    {β : Vec ℝ (ncols b p)} (hβ : Admissible fam raw b β) :
    (newtonMat eps fam.glm raw b l2 σ β).PosDef := by
  refine PosDef.of_dotProduct_mulVec_pos (isHermitian_of_symm (newtonMat_symm _ _ _ _)) ?_
  intro x hx
  have hpos := hpd.dotProduct_mulVec_pos hx
  have hstar : star x = x := by ext; simp
  rw [hstar] at hpos ⊢
  rw [add_mulVec, dotProduct_add, quad_gram, quad_ridge] at hpos
  rw [quad_newton]
  have hc : ∀ i, 0 < (fam.glm (F := ℝ)).link.dNatParam (linPred raw b β i) ^ 2
      * (fam.glm (F := ℝ)).variance (meanAt fam.glm raw b β i) + eps := fun i => by
    refine add_pos_of_pos_of_nonneg (mul_pos (pow_pos (dNatParam_pos fam _) 2) ?_) heps
    rw [variance_real]
    exact varianceFn_pos fam hv (funcInv_mem fam hv (hβ i))
  have h1 : ∀ i, 0 ≤ totalWt raw i * ((fam.glm (F := ℝ)).link.dNatParam (linPred raw b β i) ^ 2
      * (fam.glm (F := ℝ)).variance (meanAt fam.glm raw b β i) + eps)
      * (∑ j, design b raw.x i j * x j) ^ 2 := fun i =>
    mul_nonneg (mul_nonneg (hw i) (hc i).le) (sq_nonneg _)
  have hA := Finset.sum_nonneg fun i (_ : i ∈ Finset.univ) => h1 i
  have hB : 0 ≤ ∑ j, max l2 0 * σ j ^ 2 * slopes b x j ^ 2 := Finset.sum_nonneg fun j _ =>
    mul_nonneg (mul_nonneg (le_max_right _ _) (sq_nonneg _)) (sq_nonneg _)
  refine lt_of_le_of_ne (add_nonneg hA hB) fun h0 => hpos.ne' ?_
  have hA0 : ∑ i, totalWt raw i * ((fam.glm (F := ℝ)).link.dNatParam (linPred raw b β i) ^ 2
      * (fam.glm (F := ℝ)).variance (meanAt fam.glm raw b β i) + eps)
      * (∑ j, design b raw.x i j * x j) ^ 2 = 0 := by linarith
  have hB0 : ∑ j, max l2 0 * σ j ^ 2 * slopes b x j ^ 2 = 0 := by linarith
  rw [hB0, add_zero]
  rw [Finset.sum_eq_zero_iff_of_nonneg fun i _ => h1 i] at hA0
  refine Finset.sum_eq_zero fun i hi => ?_
  have := hA0 i hi
  rw [mul_assoc, mul_left_comm] at this
  exact (mul_eq_zero.mp this).resolve_left (hc i).ne'

/-- **C70** (direction).  At admissible coefficients with non-zero penalized score, the Newton step
points uphill: its product with the score is positive, and every sufficiently small multiple of it
strictly increases the penalized log-likelihood.  For every family and link, without L1. -/
theorem C70_ascent (hv : ValidFamily fam) (hw : ∀ i, 0 ≤ totalWt raw i) {eps l1 l2 : ℝ}
    (heps : 0 ≤ eps) (hl1 : l1 ≤ 0) {σ : Fin p → ℝ} (hσ : ∀ j, 0 < σ j)
    (hpd : (gram raw b + ridgeMat l2 σ b).PosDef) {β δ : Vec ℝ (ncols b p)}
    (hβ : Admissible fam raw b β) (hδ : IsNewtonStep eps fam.glm raw b l1 l2 σ β δ)
    (hs : penScore fam.glm raw b l1 l2 σ β ≠ 0) :
    0 < penScore fam.glm raw b l1 l2 σ β ⬝ᵥ δ ∧
    ∃ τ > 0, ∀ m : ℝ, 0 < m → m < τ →
      penLogLik fam.glm raw b l1 l2 σ β < penLogLik fam.glm raw b l1 l2 σ (β + m • δ) := by
  have hδ0 : δ ≠ 0 := by
    rintro rfl
    rw [IsNewtonStep, mulVec_zero] at hδ
    exact hs hδ.symm
  have hdir : 0 < penScore fam.glm raw b l1 l2 σ β ⬝ᵥ δ := by
    rw [← (hδ : _ = _), dotProduct_comm]
    have := (newtonMat_posDef (σ := σ) hv hw heps hpd hβ).dotProduct_mulVec_pos hδ0
    rwa [show star δ = δ from by ext; simp] at this
  refine ⟨hdir, ?_⟩
  have hg : IsGradientAt (penLogLik fam.glm raw b l1 l2 σ) (penScore fam.glm raw b l1 l2 σ β) β :=
    isGradientAt_sub (logLik_isGradientAt hv hβ) (penalty_isGradientAt hσ (Or.inl hl1))
  have hline : HasDerivAt (fun m : ℝ => β + m • δ) δ 0 := by
    simpa using ((hasDerivAt_id (0 : ℝ)).smul_const δ).const_add β
  have hg' : HasFDerivAt (penLogLik fam.glm raw b l1 l2 σ)
      (∑ j, penScore fam.glm raw b l1 l2 σ β j • ContinuousLinearMap.proj (R := ℝ)
        (φ := fun _ : Fin (ncols b p) => ℝ) j) (β + (0 : ℝ) • δ) := by
    rw [zero_smul, add_zero]; exact hg
  have hd := hg'.comp_hasDerivAt (0 : ℝ) hline
  have e : (∑ j, penScore fam.glm raw b l1 l2 σ β j • ContinuousLinearMap.proj (R := ℝ)
      (φ := fun _ : Fin (ncols b p) => ℝ) j) δ = penScore fam.glm raw b l1 l2 σ β ⬝ᵥ δ := by
    simp [dotProduct]
  rw [e] at hd
  have hlt := (hasDerivAt_iff_tendsto_slope.mp hd).eventually_const_lt hdir
  rw [eventually_nhdsWithin_iff, Metric.eventually_nhds_iff] at hlt
  obtain ⟨τ, hτ, h⟩ := hlt
  refine ⟨τ, hτ, fun m hm hmτ => ?_⟩
  have := h (y := m) (by rwa [Real.dist_eq, sub_zero, abs_of_pos hm]) hm.ne'
  rw [slope_def_field, sub_zero, div_pos_iff_of_pos_right hm] at this
  simpa using this

/-- Zero tolerance: a certified result with admissible means is stationary. -/
theorem Certified.stationary_of_zero (hv : ValidFamily fam) (hw : ∀ i, 0 ≤ totalWt raw i)
    {eps l1 l2 : ℝ} (heps : 0 ≤ eps) (hl1 : l1 ≤ 0) {σ : Fin p → ℝ} (hσ : ∀ j, 0 < σ j)
    (hpd : (gram raw b + ridgeMat l2 σ b).PosDef)
    {T : Vec ℝ (ncols b p) → Vec ℝ (ncols b p)} (hT : Function.Injective T)
    {β : Vec ℝ (ncols b p)} (hβ : Admissible fam raw b β)
    (h : Certified eps fam.glm raw b l1 l2 σ T 0 β) :
    penScore fam.glm raw b l1 l2 σ β = 0 := by
  by_contra hs
  cases h with
  | stationary h => exact hs h
  | noImprovement δ hδ full scaled back =>
    obtain ⟨-, τ, hτ, h⟩ := C70_ascent hv hw heps hl1 hσ hpd hβ hδ hs
    obtain ⟨j, hj⟩ := exists_pow_lt_of_lt_one hτ (by norm_num : (0.618033988749894 : ℝ) < 1)
    have h1 := scaled j (by rw [abs_zero, mul_zero]; positivity)
    have h2 := h ((0.618033988749894 : ℝ) ^ (j + 1)) (by positivity)
      (lt_of_le_of_lt (pow_le_pow_of_le_one (by norm_num) (by norm_num) (Nat.le_succ j)) hj)
    linarith
  | small β' δ hδ m hm hβ' obj coef =>
    have h0 : ∀ i, T (β' + δ) i - T β' i = 0 := by
      have h1 : ∑ i, (T (β' + δ) i - T β' i) ^ 2 = 0 :=
        le_antisymm (by simpa using coef) (Finset.sum_nonneg fun i _ => sq_nonneg _)
      rw [Finset.sum_eq_zero_iff_of_nonneg fun i _ => sq_nonneg _] at h1
      exact fun i => by simpa using h1 i (Finset.mem_univ i)
    have h1 : β' + δ = β' := hT (funext fun i => sub_eq_zero.mp (h0 i))
    have h2 : δ = 0 := by simpa using h1
    subst h2
    rw [smul_zero, add_zero] at hβ'
    subst hβ'
    rw [IsNewtonStep, mulVec_zero] at hδ
    exact hs hδ.symm

/-- **C70** (zero tolerance).  In exact arithmetic, a fit without L1 whose tolerance is zero and which
returns coefficients with admissible means has penalized score exactly zero there.  For every family
and link. -/
theorem C70_zero_tolerance (he : env.Exact) (hd : raw.finalize std b = some d)
    (hv : ValidFamily fam) (hw : ∀ i, 0 ≤ totalWt raw i) (hl1 : options.l1 ≤ 0)
    (htol : options.tol = 0) (hpd : (gram raw b + ridgeMat options.l2 (scale d) b).PosDef)
    (h : regression env fam.glm d options = .ok f) (ha : Admissible fam raw b f.result) :
    f.score f.result = 0 := by
  have hwf := Dataset.finalize_wf hd
  have hc := C56_certified he (Family.lawfulAdj fam) hd hl1 h
  rw [htol] at hc
  rw [(C10_external (Family.lawfulAdj fam) hd hl1 h).2.1]
  exact hc.stationary_of_zero hv hw he.eps_nonneg hl1 (Dataset.scale_pos hd) hpd
    (Function.LeftInverse.injective hwf.inverseTransformBeta_transformBeta) ha

/-- **C70** (zero tolerance, concave families).  Such a fit returns the unique maximizer of the
penalized log-likelihood. -/
theorem C70_zero_tolerance_optimum (he : env.Exact) (hd : raw.finalize std b = some d)
    (hc : Spec.Concave fam raw) (hl1 : options.l1 ≤ 0) (htol : options.tol = 0)
    (hpd : (gram raw b + ridgeMat options.l2 (scale d) b).PosDef)
    (h : regression env fam.glm d options = .ok f) (ha : Admissible fam raw b f.result)
    {β : Vec ℝ (ncols b p)} (hβ : Admissible fam raw b β) (hne : β ≠ f.result) :
    penLogLik fam.glm raw b options.l1 options.l2 (scale d) β
      < penLogLik fam.glm raw b options.l1 options.l2 (scale d) f.result := by
  have hs := C70_zero_tolerance he hd hc.valid hc.weights hl1 htol hpd h ha
  rw [(C10_external (Family.lawfulAdj fam) hd hl1 h).2.1] at hs
  exact C29_unique_optimum hc (Dataset.scale_pos hd) hpd ha hs hβ hne

/-- **C70** (one answer).  Two unregularized fits of the same data whose score vanishes at the result
return the same coefficients, whatever their starting points, budgets, tolerances and whether the
features were standardized. -/
theorem C70_same_result {env' : Env ℝ} {std' : Bool} {d' : Dataset ℝ n p b}
    {options' : FitOptions ℝ (ncols b p)} {f' : Fit ℝ n p b} (hc : Spec.Concave fam raw)
    (hu : IsUnit (gram raw b).det)
    (hd : raw.finalize std b = some d) (hd' : raw.finalize std' b = some d')
    (hl1 : options.l1 ≤ 0) (hl2 : options.l2 ≤ 0) (hl1' : options'.l1 ≤ 0) (hl2' : options'.l2 ≤ 0)
    (h : regression env fam.glm d options = .ok f) (h' : regression env' fam.glm d' options' = .ok f')
    (ha : Admissible fam raw b f.result) (ha' : Admissible fam raw b f'.result)
    (hs : f.score f.result = 0) (hs' : f'.score f'.result = 0) : f.result = f'.result := by
  rw [(C10_external (Family.lawfulAdj fam) hd hl1 h).2.1] at hs
  rw [(C10_external (Family.lawfulAdj fam) hd' hl1' h').2.1] at hs'
  have hpen : ∀ (l1 l2 : ℝ) (σ : Fin p → ℝ) β, l1 ≤ 0 → l2 ≤ 0 →
      penScore fam.glm raw b l1 l2 σ β = penScore fam.glm raw b 0 0 (fun _ => 1) β := by
    intro l1 l2 σ β h1 h2
    unfold penScore
    simp only [max_eq_right h1, max_eq_right h2, max_self, zero_mul, add_zero]
  rw [hpen _ _ _ _ hl1 hl2] at hs
  rw [hpen _ _ _ _ hl1' hl2'] at hs'
  have hpd : (gram raw b + ridgeMat 0 (fun _ => 1) b).PosDef := by
    refine PosDef.of_dotProduct_mulVec_pos
      (isHermitian_of_symm (gram_symm.add (isSymm_diagonal _))) fun x hx => ?_
    rw [show star x = x from by ext; simp, add_mulVec, dotProduct_add]
    have h1 := gram_pos hc.weights hu hx
    have h2 := ridge_nonneg (b := b) 0 (fun _ : Fin p => 1) x
    linarith
  by_contra hne
  have e1 := C29_unique_optimum hc (fun _ => one_pos) hpd ha hs ha' (Ne.symm hne)
  have e2 := C29_unique_optimum hc (fun _ => one_pos) hpd ha' hs' ha hne
  exact lt_asymm e1 e2

/-- **C70** (no step backwards).  If every linear predictor is admissible and the family is concave,
each point of the history is reached from the previous one by the full Newton step or by a positive
power of the golden-section constant times it: the backwards step of the line search is never
accepted. -/
theorem C70_forward (he : env.Exact) (hd : raw.finalize std b = some d) (hc : Spec.Concave fam raw)
    (hdom : predDom fam = Set.univ) (hl1 : options.l1 ≤ 0)
    (h : regression env fam.glm d options = .ok f) :
    (d.inverseTransformBeta (initialGuess env fam.glm d options) ::
        f.history.map IrlsStep.guess).IsChain fun β β' =>
      ∃ m : ℝ, (m = 1 ∨ ∃ j : ℕ, m = (0.618033988749894 : ℝ) ^ (j + 1)) ∧
        newtonMat env.eps fam.glm raw b options.l2 (scale d) β *ᵥ (β' - β)
          = m • penScore fam.glm raw b options.l1 options.l2 (scale d) β := by
  have hadm : ∀ β, Admissible fam raw b β := fun β i => hdom ▸ Set.mem_univ _
  obtain ⟨hist, hh, hch⟩ := regression_chain h
    (R := fun γ v => ∃ m : ℝ, (m = 1 ∨ ∃ j : ℕ, m = (0.618033988749894 : ℝ) ^ (j + 1)) ∧
      newtonMat env.eps fam.glm raw b options.l2 (scale d)
        (d.inverseTransformBeta γ) *ᵥ (d.inverseTransformBeta v - d.inverseTransformBeta γ)
      = m • penScore fam.glm raw b options.l1 options.l2 (scale d) (d.inverseTransformBeta γ))
    (fun s s' v l hi hn => by
      obtain ⟨m, hm, hM⟩ := cand_newton he (Family.lawfulAdj fam) hd hl1 hi hn
      have himp := nextRaw_improves hl1 hi hn
      rw [objective_ext hd, objective_ext hd] at himp
      refine ⟨m, ?_, hM⟩
      rcases hm with h1 | h1 | h1
      · exact Or.inl h1
      · exact Or.inr h1
      · exfalso
        have hgap := penLogLik_gap (raw := raw) (fam := fam) options.l1 options.l2
          (Dataset.scale_pos hd) (d.inverseTransformBeta s.guess) (d.inverseTransformBeta v)
        have h2 := Finset.sum_nonneg fun i (_ : i ∈ Finset.univ) =>
          gapAt_nonneg hc (hadm (d.inverseTransformBeta s.guess))
            (hadm (d.inverseTransformBeta v)) i
        have h3 := ridge_nonneg (b := b) options.l2 (scale d)
          (d.inverseTransformBeta v - d.inverseTransformBeta s.guess)
        have h4 : 0 ≤ (d.inverseTransformBeta v - d.inverseTransformBeta s.guess) ⬝ᵥ
            (newtonMat env.eps fam.glm raw b options.l2 (scale d) (d.inverseTransformBeta s.guess)
              *ᵥ (d.inverseTransformBeta v - d.inverseTransformBeta s.guess)) := by
          rw [quad_newton]
          refine add_nonneg (Finset.sum_nonneg fun i _ => mul_nonneg (mul_nonneg (hc.weights i)
            (add_nonneg (mul_nonneg (sq_nonneg _) (fam.variance_nonneg hc.valid _))
              he.eps_nonneg)) (sq_nonneg _)) (Finset.sum_nonneg fun j _ =>
            mul_nonneg (mul_nonneg (le_max_right _ _) (sq_nonneg _)) (sq_nonneg _))
        rw [hM, dotProduct_smul, smul_eq_mul, dotProduct_comm, h1] at h4
        linarith)
  have e : d.inverseTransformBeta (initialGuess env fam.glm d options)
        :: f.history.map IrlsStep.guess
      = (initialGuess env fam.glm d options :: hist.map IrlsStep.guess).map
          d.inverseTransformBeta := by
    rw [hh]; simp [Function.comp_def]
  rw [e, List.isChain_map]
  exact hch

/-! ### Concrete cases -/

theorem exLinear_concave (y : Vec ℝ 3) : Spec.Concave .linear (exRaw y) :=
  ⟨trivial, trivial, Or.inl trivial, fun i => (exRaw_totalWt_pos _ i).le⟩

theorem exRaw_posDef (y : Vec ℝ 3) (l2 : ℝ) (σ : Fin 1 → ℝ) :
    (gram (exRaw y) true + ridgeMat l2 σ true).PosDef := by
  refine PosDef.of_dotProduct_mulVec_pos
    (isHermitian_of_symm (gram_symm.add (isSymm_diagonal _))) fun x hx => ?_
  rw [show star x = x from by ext; simp, add_mulVec, dotProduct_add]
  have h1 := gram_pos (raw := exRaw y) (b := true)
    (fun i => (exRaw_totalWt_pos _ i).le) (exRaw_gram_det _) hx
  have h2 := ridge_nonneg (b := true) l2 σ x
  linarith

/-- From any start, standardized or not, a Linear fit with zero tolerance returns, and its score is
exactly zero. -/
theorem exZeroTolerance (std : Bool) (init : Option (Vec ℝ (ncols true 1))) :
    ∃ d f, (exRaw ![1, 3, 5]).finalize std true = some d ∧
      regression (exactEnv 0 0) Family.linear.glm d { exOpts 0 0 init 1 with tol := 0 } = .ok f ∧
      f.score f.result = 0 := by
  obtain ⟨d, h⟩ := exLinSetting std 0 le_rfl 0 1 init
  obtain ⟨f, h1, -, -⟩ := C57_exact_least_squares
    (options := { exOpts 0 0 init 1 with tol := 0 })
    ⟨h.exact, h.built, h.noL1, h.noL2, h.weights, h.rank, h.solution⟩ rfl le_rfl
  exact ⟨d, f, h.built, h1, C70_zero_tolerance (fam := .linear)
    (options := { exOpts 0 0 init 1 with tol := 0 }) h.exact h.built trivial h.weights le_rfl rfl
    (exRaw_posDef _ _ _) h1 fun _ => trivial⟩

/-- Fits from different starts, one standardized and one not, agree. -/
example : ∃ d d' f f', (exRaw ![1, 3, 5]).finalize true true = some d ∧
    (exRaw ![1, 3, 5]).finalize false true = some d' ∧
    regression (exactEnv 0 0) Family.linear.glm d { exOpts 0 0 none 1 with tol := 0 } = .ok f ∧
    regression (exactEnv 0 0) Family.linear.glm d'
      { exOpts 0 0 (some ![7, -3]) 1 with tol := 0 } = .ok f' ∧ f.result = f'.result := by
  obtain ⟨d, f, h1, h2, h3⟩ := exZeroTolerance true none
  obtain ⟨d', f', h1', h2', h3'⟩ := exZeroTolerance false (some ![7, -3])
  exact ⟨d, d', f, f', h1, h1', h2, h2', C70_same_result (exLinear_concave _) (exRaw_gram_det _) h1
    h1' le_rfl le_rfl le_rfl le_rfl h2 h2' (fun _ => trivial) (fun _ => trivial) h3 h3'⟩

/-- Poisson counts of one, away from the optimum: the Newton step from intercept one goes uphill. -/
example (δ : Vec ℝ (ncols true 1))
    (hδ : IsNewtonStep 0 Family.poisson.glm (exRaw ![1, 1, 1]) true 0 0 (fun _ => 1) ![1, 0] δ) :
    0 < penScore Family.poisson.glm (exRaw ![1, 1, 1]) true 0 0 (fun _ => 1) ![1, 0] ⬝ᵥ δ := by
  refine (C70_ascent (fam := .poisson) trivial (fun i => (exRaw_totalWt_pos _ i).le) le_rfl le_rfl
    (fun _ => one_pos) (exRaw_posDef _ _ _) (fun _ => trivial) hδ fun h0 => ?_).1
  have h1 := C29_unique_optimum (fam := .poisson) (raw := exRaw ![1, 1, 1]) (b := true)
    ⟨trivial, trivial, Or.inl trivial, fun i => (exRaw_totalWt_pos _ i).le⟩ (fun _ => one_pos)
    (exRaw_posDef _ 0 _) (fun _ => trivial) h0 (β' := 0) (fun _ => trivial)
    (fun h => by simpa using congrFun h (0 : Fin 2))
  have h2 := C29_global_optimum (fam := .poisson) (raw := exRaw ![1, 1, 1]) (b := true)
    ⟨trivial, trivial, Or.inl trivial, fun i => (exRaw_totalWt_pos _ i).le⟩ (fun _ => one_pos)
    (fun _ => trivial) (exPoisson_stationary _ 0) ![1, 0] (fun _ => trivial)
  exact absurd h1 (not_lt.mpr h2)

/-- Poisson fits with one or more budgeted steps that succeed, for C70_forward. -/
example (std : Bool) (init : Option (Vec ℝ (ncols true 1))) : ∃ d tol f,
    (exRaw ![1, 0, 4]).finalize std true = some d ∧
    regression (exactEnv (1 / 1000) 7) Family.poisson.glm d
      { exOpts 0 0 init 9 with tol := tol } = .ok f ∧
    (d.inverseTransformBeta (initialGuess (exactEnv (1 / 1000) 7) Family.poisson.glm d
      { exOpts 0 0 init 9 with tol := tol }) :: f.history.map IrlsStep.guess).IsChain fun β β' =>
      ∃ m : ℝ, (m = 1 ∨ ∃ j : ℕ, m = (0.618033988749894 : ℝ) ^ (j + 1)) ∧
        newtonMat (1 / 1000) Family.poisson.glm (exRaw ![1, 0, 4]) true 0 (scale d) β *ᵥ (β' - β)
          = m • penScore Family.poisson.glm (exRaw ![1, 0, 4]) true 0 0 (scale d) β := by
  obtain ⟨d, hd⟩ := exRaw_finalize ![1, 0, 4] std true
  have he : (exactEnv (1 / 1000) 7).Exact := exactEnv_exact (by norm_num) 7
  obtain ⟨tol, -, f, hf⟩ := exists_tolerance_ok (env := exactEnv (1 / 1000) 7)
    (g := Family.poisson.glm) (d := d) (options := exOpts 0 0 init 9) le_rfl (by norm_num)
    (by norm_num [ncols]) (by norm_num [exactEnv]) (by norm_num [exOpts]) fun tol =>
    C30_families .poisson trivial he hd le_rfl (by norm_num [exactEnv])
      (fun i => (exRaw_totalWt_pos _ i).le) (Or.inr (exRaw_gram_det _))
  exact ⟨d, tol, f, hd, hf, C70_forward (fam := .poisson)
    (options := { exOpts 0 0 init 9 with tol := tol }) he hd
    ⟨trivial, trivial, Or.inl trivial, fun i => (exRaw_totalWt_pos _ i).le⟩ rfl le_rfl hf⟩

end GLM
