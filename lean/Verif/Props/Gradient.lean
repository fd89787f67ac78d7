/-
  C49, C50: the score is the gradient of the penalized log-likelihood, and the Fisher information is
  the negative derivative of the score.
-/
import Verif.Props.Hat
import Verif.Props.Penalty

namespace GLM
open Spec Matrix
variable {n p : ℕ} {b : Bool} {env : Env ℝ} {raw : Dataset ℝ n p false} {std : Bool}
  {d : Dataset ℝ n p b} {options : FitOptions ℝ (ncols b p)} {fam : Family} {f : Fit ℝ n p b}

theorem isGradientAt_congr {k : ℕ} {φ : (Fin k → ℝ) → ℝ} {u v β : Fin k → ℝ}
    (h : IsGradientAt φ u β) (e : ∀ j, u j = v j) : IsGradientAt φ v β := (funext e : u = v) ▸ h

theorem isGradientAt_sub {k : ℕ} {φ ψ : (Fin k → ℝ) → ℝ} {u v β : Fin k → ℝ}
    (h : IsGradientAt φ u β) (h' : IsGradientAt ψ v β) :
    IsGradientAt (fun β => φ β - ψ β) (u - v) β := by
  unfold IsGradientAt at *
  refine (HasFDerivAt.fun_sub h h').congr_fderiv ?_
  refine ContinuousLinearMap.ext fun x => ?_
  simp [sub_mul, Finset.sum_sub_distrib]

/-- The linear predictor is affine in the coefficients. -/
theorem linPred_isGradientAt (raw : Dataset ℝ n p false) (b : Bool) (β : Vec ℝ (ncols b p))
    (i : Fin n) : IsGradientAt (fun β => linPred raw b β i) (fun j => design b raw.x i j) β := by
  unfold IsGradientAt linPred
  refine HasFDerivAt.add_const _ (HasFDerivAt.fun_sum fun j _ => ?_)
  exact (hasFDerivAt_apply j β).const_mul _

/-- Chain rule for sums of functions of the linear predictors. -/
theorem isGradientAt_linPred_sum {β : Vec ℝ (ncols b p)} {φ : Fin n → ℝ → ℝ} {φ' : Fin n → ℝ}
    (h : ∀ i, HasDerivAt (φ i) (φ' i) (linPred raw b β i)) :
    IsGradientAt (fun β => ∑ i, φ i (linPred raw b β i))
      (fun j => ∑ i, φ' i * design b raw.x i j) β := by
  unfold IsGradientAt
  have h1 : HasFDerivAt (fun β => ∑ i, φ i (linPred raw b β i))
      (∑ i, φ' i • ∑ j, design b raw.x i j •
        ContinuousLinearMap.proj (R := ℝ) (φ := fun _ : Fin (ncols b p) => ℝ) j) β :=
    HasFDerivAt.fun_sum fun i _ =>
      (h i).comp_hasFDerivAt β (linPred_isGradientAt raw b β i)
  refine h1.congr_fderiv ?_
  simp only [Finset.smul_sum, Finset.sum_smul, smul_smul]
  exact Finset.sum_comm

theorem logLik_isGradientAt (hv : ValidFamily fam) {β : Vec ℝ (ncols b p)}
    (ha : Admissible fam raw b β) :
    IsGradientAt (logLik fam.glm raw b) (scoreVec fam.glm raw b β) β := by
  have := isGradientAt_linPred_sum (raw := raw) (b := b) (β := β)
    (φ := fun i w => totalWt raw i
      * (fam.glm (F := ℝ)).logLikeNatural (raw.y i) ((fam.glm (F := ℝ)).link.natParam w))
    fun i => (logLikeAt_hasDerivAt fam hv (raw.y i) (ha i)).const_mul (totalWt raw i)
  refine isGradientAt_congr this fun j => ?_
  simp only [scoreVec, meanAt, mul_assoc]

theorem penalty_eq_sum (l1 l2 : ℝ) (σ : Fin p → ℝ) (b : Bool) (β : Vec ℝ (ncols b p)) :
    penalty l1 l2 σ b β = ∑ j, (max l1 0 * |onSlopes b σ j * β j|
      + max l2 0 / 2 * (onSlopes b σ j * β j) ^ 2) := by
  rw [Finset.sum_add_distrib, ← Finset.mul_sum, ← Finset.mul_sum, penalty]
  cases b
  · rfl
  · change _ = max l1 0 * ∑ j : Fin (p + 1), |onSlopes true σ j * β j|
      + max l2 0 / 2 * ∑ j : Fin (p + 1), (onSlopes true σ j * β j) ^ 2
    rw [Fin.sum_univ_succ, Fin.sum_univ_succ]
    simp [onSlopes, slopes]

theorem penalty_isGradientAt {l1 l2 : ℝ} {σ : Fin p → ℝ} {β : Vec ℝ (ncols b p)}
    (hσ : ∀ j, 0 < σ j) (h1 : l1 ≤ 0 ∨ ∀ j, slopes b β j ≠ 0) :
    IsGradientAt (penalty l1 l2 σ b) (onSlopes b fun j =>
      max l1 0 * (σ j * SignType.sign (slopes b β j)) + max l2 0 * (σ j ^ 2 * slopes b β j)) β := by
  have hone : ∀ s x : ℝ, 0 < s → (l1 ≤ 0 ∨ x ≠ 0) →
      HasDerivAt (fun x => max l1 0 * |s * x| + max l2 0 / 2 * (s * x) ^ 2)
        (max l1 0 * (s * SignType.sign x) + max l2 0 * (s ^ 2 * x)) x := by
    intro s x hs hx
    have e1 : HasDerivAt (fun x => max l1 0 * |s * x|) (max l1 0 * (s * SignType.sign x)) x := by
      have := hasDerivAt_mul_abs (l := max l1 0 * s) (x := x)
        (hx.imp (fun h => by rw [max_eq_right h, zero_mul]) id)
      convert this using 1
      · funext x; rw [abs_mul, abs_of_pos hs]; ring
      · ring
    have e2 : HasDerivAt (fun x => max l2 0 / 2 * (s * x) ^ 2) (max l2 0 * (s ^ 2 * x)) x := by
      have := hasDerivAt_mul_sq (max l2 0 / 2 * s ^ 2) x
      convert this using 1
      · funext x; ring
      · ring
    exact e1.fun_add e2
  have hsum : penalty l1 l2 σ b = fun β => ∑ j, (max l1 0 * |onSlopes b σ j * β j|
      + max l2 0 / 2 * (onSlopes b σ j * β j) ^ 2) := funext fun β => penalty_eq_sum l1 l2 σ b β
  rw [hsum]
  refine isGradientAt_sum (f := fun j x => max l1 0 * |onSlopes b σ j * x|
      + max l2 0 / 2 * (onSlopes b σ j * x) ^ 2) fun j => ?_
  cases b
  · exact hone (σ j) (β j) (hσ j) (h1.imp_right fun h => h j)
  · refine Fin.cases ?_ (fun j => ?_) (j : Fin (p + 1))
    · simpa [onSlopes] using hasDerivAt_const _ _
    · exact hone (σ j) (β j.succ) (hσ j) (h1.imp_right fun h => h j)

/-! ### C50 -/

/-- **C50**: the score reported by a fit is the gradient, in the user's coefficients, of the
penalized log-likelihood the fit maximizes, at every coefficient vector in the domain where that is
differentiable (always without L1, at non-zero slopes with it).  For every family and link, with and
without standardization. -/
theorem C50_score_gradient (hd : raw.finalize std b = some d)
    (h : regression env fam.glm d options = .ok f) (hv : ValidFamily fam) {β : Vec ℝ (ncols b p)}
    (ha : Admissible fam raw b β) (h1 : options.l1 ≤ 0 ∨ ∀ j, slopes b β j ≠ 0) :
    IsGradientAt (penLogLik fam.glm raw b options.l1 options.l2 (scale d)) (f.score β) β := by
  obtain ⟨hg, rfl, rfl, hf⟩ := regression_ofRaw hd h
  rw [Fit.score_ext hd (by rw [hg]; exact Family.lawfulAdj fam) hf.same, hg]
  exact isGradientAt_sub (logLik_isGradientAt hv ha)
    (penalty_isGradientAt (Dataset.scale_pos hd) h1)

/-- The same for the reported test statistic: `lr_test_against` is twice a function whose gradient is
minus the score, so a zero of the score is where it is stationary. -/
theorem C50_lr_gradient (hd : raw.finalize std b = some d)
    (h : regression env fam.glm d options = .ok f) (hv : ValidFamily fam) (hl1 : options.l1 ≤ 0)
    {β : Vec ℝ (ncols b p)} (ha : Admissible fam raw b β) :
    IsGradientAt f.lrTestAgainst (fun j => -(2 * f.score β j)) β := by
  have hs := C50_score_gradient hd h hv ha (Or.inl hl1)
  obtain ⟨-, -, -, h4, -⟩ := C10_external (Family.lawfulAdj fam) hd hl1 h
  have e : f.lrTestAgainst = fun β =>
      2 * (penLogLik fam.glm raw b options.l1 options.l2 (scale d) f.result
        - penLogLik fam.glm raw b options.l1 options.l2 (scale d) β) := funext h4
  rw [e]
  unfold IsGradientAt at *
  have := (hs.const_sub (penLogLik fam.glm raw b options.l1 options.l2 (scale d) f.result)).const_mul
    (2 : ℝ)
  refine this.congr_fderiv ?_
  refine ContinuousLinearMap.ext fun x => ?_
  simp [Finset.mul_sum, mul_assoc]

/-! ### C49 -/

/-- The derivative of the score, for any link, at coefficients whose contribution through the
second derivative of the natural parameter vanishes. -/
theorem score_isGradientAt (hv : ValidFamily fam) {β : Vec ℝ (ncols b p)}
    (ha : Admissible fam raw b β)
    (hη : IsCanonical fam ∨ ∀ i, raw.y i = meanAt fam.glm raw b β i) (j : Fin (ncols b p)) :
    IsGradientAt (fun β => scoreVec fam.glm raw b β j)
      (fun k => -(fisherMat fam.glm raw b β j k)) β := by
  have key : ∀ i, HasDerivAt (fun w => (fam.glm (F := ℝ)).link.dNatParam w
      * (raw.y i - (fam.glm (F := ℝ)).link.funcInv w))
      (-((fam.glm (F := ℝ)).link.dNatParam (linPred raw b β i) ^ 2
        * (fam.glm (F := ℝ)).variance (meanAt fam.glm raw b β i))) (linPred raw b β i) := by
    intro i
    have h1 := (funcInv_hasDerivAt fam hv (ha i)).const_sub (raw.y i)
    have h2 : ∃ c, HasDerivAt (fam.glm (F := ℝ)).link.dNatParam c (linPred raw b β i) ∧
        (IsCanonical fam → c = 0) := by
      have hfun : (fam.glm (F := ℝ)).link.dNatParam
        = fun w => (fam.glm (F := ℝ)).link.dNatParam w := rfl
      rw [hfun]
      simp only [dNatParam_real]
      generalize linPred raw b β i = w
      cases fam
      case logisticCloglog =>
        have hp := Real.exp_pos w
        have hne : Real.exp (-Real.exp w) - 1 ≠ 0 := by
          have : Real.exp (-Real.exp w) < 1 := by rw [Real.exp_lt_one_iff]; linarith
          linarith
        exact ⟨_, (Real.hasDerivAt_exp w).neg.div
          (((Real.hasDerivAt_exp w).neg.exp).sub_const 1) hne, fun h => h.elim⟩
      case exponentialLog => exact ⟨_, (hasDerivAt_id w).neg.exp, fun h => h.elim⟩
      case gammaLog => exact ⟨_, (hasDerivAt_id w).neg.exp, fun h => h.elim⟩
      case invGaussLog => exact ⟨_, ((hasDerivAt_id w).const_mul (-2)).exp, fun h => h.elim⟩
      all_goals exact ⟨0, hasDerivAt_const _ _, fun _ => rfl⟩
    obtain ⟨c, hc, hc0⟩ := h2
    refine HasDerivAt.congr_deriv (hc.fun_mul h1) ?_
    have : c * (raw.y i - (fam.glm (F := ℝ)).link.funcInv (linPred raw b β i)) = 0 := by
      rcases hη with hη | hη
      · rw [hc0 hη, zero_mul]
      · rw [hη i, meanAt, sub_self, mul_zero]
    rw [this, meanAt]
    ring
  have := isGradientAt_linPred_sum (raw := raw) (b := b) (β := β)
    (φ := fun i w => totalWt raw i * ((fam.glm (F := ℝ)).link.dNatParam w
      * (raw.y i - (fam.glm (F := ℝ)).link.funcInv w)) * design b raw.x i j)
    fun i => ((key i).const_mul (totalWt raw i)).mul_const (design b raw.x i j)
  have e : (fun β => scoreVec fam.glm raw b β j) = fun β => ∑ i, totalWt raw i *
      ((fam.glm (F := ℝ)).link.dNatParam (linPred raw b β i)
        * (raw.y i - (fam.glm (F := ℝ)).link.funcInv (linPred raw b β i))) * design b raw.x i j := by
    funext β
    simp only [scoreVec, meanAt, mul_assoc]
  rw [e]
  refine isGradientAt_congr this fun k => ?_
  · rw [fisherMat, ← Finset.sum_neg_distrib]
    exact Finset.sum_congr rfl fun i _ => by ring

theorem ridge_isGradientAt {l1 l2 : ℝ} {σ : Fin p → ℝ} (hl1 : l1 ≤ 0) (β : Vec ℝ (ncols b p))
    (j : Fin (ncols b p)) :
    IsGradientAt (fun β : Vec ℝ (ncols b p) => onSlopes b (fun j =>
      max l1 0 * (σ j * SignType.sign (slopes b β j)) + max l2 0 * (σ j ^ 2 * slopes b β j)) j)
      (fun k => ridgeMat l2 σ b j k) β := by
  have e : (fun β : Vec ℝ (ncols b p) => onSlopes b (fun j =>
      max l1 0 * (σ j * SignType.sign (slopes b β j)) + max l2 0 * (σ j ^ 2 * slopes b β j)) j)
      = fun β => onSlopes b (fun j => max l2 0 * σ j ^ 2) j * β j := by
    funext β
    rw [max_eq_right hl1]
    cases b
    · simp [onSlopes, slopes]; ring
    · refine Fin.cases ?_ (fun j => ?_) (j : Fin (p + 1))
      · simp [onSlopes]
      · simp [onSlopes, slopes]; ring
  rw [e]
  unfold IsGradientAt
  have := HasFDerivAt.const_mul (𝔸 := ℝ) (hasFDerivAt_apply (𝕜 := ℝ) j β)
    (onSlopes b (fun j => max l2 0 * σ j ^ 2) j)
  refine this.congr_fderiv ?_
  rw [Finset.sum_eq_single j]
  · simp [ridgeMat]
  · intro k _ hk
    simp [ridgeMat, diagonal_apply_ne _ (Ne.symm hk)]
  · simp

theorem penScore_isGradientAt (hv : ValidFamily fam) {β : Vec ℝ (ncols b p)} {l1 l2 : ℝ}
    {σ : Fin p → ℝ} (hl1 : l1 ≤ 0) (ha : Admissible fam raw b β)
    (hη : IsCanonical fam ∨ ∀ i, raw.y i = meanAt fam.glm raw b β i) (j : Fin (ncols b p)) :
    IsGradientAt (fun β => penScore fam.glm raw b l1 l2 σ β j)
      (fun k => -((fisherMat fam.glm raw b β + ridgeMat l2 σ b) j k)) β := by
  refine isGradientAt_congr (isGradientAt_sub (score_isGradientAt hv ha hη j)
    (ridge_isGradientAt (l2 := l2) (σ := σ) hl1 β j)) fun k => ?_
  simp [Matrix.add_apply]
  ring

/-- **C49**: for canonical links and no L1 penalty, `fisher(β)` is minus the Jacobian of the reported
score at every `β` in the domain: row `j` is minus the gradient of component `j` of the score.  With
and without standardization and L2 penalty. -/
theorem C49_canonical (hd : raw.finalize std b = some d)
    (h : regression env fam.glm d options = .ok f) (hv : ValidFamily fam) (hc : IsCanonical fam)
    (hl1 : options.l1 ≤ 0) {β : Vec ℝ (ncols b p)} (ha : Admissible fam raw b β)
    (j : Fin (ncols b p)) :
    IsGradientAt (fun β => f.score β j) (fun k => -f.fisher β j k) β := by
  obtain ⟨-, h2, h3, -⟩ := C10_external (Family.lawfulAdj fam) hd hl1 h
  have := penScore_isGradientAt (l2 := options.l2) (σ := scale d) hv hl1 ha (Or.inl hc) j
  rw [← h3] at this
  simpa only [h2, of_apply] using this

/-- **C49**: for every link, canonical or not, `fisher(β)` is the expected information: minus the
Jacobian of the score when each response equals its mean at `β` (the score is affine in the
responses, so this is the expectation over them). -/
theorem C49_expected (hd : raw.finalize std b = some d)
    (h : regression env fam.glm d options = .ok f) (hv : ValidFamily fam)
    (hl1 : options.l1 ≤ 0) {β : Vec ℝ (ncols b p)} (ha : Admissible fam raw b β)
    (hy : ∀ i, raw.y i = meanAt fam.glm raw b β i) (j : Fin (ncols b p)) :
    IsGradientAt (fun β => f.score β j) (fun k => -f.fisher β j k) β := by
  obtain ⟨-, h2, h3, -⟩ := C10_external (Family.lawfulAdj fam) hd hl1 h
  have := penScore_isGradientAt (l2 := options.l2) (σ := scale d) hv hl1 ha (Or.inr hy) j
  rw [← h3] at this
  simpa only [h2, of_apply] using this

/-- The information does not depend on the responses, so `C49_expected` determines it for all of
them. -/
theorem C49_response_free {raw' : Dataset ℝ n p false} {d' : Dataset ℝ n p b} {env' : Env ℝ}
    {options' : FitOptions ℝ (ncols b p)} {f' : Fit ℝ n p b} {y' : Vec ℝ n}
    (hr : raw' = { raw with y := y' })
    (hd : raw.finalize std b = some d) (hd' : raw'.finalize std b = some d')
    (h : regression env fam.glm d options = .ok f)
    (h' : regression env' fam.glm d' options' = .ok f')
    (hl1 : options.l1 ≤ 0) (hl1' : options'.l1 ≤ 0) (hl2 : options.l2 = options'.l2)
    (β : Vec ℝ (ncols b p)) : f.fisher β = f'.fisher β := by
  obtain ⟨-, -, h3, -⟩ := C10_external (Family.lawfulAdj fam) hd hl1 h
  obtain ⟨-, -, h3', -⟩ := C10_external (Family.lawfulAdj fam) hd' hl1' h'
  have hs : scale d = scale d' := by
    subst hr
    obtain ⟨-, -, -, -, h1⟩ := Dataset.finalize_cases hd
    obtain ⟨-, -, -, -, h1'⟩ := Dataset.finalize_cases hd'
    have hsd : d.standardizer = d'.standardizer := by
      rcases h1 with ⟨rfl, -, h1⟩ | ⟨rfl, s, h1, h2, -⟩ <;>
        rcases h1' with ⟨h0, -, h1'⟩ | ⟨h0, s', h1', h2', -⟩
      · rw [h1, h1']
      · simp at h0
      · simp at h0
      · rw [h2, h2', ← h1, ← h1']; rfl
    unfold scale
    rw [hsd]
  apply Matrix.of.injective
  rw [h3, h3', hl2, hs]
  subst hr
  rfl

/-- The hypotheses of C49 and C50 are met by a concrete ridge-penalized gamma regression with log link
(not canonical), at the fit and, for C50, everywhere. -/
example (std : Bool) : ∃ d f, (exRaw ![1, 1, 1]).finalize std true = some d ∧
    regression (exactEnv (1 / 1000) 7) Family.gammaLog.glm d (exOpts 0 2 (some 0) 5) = .ok f ∧
    (∀ β, Admissible .gammaLog (exRaw ![1, 1, 1]) true β) ∧
    (∀ i, (exRaw ![1, 1, 1]).y i = meanAt Family.gammaLog.glm (exRaw ![1, 1, 1]) true f.result i) ∧
    f.fisher f.result 0 0 = 4 := by
  obtain ⟨d, hd⟩ := exRaw_finalize ![1, 1, 1] std true
  have hmean : ∀ i, (exRaw ![1, 1, 1]).y i
      = meanAt Family.gammaLog.glm (exRaw ![1, 1, 1]) true 0 i := by
    intro i
    simp only [meanAt, funcInv_real, exRaw_linPred]
    fin_cases i <;> simp [exRaw]
  obtain ⟨f, h1, -, -, h2⟩ := C22_stationary_start (options := exOpts 0 2 (some 0) 5)
    (exactEnv_exact (by norm_num : (0 : ℝ) ≤ 1 / 1000) 7) (Family.lawfulAdj .gammaLog) hd le_rfl rfl
    ((Matrix.isUnit_iff_isUnit_det _).mp
      (C30_fullRank_posDef (by norm_num [exactEnv]) (fun i => (exRaw_totalWt_pos _ i).le)
      (fun _ => Family.variance_nonneg .gammaLog trivial _) (exRaw_gram_det _)).isUnit)
    (by
      funext j
      have hz : slopes true (0 : Vec ℝ (ncols true 1)) = 0 := rfl
      simp only [penScore, hz, scoreVec, ← hmean, sub_self, mul_zero, zero_mul, Finset.sum_const_zero,
        Pi.zero_apply, sign_zero, SignType.coe_zero, add_zero, onSlopes_zero])
  refine ⟨d, f, hd, h1, fun _ _ => Set.mem_univ _, by rw [h2]; exact hmean, ?_⟩
  obtain ⟨-, -, h3, -⟩ := C10_external (Family.lawfulAdj .gammaLog) hd le_rfl h1
  have := congrFun (congrFun (h3 f.result) (0 : Fin 2)) (0 : Fin 2)
  rw [of_apply] at this
  refine this.trans ?_
  have hm1 : ∀ i, meanAt Family.gammaLog.glm (exRaw ![1, 1, 1]) true 0 i = 1 := by
    intro i; rw [← hmean]; fin_cases i <;> simp [exRaw]
  rw [Matrix.add_apply, fisherMat, h2, ridgeMat]
  simp only [hm1, dNatParam_real, exRaw_linPred, variance_real, varianceFn, exRaw_totalWt,
    Fin.sum_univ_three]
  simp [design, onSlopes]
  norm_num

end GLM
