/-
  C90 for the families of the crate.
-/
import Verif.Props.LocalConvergence
import Verif.Props.Existence

namespace GLM
open Spec Matrix Filter Topology
variable {n p : ℕ} {b : Bool} {env : Env ℝ} {raw : Dataset ℝ n p false} {std : Bool}
  {d : Dataset ℝ n p b} {fam : Family} {βs : Vec ℝ (ncols b p)} {l2 : ℝ}

theorem expInfo_pos (hv : ValidFamily fam) {w : ℝ} (hw : w ∈ predDom fam) : 0 < expInfo fam.glm w := by
  refine mul_pos (pow_pos (dNatParam_pos fam _) 2) ?_
  rw [variance_real]
  exact varianceFn_pos fam hv (funcInv_mem fam hv hw)

/-- For canonical links the observed information is the expected one. -/
theorem isObsInfo_canonical (hv : ValidFamily fam) (hc : IsCanonical fam) (y : ℝ) {w : ℝ}
    (hw : w ∈ predDom fam) : IsObsInfo fam.glm y w (expInfo fam.glm w) := by
  have h1 : ∀ w, (fam.glm (F := ℝ)).link.dNatParam w = 1 := fun w => by
    rw [dNatParam_real]
    cases fam <;> first | rfl | exact hc.elim
  have h2 := (funcInv_hasDerivAt fam hv hw).const_sub y
  unfold IsObsInfo
  simp only [h1, one_mul]
  refine h2.congr_deriv ?_
  simp only [expInfo, h1]
  ring

/-- For the gamma and exponential families with log link it is `y/μ`. -/
theorem isObsInfo_log (hfam : fam = .gammaLog ∨ fam = .exponentialLog) (y w : ℝ) :
    IsObsInfo fam.glm y w (y / Real.exp w) := by
  have h1 : ∀ w, (fam.glm (F := ℝ)).link.dNatParam w = Real.exp (-w) := fun w => by
    rw [dNatParam_real]; rcases hfam with rfl | rfl <;> rfl
  have h2 : ∀ w, (fam.glm (F := ℝ)).link.funcInv w = Real.exp w := fun w => by
    rw [funcInv_real]; rcases hfam with rfl | rfl <;> rfl
  have e : ∀ w : ℝ, Real.exp (-w) * (y - Real.exp w) = y * Real.exp (-w) - 1 := fun w => by
    rw [mul_sub, ← Real.exp_add, neg_add_cancel, Real.exp_zero, mul_comm]
  unfold IsObsInfo
  simp only [h1, h2, e]
  refine ((((hasDerivAt_id w).neg.exp).const_mul y).sub_const 1).congr_deriv ?_
  simp only [id_eq, Real.exp_neg, Pi.neg_apply]
  ring

theorem expInfo_log (hfam : fam = .gammaLog ∨ fam = .exponentialLog) (w : ℝ) :
    expInfo fam.glm w = 1 := by
  rw [expInfo, dNatParam_real, variance_real, funcInv_real]
  rcases hfam with rfl | rfl <;> simp only [varianceFn] <;>
    rw [← mul_pow, ← Real.exp_add] <;> simp

/-- For the inverse Gaussian family with log link it is `(2y - μ)/μ²`. -/
theorem isObsInfo_invGaussLog (y w : ℝ) :
    IsObsInfo Family.invGaussLog.glm y w ((2 * y - Real.exp w) / Real.exp w ^ 2) := by
  have e : ∀ w : ℝ, Real.exp (-2 * w) * (y - Real.exp w) = y * Real.exp (-2 * w) - Real.exp (-w) :=
    fun w => by
      rw [mul_sub, ← Real.exp_add, mul_comm]
      congr 2
      ring
  unfold IsObsInfo
  simp only [dNatParam_real, funcInv_real, e]
  have h1 := (((hasDerivAt_id w).const_mul (-2)).exp).const_mul y
  have h2 := (hasDerivAt_id w).neg.exp
  refine (h1.sub h2).congr_deriv ?_
  have e1 : Real.exp (-2 * w) = (Real.exp w ^ 2)⁻¹ := by
    rw [← Real.exp_nat_mul, ← Real.exp_neg]; congr 1; push_cast; ring
  simp only [id_eq, Pi.neg_apply, e1, Real.exp_neg]
  have := (Real.exp_pos w).ne'
  field_simp
  ring

theorem expInfo_invGaussLog (w : ℝ) : expInfo Family.invGaussLog.glm w = 1 / Real.exp w := by
  rw [expInfo, dNatParam_real, variance_real, funcInv_real]
  simp only [varianceFn]
  have e1 : Real.exp (-2 * w) = (Real.exp w ^ 2)⁻¹ := by
    rw [← Real.exp_nat_mul, ← Real.exp_neg]; congr 1; push_cast; ring
  have := (Real.exp_pos w).ne'
  rw [e1]
  field_simp

/-- What the families need besides their condition on the curvature: exact arithmetic, a valid family,
a built dataset with an observation, non-negative weights, identified coefficients, and a zero of the
penalized score. -/
structure Solution (env : Env ℝ) (fam : Family) (raw : Dataset ℝ n p false) (std : Bool)
    (d : Dataset ℝ n p b) (l2 : ℝ) (βs : Vec ℝ (ncols b p)) : Prop where
  exact : env.Exact
  valid : ValidFamily fam
  built : raw.finalize std b = some d
  obs : 0 < n
  weights : ∀ i, 0 ≤ totalWt raw i
  ident : IsUnit (gram raw b).det ∨ (0 < l2 ∧ (b = true → ∃ i, 0 < totalWt raw i))
  admissible : Admissible fam raw b βs
  score : penScore fam.glm raw b 0 l2 (scale d) βs = 0

theorem Solution.canonical (h : Solution env fam raw std d l2 βs) (hc : IsCanonical fam) :
    LocalSetting env fam raw std d l2 βs fun i => expInfo fam.glm (linPred raw b βs i) where
  exact := h.exact
  valid := h.valid
  built := h.built
  obs := h.obs
  weights := h.weights
  ident := h.ident
  admissible := h.admissible
  score := h.score
  info i := isObsInfo_canonical h.valid hc _ (h.admissible i)
  info_pos i _ := expInfo_pos h.valid (h.admissible i)
  info_lt i _ := by
    have h1 := expInfo_pos h.valid (h.admissible i)
    have h2 := h.exact.eps_nonneg
    linarith

/-- **C90** (canonical links).  For a canonical link nothing is needed about the curvature, and the rate
is explicit: if the expected information of every observation with weight is at least `w` at the solution,
every `ρ` above `(ε/(w+ε))²` is a rate near the solution.  With machine epsilon zero every positive `ρ` is:
the convergence is superlinear. -/
theorem C90_canonical (h : Solution env fam raw std d l2 βs) (hc : IsCanonical fam) {w ρ : ℝ}
    (hw0 : 0 < w) (hw : ∀ i, 0 < totalWt raw i → w ≤ expInfo fam.glm (linPred raw b βs i))
    (hρ : (env.eps / (w + env.eps)) ^ 2 < ρ) (hρ1 : ρ < 1) :
    ∃ U ∈ 𝓝 βs, ∃ C, ConvergesFrom env fam.glm raw d l2 βs U ρ C := by
  have hl := h.canonical hc
  have heq : newtonMat env.eps fam.glm raw b l2 (scale d) βs
      = obsMat raw b (fun i => expInfo fam.glm (linPred raw b βs i)) l2 (scale d)
        + env.eps • gram raw b := by
    ext j k
    rw [newtonMat_apply, Matrix.add_apply, obsMat, Matrix.add_apply, Matrix.smul_apply, obsInfo,
      smul_eq_mul]
    ring
  obtain ⟨r, hB⟩ := hl.basin (sq_nonneg _) hρ hρ1 (by
    intro x y hxy
    rw [heq] at hxy
    refine factor_of_eps (obsMat_symm _ _ _) gram_symm (gram_nonneg h.weights) h.exact.eps_nonneg hw0
      (fun x => ?_) hxy
    rw [qform_obsMat, qform, quad_gram, Finset.mul_sum]
    refine le_add_of_le_of_nonneg (Finset.sum_le_sum fun i _ => ?_)
      (LocalSetting.ridge_part_nonneg _ _ _)
    rcases (h.weights i).eq_or_lt with h0 | h0
    · rw [← h0]; simp
    · have := mul_le_mul_of_nonneg_left (hw i h0) (h.weights i)
      have := mul_le_mul_of_nonneg_right this (sq_nonneg (∑ j, design b raw.x i j * x j))
      linarith)
  obtain ⟨C, hC⟩ := Basin.converges hl hB
  exact ⟨_, hB.nhds, C, hC⟩

/-- **C90** (canonical links, existence of a rate). -/
theorem C90_canonical_exists (h : Solution env fam raw std d l2 βs) (hc : IsCanonical fam) :
    ∃ ρ < 1, ∃ U ∈ 𝓝 βs, ∃ C, ConvergesFrom env fam.glm raw d l2 βs U ρ C :=
  C90_local (h.canonical hc)

/-- **C90** (no separation).  For linear, logistic, Poisson and binomial regression with the canonical
link and identified coefficients: if the data are not separated there is a solution, exactly one, and fits
started near it converge to it. -/
theorem C90_not_separated (he : env.Exact) (hev : Everywhere fam raw) (hc : IsCanonical fam)
    (hd : raw.finalize std b = some d) (hn : 0 < n)
    (hid : IsUnit (gram raw b).det ∨ (0 < l2 ∧ (b = true → ∃ i, 0 < totalWt raw i)))
    (hs : ¬ Separated fam raw b l2) :
    ∃ βs, (∀ β, penScore fam.glm raw b 0 l2 (scale d) β = 0 ↔ β = βs) ∧
      ∃ ρ < 1, ∃ U ∈ 𝓝 βs, ∃ C, ConvergesFrom env fam.glm raw d l2 βs U ρ C := by
  obtain ⟨βs, hβs⟩ := penLogLik_exists_max hev (l1 := 0) le_rfl (Dataset.scale_pos hd) hs
  have hg : IsGradientAt (penLogLik fam.glm raw b 0 l2 (scale d))
      (penScore fam.glm raw b 0 l2 (scale d) βs) βs :=
    isGradientAt_sub (logLik_isGradientAt hev.valid (hev.adm βs))
      (penalty_isGradientAt (Dataset.scale_pos hd) (Or.inl le_rfl))
  have hsc : penScore fam.glm raw b 0 l2 (scale d) βs = 0 := by
    have h0 := IsLocalMax.hasFDerivAt_eq_zero (Filter.Eventually.of_forall hβs) hg
    funext j
    have := congrArg (fun L => L (Pi.single j 1)) h0
    simpa [_root_.sum_apply, Pi.single_apply] using this
  have hsol : Solution env fam raw std d l2 βs :=
    ⟨he, hev.valid, hd, hn, hev.weights, hid, hev.adm βs, hsc⟩
  have hpd : (gram raw b + ridgeMat l2 (scale d) b).PosDef := by
    refine PosDef.of_dotProduct_mulVec_pos (isHermitian_of_symm (gram_symm.add ridgeMat_symm)) ?_
    intro x hx
    rw [show star x = x from by ext; simp]
    exact ridgeCurv_pos hev.weights (Dataset.scale_pos hd) hid hx
  refine ⟨βs, fun β => ⟨fun hβ => ?_, fun hβ => hβ ▸ hsc⟩, C90_canonical_exists hsol hc⟩
  by_contra hne
  have h1 := C29_unique_optimum hev.concave (l1 := 0) (Dataset.scale_pos hd) hpd (hev.adm βs) hsc
    (hev.adm β) hne
  have h2 := C29_unique_optimum hev.concave (l1 := 0) (Dataset.scale_pos hd) hpd (hev.adm β) hβ
    (hev.adm βs) (Ne.symm hne)
  linarith

/-- **C90** (log link, gamma and exponential families).  Fits started near a solution converge to it if
every observation with weight has a positive response less than twice its fitted mean. -/
theorem C90_log (h : Solution env fam raw std d l2 βs) (hfam : fam = .gammaLog ∨ fam = .exponentialLog)
    (hy : ∀ i, 0 < totalWt raw i → 0 < raw.y i)
    (hlt : ∀ i, 0 < totalWt raw i → raw.y i < 2 * (1 + env.eps) * meanAt fam.glm raw b βs i) :
    ∃ ρ < 1, ∃ U ∈ 𝓝 βs, ∃ C, ConvergesFrom env fam.glm raw d l2 βs U ρ C := by
  have hm : ∀ i, meanAt fam.glm raw b βs i = Real.exp (linPred raw b βs i) := fun i => by
    rw [meanAt, funcInv_real]; rcases hfam with rfl | rfl <;> rfl
  refine C90_local (o := fun i => raw.y i / Real.exp (linPred raw b βs i))
    ⟨h.exact, h.valid, h.built, h.obs, h.weights, h.ident, h.admissible, h.score,
      fun i => isObsInfo_log hfam _ _, fun i hi => div_pos (hy i hi) (Real.exp_pos _), fun i hi => ?_⟩
  rw [expInfo_log hfam, div_lt_iff₀ (Real.exp_pos _), ← hm]
  exact hlt i hi

/-- **C90** (log link, inverse Gaussian family).  Fits started near a solution converge to it if the
response of every observation with weight is between one half and three halves of its fitted mean. -/
theorem C90_invGaussLog (h : Solution env .invGaussLog raw std d l2 βs)
    (hy : ∀ i, 0 < totalWt raw i →
      meanAt Family.invGaussLog.glm raw b βs i < 2 * raw.y i ∧
      2 * raw.y i < 3 * meanAt Family.invGaussLog.glm raw b βs i) :
    ∃ ρ < 1, ∃ U ∈ 𝓝 βs, ∃ C, ConvergesFrom env Family.invGaussLog.glm raw d l2 βs U ρ C := by
  have hm : ∀ i, meanAt Family.invGaussLog.glm raw b βs i = Real.exp (linPred raw b βs i) := fun i => by
    rw [meanAt, funcInv_real]
  refine C90_local
    (o := fun i => (2 * raw.y i - Real.exp (linPred raw b βs i)) / Real.exp (linPred raw b βs i) ^ 2)
    ⟨h.exact, h.valid, h.built, h.obs, h.weights, h.ident, h.admissible, h.score,
      fun i => isObsInfo_invGaussLog _ _, fun i hi => ?_, fun i hi => ?_⟩
  · have := (hy i hi).1
    rw [hm] at this
    exact div_pos (by linarith) (by positivity)
  · have := (hy i hi).2
    rw [hm] at this
    have h0 := Real.exp_pos (linPred raw b βs i)
    have h1 := h.exact.eps_nonneg
    rw [expInfo_invGaussLog, div_lt_iff₀ (by positivity)]
    have e : 2 * (1 / Real.exp (linPred raw b βs i) + env.eps) * Real.exp (linPred raw b βs i) ^ 2
        = 2 * Real.exp (linPred raw b βs i)
          + 2 * (env.eps * Real.exp (linPred raw b βs i) ^ 2) := by field_simp
    rw [e]
    have : 0 ≤ env.eps * Real.exp (linPred raw b βs i) ^ 2 := by positivity
    linarith

/-! ### Complementary log-log -/

theorem isObsInfo_cloglog_zero (w : ℝ) : IsObsInfo Family.logisticCloglog.glm 0 w (Real.exp w) := by
  have e : ∀ w : ℝ, -Real.exp w / (Real.exp (-Real.exp w) - 1) * (0 - (1 - Real.exp (-Real.exp w)))
      = -Real.exp w := fun w => by
    have : Real.exp (-Real.exp w) - 1 ≠ 0 := by
      have : Real.exp (-Real.exp w) < 1 := by rw [Real.exp_lt_one_iff]; linarith [Real.exp_pos w]
      linarith
    field_simp
    ring
  unfold IsObsInfo
  simp only [dNatParam_real, funcInv_real, e]
  exact (Real.hasDerivAt_exp w).neg

theorem isObsInfo_cloglog_one (w : ℝ) : IsObsInfo Family.logisticCloglog.glm 1 w
    (Real.exp w * (Real.exp w * Real.exp (Real.exp w) - Real.exp (Real.exp w) + 1)
      / (Real.exp (Real.exp w) - 1) ^ 2) := by
  have hpos : ∀ w : ℝ, Real.exp (Real.exp w) - 1 ≠ 0 := fun w => by
    have : 1 < Real.exp (Real.exp w) := by rw [Real.one_lt_exp_iff]; exact Real.exp_pos w
    linarith
  have e : ∀ w : ℝ, -Real.exp w / (Real.exp (-Real.exp w) - 1) * (1 - (1 - Real.exp (-Real.exp w)))
      = Real.exp w / (Real.exp (Real.exp w) - 1) := fun w => by
    have h1 := hpos w
    have h2 := (Real.exp_pos (Real.exp w)).ne'
    have h3 : 1 - Real.exp (Real.exp w) ≠ 0 := fun h => h1 (by linarith)
    rw [Real.exp_neg]
    have e1 : (Real.exp (Real.exp w))⁻¹ - 1
        = (1 - Real.exp (Real.exp w)) / Real.exp (Real.exp w) := by field_simp
    rw [e1]
    field_simp
    ring
  unfold IsObsInfo
  simp only [dNatParam_real, funcInv_real, e]
  have h1 := (Real.hasDerivAt_exp w).div (((Real.hasDerivAt_exp w).exp).sub_const 1) (hpos w)
  refine h1.congr_deriv ?_
  rw [← neg_div]
  congr 1
  ring

theorem expInfo_cloglog (w : ℝ) : expInfo Family.logisticCloglog.glm w
    = Real.exp w ^ 2 / (Real.exp (Real.exp w) - 1) := by
  rw [expInfo, dNatParam_real, variance_real, funcInv_real]
  simp only [varianceFn]
  have h1 : Real.exp (Real.exp w) - 1 ≠ 0 := by
    have : 1 < Real.exp (Real.exp w) := by rw [Real.one_lt_exp_iff]; exact Real.exp_pos w
    linarith
  have h2 := (Real.exp_pos (Real.exp w)).ne'
  have h3 : 1 - Real.exp (Real.exp w) ≠ 0 := fun h => h1 (by linarith)
  rw [Real.exp_neg]
  have e1 : (Real.exp (Real.exp w))⁻¹ - 1
      = (1 - Real.exp (Real.exp w)) / Real.exp (Real.exp w) := by field_simp
  rw [e1]
  field_simp
  ring

/-- **C90** (logistic regression with the complementary log-log link).  With responses 0 and 1, fits
started near a solution converge to it if every observation with weight and response 0 has a linear
predictor `ω` with `exp(exp ω) - 1 < 2 exp ω` (fitted probability below about 0.71). -/
theorem C90_cloglog (h : Solution env .logisticCloglog raw std d l2 βs)
    (hy : ∀ i, raw.y i = 1 ∨ raw.y i = 0 ∧ (0 < totalWt raw i →
      Real.exp (Real.exp (linPred raw b βs i)) - 1 < 2 * Real.exp (linPred raw b βs i))) :
    ∃ ρ < 1, ∃ U ∈ 𝓝 βs, ∃ C, ConvergesFrom env Family.logisticCloglog.glm raw d l2 βs U ρ C := by
  classical
  have heps := h.exact.eps_nonneg
  have key : ∀ i, ∃ o, IsObsInfo Family.logisticCloglog.glm (raw.y i) (linPred raw b βs i) o ∧
      (0 < totalWt raw i → 0 < o) ∧ (0 < totalWt raw i →
        o < 2 * (expInfo Family.logisticCloglog.glm (linPred raw b βs i) + env.eps)) := by
    intro i
    have hl := Real.exp_pos (linPred raw b βs i)
    rcases hy i with h1 | ⟨h1, h2⟩
    · rw [h1]
      refine ⟨_, isObsInfo_cloglog_one _, ?_, ?_⟩
      all_goals
        try simp only [expInfo_cloglog]
        generalize Real.exp (linPred raw b βs i) = l at *
        have h3 : l + 1 < Real.exp l := Real.add_one_lt_exp hl.ne'
        have h4 : 0 < Real.exp l - 1 := by linarith
        intro _
      · refine div_pos (mul_pos hl ?_) (by positivity)
        have h5 : -l + 1 < Real.exp (-l) := Real.add_one_lt_exp (by linarith)
        have h6 : Real.exp l * Real.exp (-l) = 1 := by rw [← Real.exp_add]; simp
        have h7 := mul_lt_mul_of_pos_left h5 (Real.exp_pos l)
        nlinarith
      · have h8 : l * (l * Real.exp l - Real.exp l + 1) / (Real.exp l - 1) ^ 2
            < 2 * (l ^ 2 / (Real.exp l - 1)) := by
          rw [div_lt_iff₀ (by positivity)]
          have e : 2 * (l ^ 2 / (Real.exp l - 1)) * (Real.exp l - 1) ^ 2
              = 2 * l ^ 2 * (Real.exp l - 1) := by field_simp
          rw [e]
          have h9 : 0 < l * Real.exp l + Real.exp l - 1 - 2 * l := by nlinarith
          nlinarith [mul_pos hl h9]
        linarith
    · rw [h1]
      refine ⟨_, isObsInfo_cloglog_zero _, fun _ => hl, fun hi => ?_⟩
      have h3 := h2 hi
      rw [expInfo_cloglog]
      generalize Real.exp (linPred raw b βs i) = l at *
      have h4 : 0 < Real.exp l - 1 := by
        have := Real.add_one_lt_exp hl.ne'
        linarith
      have : l < 2 * (l ^ 2 / (Real.exp l - 1)) := by
        rw [← mul_div_assoc, lt_div_iff₀ h4]
        nlinarith
      linarith
  choose o h1 h2 h3 using key
  exact C90_local ⟨h.exact, h.valid, h.built, h.obs, h.weights, h.ident, h.admissible, h.score, h1, h2, h3⟩

/-! ### Examples -/

/-- Responses scattered around one: no pair fits them perfectly, and zero coefficients solve the score
equations of every pair whose mean at zero is one. -/
noncomputable def scatterRaw : Dataset ℝ 3 1 false := exRaw ![5 / 4, 3 / 4, 5 / 4]

theorem scatter_solution (hv : ValidFamily fam) (h1 : (fam.glm (F := ℝ)).link.funcInv 0 = 1)
    (h2 : (fam.glm (F := ℝ)).link.dNatParam 0 = 1) (h3 : (0 : ℝ) ∈ predDom fam)
    {d : Dataset ℝ 3 1 true} (hd : scatterRaw.finalize std true = some d) (l2 : ℝ) :
    Solution (exactEnv (1 / 1000) 7) fam scatterRaw std d l2 (0 : Vec ℝ (ncols true 1)) := by
  have hz : ∀ i, linPred scatterRaw true (0 : Vec ℝ (ncols true 1)) i = 0 := fun i => by
    rw [scatterRaw, exRaw_linPred]; simp
  refine ⟨exactEnv_exact (by norm_num) 7, hv, hd, by norm_num, fun i => (exRaw_totalWt_pos _ i).le,
    Or.inl (exRaw_gram_det _), fun i => by rw [hz]; exact h3, ?_⟩
  funext j
  have hs : slopes true (0 : Vec ℝ (ncols true 1)) = 0 := rfl
  simp only [penScore, hs, scoreVec, meanAt, hz, h1, h2, Pi.zero_apply, sign_zero, SignType.coe_zero,
    mul_zero, add_zero, onSlopes_zero, sub_zero]
  simp only [scatterRaw, exRaw_totalWt, Fin.sum_univ_three]
  change Fin 2 at j
  fin_cases j <;> simp [design, exRaw] <;> norm_num

/-- The hypotheses of C90 are met: Poisson (any rate above `(ε/(1+ε))²`), gamma and inverse Gaussian
regression with log link on data that are not fitted perfectly, for every L2 strength, with and without
standardization. -/
example (std : Bool) (l2 ρ : ℝ) (hρ : ((1 / 1000 : ℝ) / (1 + 1 / 1000)) ^ 2 < ρ) (hρ1 : ρ < 1) :
    ∃ d, scatterRaw.finalize std true = some d ∧
    (∃ U ∈ 𝓝 (0 : Vec ℝ (ncols true 1)), ∃ C,
      ConvergesFrom (exactEnv (1 / 1000) 7) Family.poisson.glm scatterRaw d l2 0 U ρ C) ∧
    (∃ ρ < 1, ∃ U ∈ 𝓝 (0 : Vec ℝ (ncols true 1)), ∃ C,
      ConvergesFrom (exactEnv (1 / 1000) 7) Family.gammaLog.glm scatterRaw d l2 0 U ρ C) ∧
    ∃ ρ < 1, ∃ U ∈ 𝓝 (0 : Vec ℝ (ncols true 1)), ∃ C,
      ConvergesFrom (exactEnv (1 / 1000) 7) Family.invGaussLog.glm scatterRaw d l2 0 U ρ C := by
  obtain ⟨d, hd⟩ := exRaw_finalize ![5 / 4, 3 / 4, 5 / 4] std true
  have hz : ∀ i, linPred scatterRaw true (0 : Vec ℝ (ncols true 1)) i = 0 := fun i => by
    rw [scatterRaw, exRaw_linPred]; simp
  have hy : ∀ i, 1 / 2 < scatterRaw.y i ∧ scatterRaw.y i < 3 / 2 := fun i => by
    fin_cases i <;> simp [scatterRaw, exRaw] <;> norm_num
  have hsol : ∀ fam : Family, fam = .poisson ∨ fam = .gammaLog ∨ fam = .invGaussLog →
      Solution (exactEnv (1 / 1000) 7) fam scatterRaw std d l2 (0 : Vec ℝ (ncols true 1)) := by
    intro fam hfam
    refine scatter_solution ?_ ?_ ?_ ?_ hd l2
    · rcases hfam with rfl | rfl | rfl <;> trivial
    · rw [funcInv_real]; rcases hfam with rfl | rfl | rfl <;> simp
    · rw [dNatParam_real]; rcases hfam with rfl | rfl | rfl <;> simp
    · rcases hfam with rfl | rfl | rfl <;> exact Set.mem_univ _
  refine ⟨d, hd, C90_canonical (hsol .poisson (.inl rfl)) trivial one_pos (fun i _ => ?_) hρ hρ1,
    C90_log (hsol .gammaLog (.inr (.inl rfl))) (.inl rfl) (fun i _ => ?_) (fun i _ => ?_),
    C90_invGaussLog (hsol .invGaussLog (.inr (.inr rfl))) fun i _ => ?_⟩
  · rw [hz, expInfo, dNatParam_real, variance_real, funcInv_real]; simp [varianceFn]
  · linarith [(hy i).1]
  · have : meanAt Family.gammaLog.glm scatterRaw true 0 i = 1 := by
      rw [meanAt, hz, funcInv_real]; simp
    rw [this]
    have := (hy i).2
    norm_num [exactEnv]
    linarith
  · have : meanAt Family.invGaussLog.glm scatterRaw true 0 i = 1 := by
      rw [meanAt, hz, funcInv_real]; simp
    rw [this]
    have := hy i
    constructor <;> linarith

/-- `C90_not_separated`: logistic regression on the responses 1, 0, 1. -/
example (std : Bool) : ∃ d, (exRaw ![1, 0, 1]).finalize std true = some d ∧ ∃ βs, ∃ ρ < 1, ∃ U ∈ 𝓝 βs, ∃ C,
    ConvergesFrom (exactEnv (1 / 1000) 7) Family.logisticLogit.glm (exRaw ![1, 0, 1]) d 0 βs U ρ C := by
  obtain ⟨d, hd⟩ := exRaw_finalize ![1, 0, 1] std true
  obtain ⟨βs, -, h⟩ := C90_not_separated (l2 := 0)
    (exactEnv_exact (by norm_num : (0 : ℝ) ≤ 1 / 1000) 7) exRaw_everywhere trivial hd
    (by norm_num) (Or.inl (exRaw_gram_det _)) (exRaw_notSeparated _)
  exact ⟨d, hd, βs, h⟩

/-- `C90_cloglog`: the same responses, with the solution at fitted probabilities one half. -/
example (std : Bool) (l2 : ℝ) : ∃ d, (exRaw ![1, 0, 1]).finalize std true = some d ∧
    ∃ ρ < 1, ∃ U ∈ 𝓝 (![Real.log (Real.log 2), 0] : Vec ℝ (ncols true 1)), ∃ C,
      ConvergesFrom (exactEnv (1 / 1000) 7) Family.logisticCloglog.glm (exRaw ![1, 0, 1]) d l2
        ![Real.log (Real.log 2), 0] U ρ C := by
  obtain ⟨d, hd⟩ := exRaw_finalize ![1, 0, 1] std true
  have hz : ∀ i, linPred (exRaw ![1, 0, 1]) true ![Real.log (Real.log 2), 0] i
      = Real.log (Real.log 2) := fun i => by
    rw [exRaw_linPred]; simp
  have hl : 0 < Real.log 2 := Real.log_pos one_lt_two
  have he : Real.exp (-Real.log 2) = 1 / 2 := by
    rw [Real.exp_neg, Real.exp_log two_pos, one_div]
  have hμ : (Family.logisticCloglog.glm (F := ℝ)).link.funcInv (Real.log (Real.log 2)) = 1 / 2 := by
    rw [funcInv_real, Real.exp_log hl, he]; norm_num
  have hη : (Family.logisticCloglog.glm (F := ℝ)).link.dNatParam (Real.log (Real.log 2))
      = 2 * Real.log 2 := by
    rw [dNatParam_real, Real.exp_log hl, he]; norm_num; ring
  have hs : slopes true (![Real.log (Real.log 2), 0] : Vec ℝ (ncols true 1)) = 0 := by
    funext j; fin_cases j; rfl
  refine ⟨d, hd, C90_cloglog ⟨exactEnv_exact (by norm_num) 7, trivial, hd, by norm_num,
    fun i => (exRaw_totalWt_pos _ i).le, Or.inl (exRaw_gram_det _), fun i => Set.mem_univ _, ?_⟩
    fun i => ?_⟩
  · funext j
    simp only [penScore, hs, scoreVec, meanAt, hz, hμ, hη, Pi.zero_apply, sign_zero, SignType.coe_zero,
      mul_zero, add_zero, onSlopes_zero, sub_zero]
    simp only [exRaw_totalWt, Fin.sum_univ_three]
    change Fin 2 at j
    fin_cases j <;> simp [design, exRaw] <;> ring
  · rw [hz, Real.exp_log hl, Real.exp_log two_pos]
    have := Real.log_lt_sub_one_of_pos (by norm_num : (0 : ℝ) < 2⁻¹) (by norm_num)
    rw [Real.log_inv] at this
    fin_cases i <;> simp [exRaw]
    intro _
    linarith

end GLM
