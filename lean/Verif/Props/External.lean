/-
  C09, C10, C31, C46: fits in terms of the user's data, with or without standardization.
-/
import Verif.Lemmas.Fitted

namespace GLM
open Spec Matrix
variable {n p : ℕ} {b : Bool} {env : Env ℝ} {g : Glm ℝ} {raw : Dataset ℝ n p false} {std : Bool}
  {d : Dataset ℝ n p b} {options : FitOptions ℝ (ncols b p)}

/-! ### C09 -/

/-- C09.  Prediction on the training data gives the fitted means, which are `y - resid_resp()`; they
are the means at the reported coefficients. -/
theorem C09_predict_training (hd : raw.finalize std b = some d) {f : Fit ℝ n p b}
    (h : regression env g d options = .ok f) (i : Fin n) :
    f.predict raw.x raw.linearOffset i = raw.y i - f.residResp i ∧
    f.predict raw.x raw.linearOffset i = f.yHat i ∧
    f.yHat i = meanAt g raw b f.result i := by
  obtain ⟨rfl, rfl, rfl, hf⟩ := regression_ofRaw hd h
  have h1 : f.predict raw.x raw.linearOffset i = meanAt f.g raw b f.result i := by
    simp only [Fit.predict, Glm.mean, meanAt]
    congr 1
    unfold linPred offset
    have : ∀ i j, Dataset.padded b raw.x i j = design b raw.x i j := by
      intro i j; cases b <;> rfl
    cases raw.linearOffset <;> simp [vadd, Mat.dotV, this]
  have h2 := hf.mean i
  have h3 : f.residResp i = raw.y i - f.yHat i := by
    simp only [Fit.residResp, vsub, Dataset.finalize_y hd]
  refine ⟨?_, ?_, h2⟩
  · rw [h1, h3, h2]; ring
  · rw [h1, h2]

/-- Prediction on new data: mean at `X β + offset`. -/
theorem C09_predict_new (f : Fit ℝ n p b) {m : ℕ} (X : Mat ℝ m p) (off : Option (Vec ℝ m))
    (i : Fin m) :
    f.predict X off i = f.g.link.funcInv
      (∑ j, design b X i j * f.result j + (off.map fun o => o i).getD 0) := by
  simp only [Fit.predict, Glm.mean]
  congr 1
  have : ∀ i j, Dataset.padded b X i j = design b X i j := by
    intro i j; cases b <;> rfl
  cases off <;> simp [vadd, Mat.dotV, this]

/-! ### C10 -/

/-- The quantities of C10 for one fit, in terms of the user's data only: nothing depends on whether
the data was standardized, except the units `σ` of the penalty. -/
theorem C10_external (hg : LawfulAdj g) (hd : raw.finalize std b = some d) (hl1 : options.l1 ≤ 0)
    {f : Fit ℝ n p b} (h : regression env g d options = .ok f) :
    f.modelLike = penLogLik g raw b options.l1 options.l2 (scale d) f.result ∧
    (∀ β, f.score β = penScore g raw b options.l1 options.l2 (scale d) β) ∧
    (∀ β, Matrix.of (f.fisher β) = fisherMat g raw b β + ridgeMat options.l2 (scale d) b) ∧
    (∀ β, f.lrTestAgainst β = 2 * (penLogLik g raw b options.l1 options.l2 (scale d) f.result
      - penLogLik g raw b options.l1 options.l2 (scale d) β)) ∧
    (∀ β, f.waldTestAgainst β = (f.result - β) ⬝ᵥ
      ((fisherMat g raw b β + ridgeMat options.l2 (scale d) b) *ᵥ (f.result - β))) ∧
    (∀ β, f.scoreTestAgainst env β = (env.inv (f.fisher β)).map fun V =>
      penScore g raw b options.l1 options.l2 (scale d) β ⬝ᵥ
        (Matrix.of V *ᵥ penScore g raw b options.l1 options.l2 (scale d) β)) := by
  obtain ⟨rfl, rfl, rfl, hf⟩ := regression_ofRaw hd h
  have hwf := Dataset.finalize_wf hd
  have hscore := fun β => Fit.score_ext hd hg hf.same β
  have hfish := fun β => Fit.fisher_ext hd hg hf.same hl1 β
  refine ⟨hf.like, hscore, hfish, ?_, ?_, ?_⟩
  · intro β
    simp only [Fit.lrTestAgainst, hf.like, hf.same.likelihood, objective_ext hd,
      hwf.inverseTransformBeta_transformBeta, two_real]
  · intro β
    rw [← hfish β]
    have e : vsub f.resultStd (f.data.transformBeta β) = f.data.tmat *ᵥ (f.result - β) := by
      rw [hf.resultStd, Dataset.transformBeta_eq, Dataset.transformBeta_eq, mulVec_sub]; rfl
    have e2 : Matrix.of (f.fisher β) = f.data.tmatᵀ
        * Matrix.of (f.fisherStd (f.data.transformBeta β)) * f.data.tmat := by
      rw [← Dataset.inverseTransformFisher_eq]; rfl
    simp only [Fit.waldTestAgainst, vdot_real, dotV_real, e, e2]
    rw [← mulVec_mulVec, ← mulVec_mulVec, dotProduct_mulVec _ (f.data.tmatᵀ), vecMul_transpose]
  · intro β
    simp only [Fit.scoreTestAgainst, ← hscore β]
    cases env.inv (f.fisher β) with
    | error e => rfl
    | ok V =>
      change Except.ok _ = Except.ok _
      simp only [vdot_real, dotV_real]

/-- C10.  Without regularization, a fit of the standardized data and a fit of the data as given have
the same score and information functions and the same score tests; if they report the same
coefficients, also the same likelihood, likelihood-ratio and Wald tests. -/
theorem C10_standardization_irrelevant (hg : LawfulAdj g) {std₁ std₂ : Bool}
    {d₁ d₂ : Dataset ℝ n p b} {options₁ options₂ : FitOptions ℝ (ncols b p)} {env₁ env₂ : Env ℝ}
    (hd₁ : raw.finalize std₁ b = some d₁) (hd₂ : raw.finalize std₂ b = some d₂)
    (h₁ : options₁.l1 ≤ 0 ∧ options₁.l2 ≤ 0) (h₂ : options₂.l1 ≤ 0 ∧ options₂.l2 ≤ 0)
    {f₁ f₂ : Fit ℝ n p b} (hf₁ : regression env₁ g d₁ options₁ = .ok f₁)
    (hf₂ : regression env₂ g d₂ options₂ = .ok f₂) :
    (∀ β, f₁.score β = f₂.score β) ∧ (∀ β, f₁.fisher β = f₂.fisher β) ∧
    (∀ env β, f₁.scoreTestAgainst env β = f₂.scoreTestAgainst env β) ∧
    (f₁.result = f₂.result → f₁.modelLike = f₂.modelLike ∧
      (∀ β, f₁.lrTestAgainst β = f₂.lrTestAgainst β) ∧
      ∀ β, f₁.waldTestAgainst β = f₂.waldTestAgainst β) := by
  obtain ⟨a1, a2, a3, a4, a5, -⟩ := C10_external hg hd₁ h₁.1 hf₁
  obtain ⟨b1, b2, b3, b4, b5, -⟩ := C10_external hg hd₂ h₂.1 hf₂
  have hr : ∀ (l2 : ℝ) (σ : Fin p → ℝ), l2 ≤ 0 → ridgeMat l2 σ b = 0 := by
    intro l2 σ hl
    rw [ridgeMat, max_eq_right hl]; simp [onSlopes_zero]
  have hs : ∀ (l1 l2 : ℝ) (σ : Fin p → ℝ) β, l1 ≤ 0 → l2 ≤ 0 →
      penScore g raw b l1 l2 σ β = scoreVec g raw b β := by
    intro l1 l2 σ β h1 h2
    funext j
    simp [penScore, max_eq_right h1, max_eq_right h2, onSlopes_zero]
  have hl : ∀ (l1 l2 : ℝ) (σ : Fin p → ℝ) β, l1 ≤ 0 → l2 ≤ 0 →
      penLogLik g raw b l1 l2 σ β = logLik g raw b β := by
    intro l1 l2 σ β h1 h2
    simp [penLogLik, penalty, max_eq_right h1, max_eq_right h2]
  have hsc : ∀ β, f₁.score β = f₂.score β := by
    intro β; rw [a2, b2, hs _ _ _ _ h₁.1 h₁.2, hs _ _ _ _ h₂.1 h₂.2]
  have hfi : ∀ β, f₁.fisher β = f₂.fisher β := by
    intro β
    have : Matrix.of (f₁.fisher β) = Matrix.of (f₂.fisher β) := by
      rw [a3, b3, hr _ _ h₁.2, hr _ _ h₂.2]
    exact this
  refine ⟨hsc, hfi, ?_, ?_⟩
  · intro env β
    simp only [Fit.scoreTestAgainst, hsc, hfi]
  · intro he
    refine ⟨?_, ?_, ?_⟩
    · rw [a1, b1, hl _ _ _ _ h₁.1 h₁.2, hl _ _ _ _ h₂.1 h₂.2, he]
    · intro β
      rw [a4, b4, hl _ _ _ _ h₁.1 h₁.2, hl _ _ _ _ h₂.1 h₂.2, hl _ _ _ _ h₁.1 h₁.2,
        hl _ _ _ _ h₂.1 h₂.2, he]
    · intro β
      rw [a5, b5, hr _ _ h₁.2, hr _ _ h₂.2, he]

/-! ### C31 -/

/-- C31.  Which regularizer is used is decided by the signs of the strengths. -/
theorem C31_selection (options : FitOptions ℝ (ncols b p)) :
    (options.l1 ≤ 0 ∧ options.l2 ≤ 0 ∧ getReg options = .null) ∨
    (options.l1 ≤ 0 ∧ 0 < options.l2 ∧ ∃ v, getReg options = .ridge v) ∨
    (0 < options.l1 ∧ options.l2 ≤ 0 ∧ ∃ v a, getReg options = .lasso v a) ∨
    (0 < options.l1 ∧ 0 < options.l2 ∧ ∃ v w a, getReg options = .elastic v w a) := by
  by_cases h1 : 0 < options.l1 <;> by_cases h2 : 0 < options.l2
  · exact Or.inr (Or.inr (Or.inr ⟨h1, h2, _, _, _, by
      simp [getReg, h1, h2]; exact ⟨rfl, rfl, rfl⟩⟩))
  · exact Or.inr (Or.inr (Or.inl ⟨h1, not_lt.mp h2, _, _, by simp [getReg, h1, h2]; exact ⟨rfl, rfl⟩⟩))
  · exact Or.inr (Or.inl ⟨not_lt.mp h1, h2, _, by simp [getReg, h1, h2]; rfl⟩)
  · exact Or.inl ⟨not_lt.mp h1, not_lt.mp h2, by simp [getReg, h1, h2]⟩

/-- C31.  The penalty of every fit: elastic net on the internal coefficients other than the
intercept, zero at zero, and independent of the intercept. -/
theorem C31_penalty (hd : raw.finalize std b = some d) {f : Fit ℝ n p b}
    (h : regression env g d options = .ok f) (γ : Vec ℝ (ncols b p)) :
    f.reg.likelihood γ = -(max options.l1 0 * ∑ j, |slopes b γ j|
      + max options.l2 0 / 2 * ∑ j, slopes b γ j ^ 2) ∧
    (f.reg.likelihood γ ≤ 0) ∧
    (slopes b γ = 0 → f.reg.likelihood γ = 0) := by
  obtain ⟨rfl, rfl, rfl, hf⟩ := regression_ofRaw hd h
  have e : f.reg.likelihood γ = -(max f.options.l1 0 * ∑ j, |slopes b γ j|
      + max f.options.l2 0 / 2 * ∑ j, slopes b γ j ^ 2) := by
    rw [hf.same.likelihood, getReg_likelihood]
    simp [penalty]
  refine ⟨e, ?_, ?_⟩
  · rw [e, neg_nonpos]
    have h1 : 0 ≤ ∑ j, |slopes b γ j| := Finset.sum_nonneg fun j _ => abs_nonneg _
    have h2 : 0 ≤ ∑ j, slopes b γ j ^ 2 := Finset.sum_nonneg fun j _ => sq_nonneg _
    have h3 := le_max_right f.options.l1 0
    have h4 := le_max_right f.options.l2 0
    positivity
  · intro h0; rw [e, h0]; simp

/-! ### C46 -/

/-- C46.  The iteration starts at the linear predictor of the user's guess; every recorded point has
as its likelihood the penalized log-likelihood of the user's data at that point. -/
theorem C46_external_scale (hd : raw.finalize std b = some d) {β₀ : Vec ℝ (ncols b p)}
    (hinit : options.initGuess = some β₀) :
    (∀ i, d.linearPredictorStd (initialGuess env g d options) i = linPred raw b β₀ i) ∧
    d.inverseTransformBeta (initialGuess env g d options) = β₀ ∧
    ∀ f, regression env g d options = .ok f →
      (f.history = [] → f.result = β₀) ∧
      (∀ st ∈ f.history,
        st.like = penLogLik g raw b options.l1 options.l2 (scale d) st.guess) ∧
      (options.l1 ≤ 0 → penLogLik g raw b options.l1 options.l2 (scale d) β₀
        ≤ penLogLik g raw b options.l1 options.l2 (scale d) f.result) := by
  have hwf := Dataset.finalize_wf hd
  have e : initialGuess env g d options = d.transformBeta β₀ := by
    unfold initialGuess; rw [hinit]
  have e2 : d.inverseTransformBeta (initialGuess env g d options) = β₀ := by
    rw [e, hwf.inverseTransformBeta_transformBeta]
  refine ⟨fun i => by rw [e, Dataset.finalize_linPred hd], e2, ?_⟩
  intro f h
  refine ⟨?_, ?_, ?_⟩
  · intro hn
    rcases C25_best_of_history h with ⟨-, -, h3, -⟩ | ⟨pre, opt, post, h3, -⟩
    · rw [h3, e2]
    · rw [hn] at h3; simp at h3
  · intro st hst
    obtain ⟨γ, h1, h2⟩ := (C27_recorded_likelihoods h).1 st hst
    rw [h2, objective_ext hd, h1]
  · intro hl1
    obtain ⟨rfl, rfl, rfl, hf⟩ := regression_ofRaw hd h
    have := (C26_monotone hl1 h).2.2
    rw [objective_ext hd, e2, hf.like] at this
    exact this

/-! ### Concrete cases -/

/-- The hypotheses of C09, C10, C31 and C46 are met by a Poisson fit with ridge penalty, with and
without standardization. -/
example (std : Bool) : ∃ d f, (exRaw ![1, 1, 1]).finalize std true = some d ∧
    regression (exactEnv (1 / 1000) 7) Family.poisson.glm d (exOpts 0 2 (some 0) 5) = .ok f ∧
    (exOpts 0 2 (some 0) 5 : FitOptions ℝ (ncols true 1)).l1 ≤ 0 ∧
    LawfulAdj (Family.poisson.glm (F := ℝ)) ∧ f.lrTestAgainst 0 = 0 := by
  obtain ⟨d, hd⟩ := exRaw_finalize ![1, 1, 1] std true
  obtain ⟨f, h1, -, -, h2⟩ := C22_stationary_start (options := exOpts 0 2 (some 0) 5)
    (exactEnv_exact (by norm_num : (0 : ℝ) ≤ 1 / 1000) 7) (Family.lawfulAdj .poisson) hd le_rfl rfl
    (exPoisson_newton _ _ (by norm_num [exactEnv]) _) (exPoisson_stationary _ _)
  refine ⟨d, f, hd, h1, le_rfl, Family.lawfulAdj .poisson, ?_⟩
  obtain ⟨-, -, -, h3, -⟩ := C10_external (Family.lawfulAdj .poisson) hd le_rfl h1
  rw [h3, h2, sub_self, mul_zero]

/-- Unregularized least-squares fits of the standardized and of the original data agree. -/
example : ∃ d₁ d₂ f₁ f₂, (exRaw ![1, 3, 5]).finalize true true = some d₁ ∧
    (exRaw ![1, 3, 5]).finalize false true = some d₂ ∧
    regression (exactEnv 0 0) Family.linear.glm d₁ (exOpts 0 0 none 1) = .ok f₁ ∧
    regression (exactEnv 0 0) Family.linear.glm d₂ (exOpts 0 0 none 1) = .ok f₂ ∧
    f₁.result = f₂.result := by
  obtain ⟨d₁, h₁⟩ := exLinSetting true 0 le_rfl 0 1 none
  obtain ⟨d₂, h₂⟩ := exLinSetting false 0 le_rfl 0 1 none
  obtain ⟨f₁, a1, a2, -⟩ := C57_exact_least_squares h₁ rfl le_rfl
  obtain ⟨f₂, b1, b2, -⟩ := C57_exact_least_squares h₂ rfl le_rfl
  exact ⟨d₁, d₂, f₁, f₂, h₁.built, h₂.built, a1, b1, a2.trans b2.symm⟩

end GLM
