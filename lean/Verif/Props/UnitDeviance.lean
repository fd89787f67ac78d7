/-
  C81: the deviance is the textbook deviance of the family.
-/
import Verif.Props.Calibration
import Verif.Spec.Deviance

namespace GLM
open Spec Matrix Set
variable {n p : ℕ} {b : Bool} {env : Env ℝ} {raw : Dataset ℝ n p false} {std : Bool}

private theorem mul_log_div {y μ : ℝ} (hμ : μ ≠ 0) :
    y * Real.log (y / μ) = y * Real.log y - y * Real.log μ := by
  rcases eq_or_ne y 0 with rfl | hy
  · simp
  · rw [Real.log_div hy hμ]; ring

/-- Twice the log-likelihood lacking at mean `μ`. -/
theorem unitDeviance_eq (fam : Family) {y μ : ℝ} (hy : y ∈ yDom fam) (hμ : μ ∈ meanDom fam) :
    2 * ((fam.glm (F := ℝ)).logLikeSat y
      - (fam.glm (F := ℝ)).logLikeNatural y (canonicalLink fam μ)) = unitDeviance fam y μ := by
  rw [logLikeSat_real, logLikeNatural_real]
  have logi : ∀ N : ℝ, 0 < μ → μ < N → y * Real.log (μ / (N - μ))
      - N * Real.log (1 + Real.exp (Real.log (μ / (N - μ))))
      = y * Real.log μ + (N - y) * Real.log (N - μ) - N * Real.log N := by
    intro N h0 h1
    have h1 : 0 < N - μ := by linarith
    have hN : 0 < N := by linarith
    rw [Real.exp_log (by positivity)]
    have : 1 + μ / (N - μ) = N / (N - μ) := by field_simp; ring
    rw [this, Real.log_div h0.ne' h1.ne', Real.log_div hN.ne' h1.ne']
    ring
  have gam : 0 < y → 0 < μ → 2 * (-(1 + Real.log y) - (y * (-1 / μ) - -Real.log (-(-1 / μ))))
      = 2 * (-Real.log (y / μ) + (y - μ) / μ) := by
    intro h0 h1
    have : -(-1 / μ) = μ⁻¹ := by field_simp
    rw [this, Real.log_inv, Real.log_div h0.ne' h1.ne']; field_simp; ring
  have ig : 0 < y → 0 < μ → 2 * (1 / 2 * (1 / y) - (y * (-1 / (2 * μ ^ 2))
      - -Real.sqrt (-2 * (-1 / (2 * μ ^ 2))))) = (y - μ) ^ 2 / (μ ^ 2 * y) := by
    intro h0 h1
    have : -2 * (-1 / (2 * μ ^ 2)) = (1 / μ) ^ 2 := by field_simp
    rw [this, Real.sqrt_sq (by positivity)]; field_simp; ring
  cases fam <;> simp only [meanDom, yDom, mem_Ioo, mem_Icc, mem_Ici, mem_Ioi, canonicalLink, cumulant,
    mem_univ, unitDeviance] at *
  case linear => ring
  case logisticLogit =>
    have h1 : (1 : ℝ) - μ ≠ 0 := by linarith
    have := logi 1 hμ.1 hμ.2
    rw [one_mul, Real.log_one] at this
    rw [this, mul_log_div hμ.1.ne', mul_log_div h1]
    ring
  case logisticCloglog =>
    have h1 : (1 : ℝ) - μ ≠ 0 := by linarith
    have := logi 1 hμ.1 hμ.2
    rw [one_mul, Real.log_one] at this
    rw [this, mul_log_div hμ.1.ne', mul_log_div h1]
    ring
  case poisson => rw [Real.exp_log hμ, mul_log_div hμ.ne']; ring
  case binomial N =>
    have h1 : (N : ℝ) - μ ≠ 0 := by linarith
    rw [logi N hμ.1 hμ.2, mul_log_div hμ.1.ne', mul_log_div h1]
    ring
  case invGaussNegRecSq => exact ig hy hμ
  case invGaussLog => exact ig hy hμ
  all_goals exact gam hy hμ

section
variable {fam : Family} {d : Dataset ℝ n p b} {options : FitOptions ℝ (ncols b p)} {f : Fit ℝ n p b}

/-- **C81**: for every family of the crate, responses in its domain and admissible means, the deviance
is the sum of the textbook unit deviances of responses and fitted values, weighted with the variance
weights and frequencies. -/
theorem C81_deviance (hd : raw.finalize std b = some d) (h : regression env fam.glm d options = .ok f)
    (hv : ValidFamily fam) (hy : ∀ i, raw.y i ∈ yDom fam) (ha : Admissible fam raw b f.result) :
    f.deviance = ∑ i, totalWt raw i * unitDeviance fam (raw.y i) (f.yHat i) := by
  rw [C36_deviance hd h]
  obtain ⟨g1, -, -, hf⟩ := regression_ofRaw hd h
  rw [satLik, logLik, ← Finset.sum_sub_distrib, Finset.mul_sum]
  refine Finset.sum_congr rfl fun i _ => ?_
  have hm : f.yHat i ∈ meanDom fam := by
    rw [hf.mean, g1]; exact funcInv_mem fam hv (ha i)
  rw [← unitDeviance_eq fam (hy i) hm, logLikAt, natParam_eq fam hv (ha i), hf.mean, g1, meanAt]
  ring

/-- **C81**: each deviance residual is the signed square root of the weighted unit deviance. -/
theorem C81_resid_dev (hd : raw.finalize std b = some d) (h : regression env fam.glm d options = .ok f)
    (hv : ValidFamily fam) (hy : ∀ i, raw.y i ∈ yDom fam) (ha : Admissible fam raw b f.result)
    (i : Fin n) : f.residDev i = (if raw.y i < f.yHat i then -1 else 1)
      * Real.sqrt (varWt raw i * unitDeviance fam (raw.y i) (f.yHat i)) := by
  obtain ⟨g1, rfl, rfl, hf⟩ := regression_ofRaw hd h
  have hm : f.yHat i ∈ meanDom fam := by
    rw [hf.mean, g1]; exact funcInv_mem fam hv (ha i)
  rw [Fit.residDev, hf.residResp, hf.devianceTerms, sqrt_real, signum_real,
    ← unitDeviance_eq fam (hy i) hm, logLikAt, g1, natParam_eq fam hv (ha i), hf.mean, g1]
  simp only [sub_neg]
  rfl

/-- **C81** (intercept).  With an intercept and a vanishing intercept entry of the score, the deviance of
a Poisson fit is `2 Σ w y log(y/ŷ)`, and that of an Exponential or Gamma fit with a logarithmic link is
`2 Σ w log(ŷ/y)`, with any penalties. -/
theorem C81_intercept {d : Dataset ℝ n p true} {options : FitOptions ℝ (ncols true p)}
    {f : Fit ℝ n p true} (hd : raw.finalize std true = some d)
    (h : regression env fam.glm d options = .ok f) (hy : ∀ i, raw.y i ∈ yDom fam)
    (hs : f.score f.result (0 : Fin (p + 1)) = 0) :
    (fam = .poisson →
      f.deviance = 2 * ∑ i, totalWt raw i * (raw.y i * Real.log (raw.y i / f.yHat i))) ∧
    (fam = .exponentialLog ∨ fam = .gammaLog →
      f.deviance = 2 * ∑ i, totalWt raw i * Real.log (f.yHat i / raw.y i)) := by
  constructor
  · rintro rfl
    have h1 := C81_deviance hd h trivial hy (fun _ => mem_univ _)
    have h2 := C80_means (fam := .poisson) trivial hd h (τ := 0) (by rw [hs, abs_zero])
    have h3 := sub_eq_zero.mp (abs_nonpos_iff.mp h2)
    rw [h1]
    have e : ∀ i, totalWt raw i * unitDeviance .poisson (raw.y i) (f.yHat i)
        = 2 * (totalWt raw i * (raw.y i * Real.log (raw.y i / f.yHat i)))
          - 2 * (totalWt raw i * raw.y i) + 2 * (totalWt raw i * f.yHat i) := by
      intro i; simp only [unitDeviance]; ring
    simp only [e, Finset.sum_add_distrib, Finset.sum_sub_distrib, ← Finset.mul_sum, h3]
    ring
  · intro hl
    have hv : ValidFamily fam := by rcases hl with rfl | rfl <;> trivial
    have ha : Admissible fam raw true f.result := by
      rcases hl with rfl | rfl <;> exact fun _ => mem_univ _
    have h1 := C81_deviance hd h hv hy ha
    have h2 := C80_ratios hl hd h hs
    obtain ⟨g1, -, -, hf⟩ := regression_ofRaw hd h
    have hpos : ∀ i, 0 < f.yHat i := by
      intro i
      rw [hf.mean, g1, meanAt]
      rcases hl with rfl | rfl <;> exact Real.exp_pos _
    rw [h1]
    have e : ∀ i, totalWt raw i * unitDeviance fam (raw.y i) (f.yHat i)
        = 2 * (totalWt raw i * Real.log (f.yHat i / raw.y i))
          + 2 * (totalWt raw i * (raw.y i / f.yHat i)) - 2 * totalWt raw i := by
      intro i
      have hu : unitDeviance fam (raw.y i) (f.yHat i)
          = 2 * (-Real.log (raw.y i / f.yHat i) + (raw.y i - f.yHat i) / f.yHat i) := by
        rcases hl with rfl | rfl <;> rfl
      rw [hu, ← Real.log_inv, inv_div, sub_div, div_self (hpos i).ne']
      ring
    simp only [e, Finset.sum_add_distrib, Finset.sum_sub_distrib, ← Finset.mul_sum, h2, weightSum]
    ring

/-- **C81** (inverse link).  For an Exponential or Gamma fit with the negative reciprocal link, without
offset and penalty, whose score vanishes, the deviance also is `2 Σ w log(ŷ/y)`. -/
theorem C81_reciprocal (hl : fam = .exponentialNegRec ∨ fam = .gammaNegRec)
    (hd : raw.finalize std b = some d) (hl1 : options.l1 ≤ 0) (hl2 : options.l2 ≤ 0)
    (h : regression env fam.glm d options = .ok f) (ho : raw.linearOffset = none)
    (hy : ∀ i, raw.y i ∈ yDom fam) (ha : Admissible fam raw b f.result)
    (hs : f.score f.result = 0) :
    f.deviance = 2 * ∑ i, totalWt raw i * Real.log (f.yHat i / raw.y i) := by
  have hv : ValidFamily fam := by rcases hl with rfl | rfl <;> trivial
  have hc : IsCanonical fam := by rcases hl with rfl | rfl <;> trivial
  have h1 := C81_deviance hd h hv hy ha
  have h2 := C80_features hc hd hl1 hl2 h hs
  obtain ⟨g1, -, -, hf⟩ := regression_ofRaw hd h
  have hneg : ∀ i, linPred raw b f.result i < 0 := by
    intro i; have := ha i; rcases hl with rfl | rfl <;> exact this
  have hmu : ∀ i, f.yHat i = -(linPred raw b f.result i)⁻¹ := by
    intro i
    rw [hf.mean, g1, meanAt, funcInv_real]
    rcases hl with rfl | rfl <;> field_simp
  have e : ∀ i, totalWt raw i * unitDeviance fam (raw.y i) (f.yHat i)
      = 2 * (totalWt raw i * Real.log (f.yHat i / raw.y i))
        + 2 * ∑ j, f.result j * (totalWt raw i * f.yHat i * design b raw.x i j
          - totalWt raw i * raw.y i * design b raw.x i j) := by
    intro i
    have hu : unitDeviance fam (raw.y i) (f.yHat i)
        = 2 * (-Real.log (raw.y i / f.yHat i) + (raw.y i - f.yHat i) / f.yHat i) := by
      rcases hl with rfl | rfl <;> rfl
    have hlin : linPred raw b f.result i = ∑ j, design b raw.x i j * f.result j := by
      simp [linPred, offset, ho]
    have hsum : ∑ j, f.result j * (totalWt raw i * f.yHat i * design b raw.x i j
          - totalWt raw i * raw.y i * design b raw.x i j)
        = totalWt raw i * (f.yHat i - raw.y i) * linPred raw b f.result i := by
      rw [hlin, Finset.mul_sum]
      exact Finset.sum_congr rfl fun j _ => by ring
    have hq : (raw.y i - f.yHat i) / f.yHat i
        = (f.yHat i - raw.y i) * linPred raw b f.result i := by
      have := (hneg i).ne
      rw [hmu]
      field_simp
      ring
    rw [hu, ← Real.log_inv, inv_div, hsum, hq]
    ring
  rw [h1]
  simp only [e, Finset.sum_add_distrib, ← Finset.mul_sum]
  rw [Finset.sum_comm]
  have : ∑ j, ∑ i, f.result j * (totalWt raw i * f.yHat i * design b raw.x i j
          - totalWt raw i * raw.y i * design b raw.x i j) = 0 :=
    Finset.sum_eq_zero fun j _ => by
      rw [← Finset.mul_sum, Finset.sum_sub_distrib, h2 j, sub_self, mul_zero]
  rw [this, mul_zero, add_zero]

end
/-! ### Non-vacuity -/

/-- Gamma regression with a logarithmic link: `C81_deviance`, `C81_resid_dev` and `C81_intercept`. -/
example (std : Bool) (m : ℕ) : ∃ d f, (exRaw ![3 / 2, 1 / 2, 3 / 2]).finalize std true = some d ∧
    regression (exactEnv (1 / 1000) 7) Family.gammaLog.glm d (exOpts 0 0 (some 0) m) = .ok f ∧
    ValidFamily .gammaLog ∧ (∀ i, (exRaw ![3 / 2, 1 / 2, 3 / 2]).y i ∈ yDom .gammaLog) ∧
    Admissible .gammaLog (exRaw ![3 / 2, 1 / 2, 3 / 2]) true f.result ∧
    f.deviance = 2 * ∑ i, totalWt (exRaw ![3 / 2, 1 / 2, 3 / 2]) i
      * Real.log (f.yHat i / (exRaw ![3 / 2, 1 / 2, 3 / 2]).y i) := by
  obtain ⟨d, f, hd, h1, h2⟩ := exGammaLogFit std m
  have hy : ∀ i, (exRaw ![3 / 2, 1 / 2, 3 / 2]).y i ∈ yDom .gammaLog := by
    intro i
    change (0 : ℝ) < ![3 / 2, 1 / 2, 3 / 2] i
    fin_cases i <;> norm_num
  exact ⟨d, f, hd, h1, trivial, hy, fun _ => mem_univ _,
    (C81_intercept hd h1 hy (congrFun h2 _)).2 (.inr rfl)⟩

/-- Gamma regression with its canonical link: `C81_reciprocal`. -/
example (std : Bool) (m : ℕ) : ∃ d f, (exRaw ![3 / 2, 1 / 2, 3 / 2]).finalize std true = some d ∧
    regression (exactEnv (1 / 1000) 7) Family.gammaNegRec.glm d (exOpts 0 0 (some ![-1, 0]) m)
      = .ok f ∧
    f.deviance = 2 * ∑ i, totalWt (exRaw ![3 / 2, 1 / 2, 3 / 2]) i
      * Real.log (f.yHat i / (exRaw ![3 / 2, 1 / 2, 3 / 2]).y i) := by
  obtain ⟨d, hd⟩ := exRaw_finalize ![3 / 2, 1 / 2, 3 / 2] std true
  have hlin : ∀ i, linPred (exRaw ![3 / 2, 1 / 2, 3 / 2]) true ![-1, 0] i = -1 := fun i => by
    refine (exRaw_linPred _ _ i).trans ?_
    simp
  have hst : ∀ σ, penScore Family.gammaNegRec.glm (exRaw ![3 / 2, 1 / 2, 3 / 2]) true 0 0 σ ![-1, 0]
      = 0 := by
    intro σ
    funext j
    have hm : (Family.gammaNegRec.glm (F := ℝ)).link.funcInv (-1) = 1 := by
      rw [funcInv_real]; norm_num
    simp only [penScore, scoreVec, meanAt, hlin, dNatParam_canonical (fam := .gammaNegRec) trivial, hm,
      Fin.sum_univ_three, exRaw_totalWt, max_self, zero_mul, add_zero, onSlopes_zero]
    change Fin 2 at j
    fin_cases j <;> simp [design, exRaw] <;> norm_num
  generalize hβ : (![-1, 0] : Vec ℝ (ncols true 1)) = β at hst hlin
  obtain ⟨f, h1, -, -, h2⟩ := C22_stationary_start (options := exOpts 0 0 (some β) m)
    (exactEnv_exact (by norm_num : (0 : ℝ) ≤ 1 / 1000) 7) (Family.lawfulAdj .gammaNegRec) hd le_rfl rfl
    ((isUnit_iff_isUnit_det _).mp
      (C30_fullRank_posDef (by norm_num [exactEnv]) (fun i => (exRaw_totalWt_pos _ i).le)
      (fun _ => Family.variance_nonneg .gammaNegRec trivial _) (exRaw_gram_det _)).isUnit)
    (by simpa only [exOpts] using hst (scale d))
  have hy : ∀ i, (exRaw ![3 / 2, 1 / 2, 3 / 2]).y i ∈ yDom .gammaNegRec := by
    intro i
    change (0 : ℝ) < ![3 / 2, 1 / 2, 3 / 2] i
    fin_cases i <;> norm_num
  refine ⟨d, f, hd, hβ ▸ h1, C81_reciprocal (.inr rfl) hd le_rfl le_rfl h1 rfl hy ?_ ?_⟩
  · intro i
    change linPred _ _ _ _ < 0
    rw [h2, hlin]
    norm_num
  · rw [(C10_external (Family.lawfulAdj .gammaNegRec) hd le_rfl h1).2.1 f.result, h2]
    exact hst _

end GLM
