/-
  C110: counts with exposures: rates, rate ratios and aggregation.
-/
import Verif.Spec.Exposure
import Verif.Props.TwoArms
import Verif.Props.Optimum

namespace GLM
open Spec Matrix
variable {n m p : ℕ} {b : Bool} {env env' env'' : Env ℝ}

/-! ### Poisson regression with exposures -/

/-- The linear predictor without the offset. -/
noncomputable def bare (x : Mat ℝ n p) (b : Bool) (β : Vec ℝ (ncols b p)) (i : Fin n) : ℝ :=
  ∑ j, design b x i j * β j

theorem exposure_linPred {raw : Dataset ℝ n p false} {e : Fin n → ℝ} (h : HasExposure raw e)
    (β : Vec ℝ (ncols b p)) (i : Fin n) : linPred raw b β i = bare raw.x b β i + Real.log (e i) := by
  rw [linPred, offset, h.offset]
  rfl

theorem exposure_mean {raw : Dataset ℝ n p false} {e : Fin n → ℝ} (h : HasExposure raw e)
    (β : Vec ℝ (ncols b p)) (i : Fin n) :
    meanAt Family.poisson.glm raw b β i = e i * Real.exp (bare raw.x b β i) := by
  rw [meanAt, funcInv_real]
  change Real.exp _ = _
  rw [exposure_linPred h, Real.exp_add, Real.exp_log (h.pos i), mul_comm]

theorem exposure_score {raw : Dataset ℝ n p false} {e : Fin n → ℝ} (h : HasExposure raw e)
    (β : Vec ℝ (ncols b p)) (j : Fin (ncols b p)) : scoreVec Family.poisson.glm raw b β j
      = ∑ i, totalWt raw i * (raw.y i - e i * Real.exp (bare raw.x b β i)) * design b raw.x i j := by
  refine Finset.sum_congr rfl fun i _ => ?_
  rw [exposure_mean h, dNatParam_canonical (fam := .poisson) trivial, mul_one]

theorem exposure_fisher {raw : Dataset ℝ n p false} {e : Fin n → ℝ} (h : HasExposure raw e)
    (β : Vec ℝ (ncols b p)) (j k : Fin (ncols b p)) : fisherMat Family.poisson.glm raw b β j k
      = ∑ i, totalWt raw i * (e i * Real.exp (bare raw.x b β i)) * design b raw.x i j * design b raw.x i k := by
  refine Finset.sum_congr rfl fun i _ => ?_
  rw [exposure_mean h, dNatParam_canonical (fam := .poisson) trivial, variance_real]
  simp [varianceFn]

theorem poisson_data {raw : Dataset ℝ n p false} {std : Bool} {d : Dataset ℝ n p b}
    {o : FitOptions ℝ (ncols b p)} {f : Fit ℝ n p b} (hd : raw.finalize std b = some d)
    (h : regression env Family.poisson.glm d o = .ok f) :
    Matrix.of (f.data.inverseTransformFisher (f.fisherDataStd f.resultStd))
      = fisherMat Family.poisson.glm raw b f.result := by
  obtain ⟨hg, rfl, rfl, hf⟩ := regression_ofRaw hd h
  rw [← hg, ← Dataset.finalize_fisher (hg ▸ Family.lawfulAdj .poisson) hd, ← hf.resultStd]
  exact f.data.inverseTransformFisher_eq _

/-! ### Aggregation -/

section
variable {c : Fin n → Fin m} {raw : Dataset ℝ n p false} {e : Fin n → ℝ} {agg : Dataset ℝ m p false}
  {e' : Fin m → ℝ} (h : Aggregates c raw e agg e')
include h

theorem agg_design (i : Fin n) (j : Fin (ncols b p)) : design b raw.x i j = design b agg.x (c i) j := by
  cases b
  · exact congrFun (h.features i) j
  · refine Fin.cases rfl (fun j => ?_) j
    exact congrFun (h.features i) j

theorem agg_bare (β : Vec ℝ (ncols b p)) (i : Fin n) : bare raw.x b β i = bare agg.x b β (c i) := by
  simp only [bare, agg_design h]

omit h in
theorem sum_cells (c : Fin n → Fin m) (G : Fin n → ℝ) :
    ∑ i, G i = ∑ k, ∑ i ∈ Finset.univ.filter (c · = k), G i :=
  (Finset.sum_fiberwise_of_maps_to (fun _ _ => Finset.mem_univ _) G).symm

/-- **C110** (aggregation).  Putting together observations with equal features does not change the score or
the information at any coefficients, and changes the log-likelihood by a constant. -/
theorem C110_aggregate (b : Bool) : (∀ β : Vec ℝ (ncols b p),
      scoreVec Family.poisson.glm raw b β = scoreVec Family.poisson.glm agg b β ∧
      fisherMat Family.poisson.glm raw b β = fisherMat Family.poisson.glm agg b β) ∧
    ∃ K, ∀ β : Vec ℝ (ncols b p),
      logLik Family.poisson.glm raw b β = logLik Family.poisson.glm agg b β + K := by
  refine ⟨fun β => ⟨funext fun j => ?_, ?_⟩, ?_⟩
  · rw [exposure_score h.exposure, exposure_score h.exposure', sum_cells c]
    refine Finset.sum_congr rfl fun k _ => ?_
    rw [h.events, h.total, Finset.sum_mul, ← Finset.sum_sub_distrib, Finset.mul_sum, Finset.sum_mul]
    refine Finset.sum_congr rfl fun i hi => ?_
    rw [h.weights, agg_bare h, agg_design h, (Finset.mem_filter.mp hi).2]
  · ext j k'
    rw [exposure_fisher h.exposure, exposure_fisher h.exposure', sum_cells c]
    refine Finset.sum_congr rfl fun k _ => ?_
    rw [h.total, Finset.sum_mul, Finset.mul_sum, Finset.sum_mul, Finset.sum_mul]
    refine Finset.sum_congr rfl fun i hi => ?_
    rw [h.weights, agg_bare h, agg_design h, agg_design h, (Finset.mem_filter.mp hi).2]
  · have key : ∀ {n : ℕ} {raw : Dataset ℝ n p false} {e : Fin n → ℝ}, HasExposure raw e →
        ∀ β : Vec ℝ (ncols b p), logLik Family.poisson.glm raw b β
          = ∑ i, totalWt raw i * (raw.y i * bare raw.x b β i - e i * Real.exp (bare raw.x b β i))
            + ∑ i, totalWt raw i * (raw.y i * Real.log (e i)) := by
      intro n raw e he β
      rw [logLik, ← Finset.sum_add_distrib]
      refine Finset.sum_congr rfl fun i _ => ?_
      rw [logLikAt, natParam_real, logLikeNatural_real]
      simp only [cumulant]
      rw [exposure_linPred he, Real.exp_add, Real.exp_log (he.pos i)]
      ring
    refine ⟨∑ i, totalWt raw i * (raw.y i * Real.log (e i)) - ∑ k, totalWt agg k * (agg.y k * Real.log (e' k)),
      fun β => ?_⟩
    have hcell : ∑ i, totalWt raw i * (raw.y i * bare raw.x b β i - e i * Real.exp (bare raw.x b β i))
        = ∑ k, totalWt agg k * (agg.y k * bare agg.x b β k - e' k * Real.exp (bare agg.x b β k)) := by
      rw [sum_cells c]
      refine Finset.sum_congr rfl fun k _ => ?_
      rw [h.events, h.total, Finset.sum_mul, Finset.sum_mul, ← Finset.sum_sub_distrib, Finset.mul_sum]
      refine Finset.sum_congr rfl fun i hi => ?_
      rw [h.weights, agg_bare h, (Finset.mem_filter.mp hi).2]
    rw [key h.exposure, key h.exposure', hcell]
    ring

/-- **C110** (aggregated fits).  Hence Poisson fits without penalties, of the observations and of the cells, at
which the score vanishes agree when the features are linearly independent: in their coefficients, and in
covariances, z statistics and the three test statistics against any alternative. -/
theorem C110_aggregate_fit {std std' : Bool} {d : Dataset ℝ n p b} {d' : Dataset ℝ m p b}
    {o o' : FitOptions ℝ (ncols b p)} {f : Fit ℝ n p b} {f' : Fit ℝ m p b}
    (hd : raw.finalize std b = some d) (hd' : agg.finalize std' b = some d')
    (hf : regression env Family.poisson.glm d o = .ok f) (hf' : regression env' Family.poisson.glm d' o' = .ok f')
    (hl : o.l1 ≤ 0 ∧ o.l2 ≤ 0) (hl' : o'.l1 ≤ 0 ∧ o'.l2 ≤ 0)
    (hw : ∀ i, 0 ≤ totalWt raw i) (hrank : IsUnit (gram raw b).det)
    (hs : f.score f.result = 0) (hs' : f'.score f'.result = 0) :
    f'.result = f.result ∧ f'.covariance env'' = f.covariance env'' ∧ f'.waldZ env'' = f.waldZ env'' ∧
    ∀ β, f'.lrTestAgainst β = f.lrTestAgainst β ∧ f'.waldTestAgainst β = f.waldTestAgainst β ∧
      f'.scoreTestAgainst env'' β = f.scoreTestAgainst env'' β := by
  obtain ⟨hag, K, hK⟩ := C110_aggregate h b
  obtain ⟨-, a2, a3, a4, a5, -⟩ := C10_external (Family.lawfulAdj .poisson) hd hl.1 hf
  obtain ⟨-, c2, c3, c4, c5, -⟩ := C10_external (Family.lawfulAdj .poisson) hd' hl'.1 hf'
  have pen0 : ∀ {n : ℕ} (raw : Dataset ℝ n p false) (l1 l2 : ℝ) (σ : Fin p → ℝ) (β : Vec ℝ (ncols b p)),
      l1 ≤ 0 → l2 ≤ 0 → penScore Family.poisson.glm raw b l1 l2 σ β = scoreVec Family.poisson.glm raw b β ∧
      penLogLik Family.poisson.glm raw b l1 l2 σ β = logLik Family.poisson.glm raw b β ∧
      ridgeMat l2 σ b = 0 := by
    intro n raw l1 l2 σ β h1 h2
    refine ⟨?_, by simp [penLogLik, penalty, max_eq_right h1, max_eq_right h2], ?_⟩
    · funext j
      simp only [penScore, max_eq_right h1, max_eq_right h2, zero_mul, add_zero, onSlopes_zero, sub_zero]
    · rw [ridgeMat, max_eq_right h2]; simp [onSlopes_zero]
  have sc : ∀ β, f'.score β = f.score β := fun β => by
    rw [a2, c2, (pen0 raw _ _ _ β hl.1 hl.2).1, (pen0 agg _ _ _ β hl'.1 hl'.2).1, (hag β).1]
  have fi : ∀ β, f'.fisher β = f.fisher β := fun β => by
    have : Matrix.of (f'.fisher β) = Matrix.of (f.fisher β) := by
      rw [a3, c3, (pen0 raw _ _ _ β hl.1 hl.2).2.2, (pen0 agg _ _ _ β hl'.1 hl'.2).2.2, (hag β).2]
    exact Matrix.of.injective this
  have hr : f'.result = f.result := by
    by_contra hne
    have hc : Spec.Concave .poisson raw := ⟨trivial, trivial, Or.inl trivial, hw⟩
    have hpd : (gram raw b + ridgeMat 0 (fun _ => 1) b).PosDef := by
      rw [(pen0 raw 0 0 (fun _ => 1) 0 le_rfl le_rfl).2.2, add_zero]
      refine PosDef.of_dotProduct_mulVec_pos (isHermitian_of_symm gram_symm) fun x hx => ?_
      rw [show star x = x from by ext; simp]
      exact gram_pos hw hrank hx
    have z : ∀ β, f.score β = 0 → penScore Family.poisson.glm raw b 0 0 (fun _ => 1) β = 0 := fun β hβ => by
      rw [(pen0 raw 0 0 _ β le_rfl le_rfl).1, ← (pen0 raw o.l1 o.l2 (scale d) β hl.1 hl.2).1, ← a2, hβ]
    have h1 := C29_unique_optimum hc (fun _ => one_pos) hpd (fun _ => trivial) (z _ hs)
      (fun _ => trivial) hne
    have h2 := C29_unique_optimum hc (fun _ => one_pos) hpd (fun _ => trivial)
      (z _ ((sc _).symm.trans hs')) (fun _ => trivial) (Ne.symm hne)
    exact lt_asymm h1 h2
  have hφ : f.dispersion = 1 := C42_fixed hd hf rfl
  have hφ' : f'.dispersion = 1 := C42_fixed hd' hf' rfl
  have hcov : f'.covariance env'' = f.covariance env'' := by
    have dat : f'.data.inverseTransformFisher (f'.fisherDataStd f'.resultStd)
        = f.data.inverseTransformFisher (f.fisherDataStd f.resultStd) := by
      have e := poisson_data hd hf
      have e' := poisson_data hd' hf'
      rw [hr, ← (hag f.result).2, ← e] at e'
      exact Matrix.of.injective e'
    unfold Fit.covariance Fit.fisherInv
    rw [fi, hr, dat, hφ, hφ']
  refine ⟨hr, hcov, ?_, fun β => ⟨?_, ?_, ?_⟩⟩
  · unfold Fit.waldZ
    rw [hcov, hr]
  · rw [a4, c4, (pen0 raw _ _ _ _ hl.1 hl.2).2.1, (pen0 agg _ _ _ _ hl'.1 hl'.2).2.1,
      (pen0 raw _ _ _ _ hl.1 hl.2).2.1, (pen0 agg _ _ _ _ hl'.1 hl'.2).2.1, hK, hK, hr]
    ring
  · rw [a5, c5, (pen0 raw _ _ _ β hl.1 hl.2).2.2, (pen0 agg _ _ _ β hl'.1 hl'.2).2.2, (hag β).2, hr]
  · unfold Fit.scoreTestAgainst
    rw [sc, fi]

end
/-! ### Rates in two arms -/

section
variable {raw : Dataset ℝ n 1 false} {e : Fin n → ℝ} {std : Bool} {d : Dataset ℝ n 1 true}
  {o : FitOptions ℝ (ncols true 1)} {f : Fit ℝ n 1 true}

theorem bare_arm (β : Vec ℝ (ncols true 1)) {a : ℝ} {i : Fin n} (hi : i ∈ arm raw a) :
    bare raw.x true β i = icpt β + a * diff β := by
  rw [bare]
  refine (Fin.sum_univ_two _).trans ?_
  change 1 * β (0 : Fin 2) + raw.x i 0 * β (1 : Fin 2) = _
  rw [mem_arm.mp hi, one_mul]
  rfl

theorem arms_vector (h : TwoArms raw) (c : Fin n → ℝ) :
    ∑ i, c i * design true raw.x i (0 : Fin 2) = ∑ i ∈ arm raw 0, c i + ∑ i ∈ arm raw 1, c i ∧
    ∑ i, c i * design true raw.x i (1 : Fin 2) = ∑ i ∈ arm raw 1, c i := by
  constructor
  · rw [← sum_arms h]
    exact Finset.sum_congr rfl fun i _ => mul_one _
  · rw [sum_arms h]
    have h0 : ∀ i ∈ arm raw 0, c i * design true raw.x i (1 : Fin 2) = 0 := fun i hi => by
      rw [show design true raw.x i (1 : Fin 2) = 0 from mem_arm.mp hi, mul_zero]
    have h1 : ∀ i ∈ arm raw 1, c i * design true raw.x i (1 : Fin 2) = c i := fun i hi => by
      rw [show design true raw.x i (1 : Fin 2) = 1 from mem_arm.mp hi, mul_one]
    rw [Finset.sum_eq_zero h0, Finset.sum_congr rfl h1, zero_add]

theorem arms_matrix (h : TwoArms raw) (c : Fin n → ℝ) :
    (fun j k : Fin 2 => ∑ i, c i * design true raw.x i j * design true raw.x i k)
      = (!![∑ i ∈ arm raw 0, c i + ∑ i ∈ arm raw 1, c i, ∑ i ∈ arm raw 1, c i;
          ∑ i ∈ arm raw 1, c i, ∑ i ∈ arm raw 1, c i] : Matrix (Fin 2) (Fin 2) ℝ) := by
  have hd0 : ∀ i, design true raw.x i (0 : Fin 2) = 1 := fun _ => rfl
  have hd1 : ∀ i, design true raw.x i (1 : Fin 2) * design true raw.x i (1 : Fin 2)
      = design true raw.x i (1 : Fin 2) := fun i => by
    rcases h i with h | h
    · rw [show design true raw.x i (1 : Fin 2) = 0 from h, mul_zero]
    · rw [show design true raw.x i (1 : Fin 2) = 1 from h, mul_one]
  obtain ⟨v0, v1⟩ := arms_vector h c
  funext j k
  fin_cases j <;> fin_cases k
  · refine Eq.trans (Finset.sum_congr rfl fun i _ => ?_) v0
    exact mul_one _
  · refine Eq.trans (Finset.sum_congr rfl fun i _ => ?_) v1
    exact congrArg (· * _) (mul_one (c i))
  · refine Eq.trans (Finset.sum_congr rfl fun i _ => ?_) v1
    exact mul_one _
  · refine Eq.trans (Finset.sum_congr rfl fun i _ => ?_) v1
    exact (mul_assoc _ _ _).trans (congrArg (c i * ·) (hd1 i))

theorem arm_expected (β : Vec ℝ (ncols true 1)) (a : ℝ) :
    ∑ i ∈ arm raw a, totalWt raw i * (e i * Real.exp (bare raw.x true β i))
      = armExposure raw e a * Real.exp (icpt β + a * diff β) := by
  rw [armExposure, Finset.sum_mul]
  refine Finset.sum_congr rfl fun i hi => ?_
  rw [bare_arm β hi]; ring

variable (h : RateFit env raw e std d o f)
include h

/-- The fit reproduces the number of events of each arm. -/
theorem rate_events : armExposure raw e 0 * Real.exp (icpt f.result) = armSum raw 0 ∧
    armExposure raw e 1 * Real.exp (icpt f.result + diff f.result) = armSum raw 1 := by
  have hs := h.score
  rw [(C10_external (Family.lawfulAdj .poisson) h.built h.l1 h.fit).2.1] at hs
  have hp : penScore Family.poisson.glm raw true o.l1 o.l2 (scale d) f.result
      = scoreVec Family.poisson.glm raw true f.result := by
    funext j
    simp only [penScore, max_eq_right h.l1, max_eq_right h.l2, zero_mul, add_zero, onSlopes_zero, sub_zero]
  rw [hp] at hs
  obtain ⟨v0, v1⟩ := arms_vector h.arms
    fun i => totalWt raw i * (raw.y i - e i * Real.exp (bare raw.x true f.result i))
  have z0 := (exposure_score h.exposure f.result (0 : Fin 2)).symm.trans (congrFun hs (0 : Fin 2))
  have z1 := (exposure_score h.exposure f.result (1 : Fin 2)).symm.trans (congrFun hs (1 : Fin 2))
  have s : ∀ a, ∑ i ∈ arm raw a, totalWt raw i * (raw.y i - e i * Real.exp (bare raw.x true f.result i))
      = armSum raw a - armExposure raw e a * Real.exp (icpt f.result + a * diff f.result) := by
    intro a
    rw [← arm_expected, armSum, ← Finset.sum_sub_distrib]
    exact Finset.sum_congr rfl fun i _ => mul_sub _ _ _
  have w0 := v0.symm.trans z0
  have w1 := v1.symm.trans z1
  rw [s, s] at w0
  rw [s] at w1
  simp only [Pi.zero_apply, zero_mul, add_zero, one_mul] at w0 w1
  constructor <;> linarith

/-- **C110** (rate ratio).  For Poisson counts in two arms, with the logarithm of the exposure as offset, the
intercept is the logarithm of the events per unit of exposure in arm 0, the coefficient the logarithm of the
ratio of these rates, and their variances are `1 / D₀` and `1 / D₀ + 1 / D₁` with `D` the events of an arm. -/
theorem C110_rates (he : env'.Exact) : 0 < armSum raw 0 ∧ 0 < armSum raw 1 ∧
    icpt f.result = Real.log (armRate raw e 0) ∧
    diff f.result = Real.log (armRate raw e 1 / armRate raw e 0) ∧
    (∃ cov, f.covariance env' = .ok cov ∧ cov (0 : Fin 2) (0 : Fin 2) = 1 / armSum raw 0 ∧
      cov (0 : Fin 2) (1 : Fin 2) = -(1 / armSum raw 0) ∧
      cov (1 : Fin 2) (1 : Fin 2) = 1 / armSum raw 0 + 1 / armSum raw 1) ∧
    ∃ z, f.waldZ env' = .ok z ∧ diff z = Real.log (armRate raw e 1 / armRate raw e 0)
      / √(1 / armSum raw 0 + 1 / armSum raw 1) := by
  obtain ⟨e0, e1⟩ := rate_events h
  have p0 : 0 < armSum raw 0 := e0 ▸ mul_pos h.exposure0 (Real.exp_pos _)
  have p1 : 0 < armSum raw 1 := e1 ▸ mul_pos h.exposure1 (Real.exp_pos _)
  have r0 : armRate raw e 0 = Real.exp (icpt f.result) := by
    rw [armRate, ← e0, mul_div_cancel_left₀ _ h.exposure0.ne']
  have r1 : armRate raw e 1 = Real.exp (icpt f.result + diff f.result) := by
    rw [armRate, ← e1, mul_div_cancel_left₀ _ h.exposure1.ne']
  have hdiff : diff f.result = Real.log (armRate raw e 1 / armRate raw e 0) := by
    rw [r0, r1, ← Real.exp_sub, Real.log_exp]; ring
  have hF : Matrix.of (f.fisher f.result) = fisherMat Family.poisson.glm raw true f.result := by
    rw [(C10_external (Family.lawfulAdj .poisson) h.built h.l1 h.fit).2.2.1, ridgeMat, max_eq_right h.l2]
    simp [onSlopes_zero]
  have hM : fisherMat Family.poisson.glm raw true f.result
      = (!![armSum raw 0 + armSum raw 1, armSum raw 1; armSum raw 1, armSum raw 1] :
        Matrix (Fin 2) (Fin 2) ℝ) := by
    have := arms_matrix h.arms fun i => totalWt raw i * (e i * Real.exp (bare raw.x true f.result i))
    rw [arm_expected, arm_expected, zero_mul, add_zero, one_mul, e0, e1] at this
    refine Eq.trans ?_ this
    funext j k
    exact exposure_fisher h.exposure f.result j k
  obtain ⟨hu, hi⟩ := arms_inv p0.ne' p1.ne'
  have hdet : IsUnit (Matrix.of (f.fisher f.result)).det := by rw [hF, hM]; exact hu
  obtain ⟨cov, hcov⟩ : ∃ cov, f.covariance env' = .ok cov := by
    unfold Fit.covariance Fit.fisherInv
    rw [he.inv_eq hdet]
    exact ⟨_, rfl⟩
  obtain ⟨-, hc⟩ := covariance_eq (Family.lawfulAdj .poisson) h.built h.fit he hcov
  have hφ : f.dispersion = 1 := C42_fixed h.built h.fit rfl
  rw [← hF, nonsing_inv_mul _ hdet, one_mul, hF, hM, hi, hφ, one_smul] at hc
  have c : ∀ i j : Fin 2, cov i j = (!![1 / armSum raw 0, -(1 / armSum raw 0); -(1 / armSum raw 0),
      1 / armSum raw 0 + 1 / armSum raw 1] : Matrix (Fin 2) (Fin 2) ℝ) i j :=
    fun i j => congrFun (congrFun hc i) j
  refine ⟨p0, p1, by rw [r0, Real.log_exp], hdiff, ⟨cov, hcov, c 0 0, c 0 1, c 1 1⟩,
    fun j => f.result j / √(cov j j), ?_, ?_⟩
  · unfold Fit.waldZ
    rw [hcov]
    rfl
  · change diff f.result / √(cov (1 : Fin 2) (1 : Fin 2)) = _
    rw [c 1 1, hdiff]
    rfl

/-- **C110** (expected events).  The prediction for arm `a` without offset is its rate, and with the logarithm
of an exposure `t` as offset `t` times its rate. -/
theorem C110_predict {a : ℝ} (ha : a = 0 ∨ a = 1) :
    f.predict (fun (_ : Fin 1) _ => a) none 0 = armRate raw e a ∧
    ∀ t, 0 < t → f.predict (fun (_ : Fin 1) _ => a) (some fun _ => Real.log t) 0 = t * armRate raw e a := by
  obtain ⟨e0, e1⟩ := rate_events h
  have r : armRate raw e a = Real.exp (icpt f.result + a * diff f.result) := by
    rcases ha with rfl | rfl
    · rw [armRate, ← e0, mul_div_cancel_left₀ _ h.exposure0.ne', zero_mul, add_zero]
    · rw [armRate, ← e1, mul_div_cancel_left₀ _ h.exposure1.ne', one_mul]
  obtain ⟨hg, -⟩ := regression_ofRaw h.built h.fit
  have hd : Mat.dotV (Dataset.padded true fun (_ : Fin 1) _ => a) f.result
      = fun _ => icpt f.result + a * diff f.result := by
    funext i
    rw [Mat.dotV, vdotBy_real]
    refine (Fin.sum_univ_two _).trans ?_
    change 1 * icpt f.result + a * diff f.result = _
    rw [one_mul]
  have hm : ∀ ω : ℝ, (Family.poisson.glm (F := ℝ)).link.funcInv ω = Real.exp ω := fun ω => by
    rw [funcInv_real]
  unfold Fit.predict
  rw [hg, hd, r]
  refine ⟨hm _, fun t ht => (hm _).trans ?_⟩
  change Real.exp (_ + Real.log t) = _
  rw [Real.exp_add, Real.exp_log ht, mul_comm]

end

/-! ### One sample -/

/-- **C110** (one rate).  Without features the intercept is the logarithm of all events over all exposure, with
variance one over the number of events. -/
theorem C110_rate {raw : Dataset ℝ n 0 false} {e : Fin n → ℝ} {std : Bool} {d : Dataset ℝ n 0 true}
    {o : FitOptions ℝ (ncols true 0)} {f : Fit ℝ n 0 true} (hx : HasExposure raw e)
    (hE : 0 < ∑ i, totalWt raw i * e i) (hd : raw.finalize std true = some d)
    (hl : o.l1 ≤ 0) (h : regression env Family.poisson.glm d o = .ok f) (hs : f.score f.result = 0)
    (he : env'.Exact) : let D := ∑ i, totalWt raw i * raw.y i
    0 < D ∧ f.result (0 : Fin 1) = Real.log (D / ∑ i, totalWt raw i * e i) ∧
    ∃ cov, f.covariance env' = .ok cov ∧ cov (0 : Fin 1) (0 : Fin 1) = 1 / D := by
  intro D
  obtain ⟨-, h2, h3, -⟩ := C10_external (Family.lawfulAdj .poisson) hd hl h
  have hb : ∀ i, bare raw.x true f.result i = f.result (0 : Fin 1) := fun i => by
    rw [bare]
    exact (Fin.sum_univ_one _).trans (one_mul _)
  have hsum : ∑ i, totalWt raw i * (e i * Real.exp (f.result (0 : Fin 1)))
      = (∑ i, totalWt raw i * e i) * Real.exp (f.result (0 : Fin 1)) := by
    rw [Finset.sum_mul]
    exact Finset.sum_congr rfl fun i _ => (mul_assoc _ _ _).symm
  have hD : D = (∑ i, totalWt raw i * e i) * Real.exp (f.result (0 : Fin 1)) := by
    rw [h2] at hs
    have z : scoreVec Family.poisson.glm raw true f.result (0 : Fin 1) - 0 = 0 := congrFun hs (0 : Fin 1)
    rw [sub_zero, exposure_score hx] at z
    have z' : ∑ i, (totalWt raw i * raw.y i - totalWt raw i * (e i * Real.exp (f.result (0 : Fin 1)))) = 0 := by
      refine Eq.trans (Finset.sum_congr rfl fun i _ => ?_) z
      rw [← mul_sub, ← hb i]
      exact (mul_one _).symm
    rw [Finset.sum_sub_distrib, hsum] at z'
    exact sub_eq_zero.mp z'
  have hpos : 0 < D := by rw [hD]; exact mul_pos hE (Real.exp_pos _)
  refine ⟨hpos, ?_, ?_⟩
  · rw [hD, mul_div_cancel_left₀ _ hE.ne', Real.log_exp]
  · have hF : Matrix.of (f.fisher f.result) = fisherMat Family.poisson.glm raw true f.result := by
      rw [h3]
      have : ridgeMat o.l2 (scale d) true = 0 := by
        ext j k
        change Fin 1 at j k
        fin_cases j; fin_cases k; rfl
      rw [this, add_zero]
    have hM : fisherMat Family.poisson.glm raw true f.result = (!![D] : Matrix (Fin 1) (Fin 1) ℝ) := by
      ext j k
      change Fin 1 at j k
      fin_cases j; fin_cases k
      refine (exposure_fisher hx f.result (0 : Fin 1) (0 : Fin 1)).trans (Eq.trans ?_ (hsum.trans hD.symm))
      refine Finset.sum_congr rfl fun i _ => ?_
      rw [← hb i]
      exact (mul_one _).trans (mul_one _)
    have hm : (!![D] : Matrix (Fin 1) (Fin 1) ℝ) * !![1 / D] = 1 := by
      ext i j
      fin_cases i; fin_cases j
      simp [hpos.ne']
    have hdet : IsUnit (Matrix.of (f.fisher f.result)).det := by
      rw [hF, hM]; exact (Matrix.isUnit_iff_isUnit_det _).mp (IsUnit.of_mul_eq_one _ hm)
    obtain ⟨cov, hcov⟩ : ∃ cov, f.covariance env' = .ok cov := by
      unfold Fit.covariance Fit.fisherInv
      rw [he.inv_eq hdet]
      exact ⟨_, rfl⟩
    obtain ⟨-, hc⟩ := covariance_eq (Family.lawfulAdj .poisson) hd h he hcov
    have hφ : f.dispersion = 1 := C42_fixed hd h rfl
    have hi : (!![D] : Matrix (Fin 1) (Fin 1) ℝ)⁻¹ = !![1 / D] := inv_eq_right_inv hm
    rw [← hF, nonsing_inv_mul _ hdet, one_mul, hF, hM, hφ, one_smul] at hc
    exact ⟨cov, hcov, (congrFun (congrFun hc (0 : Fin 1)) (0 : Fin 1)).trans
      (congrFun (congrFun hi (0 : Fin 1)) (0 : Fin 1))⟩

/-! ### Cases that meet the hypotheses -/

/-- Counts and exposures of two arms. -/
noncomputable def countData (n : ℕ) (x y e : Fin n → ℝ) : Dataset ℝ n 1 false where
  y := y
  x := fun i _ => x i
  linearOffset := some fun i => Real.log (e i)
  weights := none
  freqs := none
  standardizer := none

theorem countData_totalWt {x y e : Fin n → ℝ} (i : Fin n) : totalWt (countData n x y e) i = 1 := by
  simp [totalWt, freq, varWt, countData]

/-- Three events in 3 units of exposure in arm 0, eight events in 4 units in arm 1. -/
noncomputable def exCounts : Dataset ℝ 4 1 false := countData 4 ![0, 0, 1, 1] ![1, 2, 4, 4] ![1, 2, 1, 3]

/-- The same after aggregation. -/
noncomputable def exCells : Dataset ℝ 2 1 false := countData 2 ![0, 1] ![3, 8] ![3, 4]

theorem exCounts_aggregates :
    Aggregates ![0, 0, 1, 1] exCounts ![1, 2, 1, 3] exCells ![3, 4] := by
  refine ⟨⟨rfl, ?_⟩, ⟨rfl, ?_⟩, ?_, fun i => (countData_totalWt i).trans (countData_totalWt _).symm, ?_, ?_⟩
  · intro i; fin_cases i <;> simp
  · intro i; fin_cases i <;> simp
  · intro i; funext j; fin_cases i <;> simp [exCounts, exCells, countData]
  · intro k
    rw [Finset.sum_filter, Fin.sum_univ_four]
    fin_cases k <;> simp [exCounts, exCells, countData] <;> norm_num
  · intro k
    rw [Finset.sum_filter, Fin.sum_univ_four]
    fin_cases k <;> simp <;> norm_num

theorem countData_fit {x y e : Fin n → ℝ} (m : ℕ) (ha : TwoArms (countData n x y e)) (hp : ∀ i, 0 < e i)
    (h0 : armExposure (countData n x y e) e 0 = 3) (h1 : armExposure (countData n x y e) e 1 = 4)
    (y0 : armSum (countData n x y e) 0 = 3) (y1 : armSum (countData n x y e) 1 = 8)
    (hu : IsUnit (gram (countData n x y e) true).det) : ∃ d f, RateFit (exactEnv (1 / 1000) 7)
      (countData n x y e) e false d (exOpts 0 0 (some (![0, Real.log 2] : Fin 2 → ℝ)) m) f := by
  have hx : HasExposure (countData n x y e) e := ⟨rfl, hp⟩
  have hs : ∀ σ, penScore Family.poisson.glm (countData n x y e) true 0 0 σ (![0, Real.log 2] : Fin 2 → ℝ)
      = 0 := by
    intro σ
    have e0 : penScore Family.poisson.glm (countData n x y e) true 0 0 σ (![0, Real.log 2] : Fin 2 → ℝ)
        = scoreVec Family.poisson.glm (countData n x y e) true (![0, Real.log 2] : Fin 2 → ℝ) := by
      funext j
      simp only [penScore, max_self, zero_mul, add_zero, onSlopes_zero, sub_zero]
    have s : ∀ a, ∑ i ∈ arm (countData n x y e) a, totalWt (countData n x y e) i * ((countData n x y e).y i
          - e i * Real.exp (bare (countData n x y e).x true (![0, Real.log 2] : Fin 2 → ℝ) i))
        = armSum (countData n x y e) a - armExposure (countData n x y e) e a * Real.exp (0 + a * Real.log 2) := by
      intro a
      refine Eq.trans ?_ (congrArg (_ - ·) (arm_expected (![0, Real.log 2] : Fin 2 → ℝ) a))
      rw [armSum, ← Finset.sum_sub_distrib]
      exact Finset.sum_congr rfl fun i _ => mul_sub _ _ _
    have s0 := s 0
    have s1 := s 1
    rw [y0, h0, zero_mul, add_zero, Real.exp_zero] at s0
    rw [y1, h1, one_mul, zero_add, Real.exp_log two_pos] at s1
    norm_num at s0 s1
    obtain ⟨v0, v1⟩ := arms_vector ha fun i => totalWt (countData n x y e) i * ((countData n x y e).y i
          - e i * Real.exp (bare (countData n x y e).x true (![0, Real.log 2] : Fin 2 → ℝ) i))
    rw [e0]
    funext j
    rw [exposure_score hx]
    change Fin 2 at j
    fin_cases j
    · refine v0.trans ?_
      rw [s0, s1]; exact add_zero 0
    · exact v1.trans s1
  obtain ⟨f, hf, -, -, hr⟩ := C22_stationary_start
    (options := exOpts 0 0 (some (![0, Real.log 2] : Fin 2 → ℝ) : Option (Vec ℝ (ncols true 1))) m)
    (exactEnv_exact (by norm_num : (0 : ℝ) ≤ 1 / 1000) 7) (Family.lawfulAdj .poisson)
    (rfl : (countData n x y e).finalize false true = some _) le_rfl rfl
    ((isUnit_iff_isUnit_det _).mp
      (C30_fullRank_posDef (by norm_num [exactEnv]) (fun i => by rw [countData_totalWt]; norm_num)
      (fun _ => Family.variance_nonneg .poisson trivial _) hu).isUnit) (hs _)
  refine ⟨_, f, ha, hx, by rw [h0]; norm_num, by rw [h1]; norm_num, rfl, le_rfl, le_rfl, hf, ?_⟩
  rw [(C10_external (Family.lawfulAdj .poisson)
    (rfl : (countData n x y e).finalize false true = some _) le_rfl hf).2.1 f.result, hr]
  exact hs _

theorem exCounts_gram : IsUnit (gram exCounts true).det := by
  rw [isUnit_iff_ne_zero]
  refine (Matrix.det_fin_two _).trans_ne ?_
  simp only [gram, exCounts, countData_totalWt, Fin.sum_univ_four]
  simp [design, countData]
  norm_num

theorem exCells_gram : IsUnit (gram exCells true).det := by
  rw [isUnit_iff_ne_zero]
  refine (Matrix.det_fin_two _).trans_ne ?_
  simp only [gram, exCells, countData_totalWt, Fin.sum_univ_two]
  simp [design, countData]

theorem exCounts_fit (m : ℕ) : ∃ d f, RateFit (exactEnv (1 / 1000) 7) exCounts ![1, 2, 1, 3] false d
    (exOpts 0 0 (some (![0, Real.log 2] : Fin 2 → ℝ)) m) f := by
  refine countData_fit m ?_ ?_ ?_ ?_ ?_ ?_ exCounts_gram
  · intro i; fin_cases i <;> simp [countData]
  · intro i; fin_cases i <;> simp
  all_goals
    simp only [armExposure, armSum, arm, countData_totalWt, Finset.sum_filter, Fin.sum_univ_four]
    simp [countData]
    try norm_num

theorem exCells_fit (m : ℕ) : ∃ d f, RateFit (exactEnv (1 / 1000) 7) exCells ![3, 4] false d
    (exOpts 0 0 (some (![0, Real.log 2] : Fin 2 → ℝ)) m) f := by
  refine countData_fit m ?_ ?_ ?_ ?_ ?_ ?_ exCells_gram
  · intro i; fin_cases i <;> simp [countData]
  · intro i; fin_cases i <;> simp
  all_goals
    simp only [armExposure, armSum, arm, countData_totalWt, Finset.sum_filter, Fin.sum_univ_two]
    simp [countData]

/-- `C110_rates`, `C110_predict`, `C110_aggregate` and `C110_aggregate_fit`: the rate ratio is two, with
variance `1/3 + 1/8`, also after aggregation. -/
theorem C110_example (m : ℕ) : ∃ d f d' f',
    RateFit (exactEnv (1 / 1000) 7) exCounts ![1, 2, 1, 3] false d
      (exOpts 0 0 (some (![0, Real.log 2] : Fin 2 → ℝ)) m) f ∧
    RateFit (exactEnv (1 / 1000) 7) exCells ![3, 4] false d'
      (exOpts 0 0 (some (![0, Real.log 2] : Fin 2 → ℝ)) m) f' ∧
    f'.result = f.result ∧ f'.waldZ (exactEnv 0 0) = f.waldZ (exactEnv 0 0) ∧
    diff f.result = Real.log 2 ∧
    ∃ cov, f.covariance (exactEnv 0 0) = .ok cov ∧ cov (1 : Fin 2) (1 : Fin 2) = 1 / 3 + 1 / 8 := by
  obtain ⟨d, f, h⟩ := exCounts_fit m
  obtain ⟨d', f', h'⟩ := exCells_fit m
  obtain ⟨a1, -, a3, -⟩ := C110_aggregate_fit (env'' := exactEnv 0 0) exCounts_aggregates h.built h'.built
    h.fit h'.fit ⟨h.l1, h.l2⟩ ⟨h'.l1, h'.l2⟩ (fun i => by rw [exCounts, countData_totalWt]; norm_num)
    exCounts_gram h.score h'.score
  obtain ⟨-, -, -, b4, ⟨cov, hc, -, -, b5⟩, -⟩ := C110_rates h (exactEnv_exact le_rfl 0)
  have s0 : armSum exCounts 0 = 3 ∧ armSum exCounts 1 = 8 ∧ armExposure exCounts ![1, 2, 1, 3] 0 = 3 ∧
      armExposure exCounts ![1, 2, 1, 3] 1 = 4 := by
    rw [show exCounts = countData 4 ![0, 0, 1, 1] ![1, 2, 4, 4] ![1, 2, 1, 3] from rfl]
    refine ⟨?_, ?_, ?_, ?_⟩
    all_goals
      simp only [armExposure, armSum, arm, countData_totalWt, Finset.sum_filter, Fin.sum_univ_four]
      simp [countData]
      try norm_num
  obtain ⟨t0, t1, t2, t3⟩ := s0
  refine ⟨d, f, d', f', h, h', a1, a3, ?_, cov, hc, ?_⟩
  · rw [b4, armRate, armRate, t0, t1, t2, t3]; norm_num
  · rw [b5, t0, t1]

/-- Three events in 3 units of exposure and eight in 4 units. -/
noncomputable def exOneRate : Dataset ℝ 2 0 false where
  y := ![3, 8]
  x := fun _ => Fin.elim0
  linearOffset := some fun i => Real.log ((![3, 4] : Fin 2 → ℝ) i)
  weights := none
  freqs := none
  standardizer := none

/-- `C110_rate`. -/
theorem C110_example_rate (m : ℕ) : ∃ d f, exOneRate.finalize false true = some d ∧
    regression (exactEnv (1 / 1000) 7) Family.poisson.glm d
      (exOpts 0 0 (some (fun _ => Real.log (11 / 7) : Fin 1 → ℝ)) m) = .ok f ∧
    f.result (0 : Fin 1) = Real.log (11 / 7) ∧
    ∃ cov, f.covariance (exactEnv 0 0) = .ok cov ∧ cov (0 : Fin 1) (0 : Fin 1) = 1 / 11 := by
  have hx : HasExposure exOneRate ![3, 4] := ⟨rfl, fun i => by fin_cases i <;> simp⟩
  have hw : ∀ i, totalWt exOneRate i = 1 := fun i => by simp [totalWt, freq, varWt, exOneRate]
  have hE : ∑ i, totalWt exOneRate i * (![3, 4] : Fin 2 → ℝ) i = 7 := by
    rw [Fin.sum_univ_two, hw, hw]; simp; norm_num
  have hD : ∑ i, totalWt exOneRate i * exOneRate.y i = 11 := by
    rw [Fin.sum_univ_two, hw, hw]; simp [exOneRate]; norm_num
  have hs : ∀ σ, penScore Family.poisson.glm exOneRate true 0 0 σ (fun _ => Real.log (11 / 7) : Fin 1 → ℝ)
      = 0 := by
    intro σ
    funext j
    change Fin 1 at j
    fin_cases j
    change scoreVec Family.poisson.glm exOneRate true (fun _ => Real.log (11 / 7) : Fin 1 → ℝ) (0 : Fin 1) - 0 = 0
    have hb : ∀ i, bare exOneRate.x true (fun _ => Real.log (11 / 7) : Fin 1 → ℝ) i = Real.log (11 / 7) :=
      fun i => (Fin.sum_univ_one _).trans (one_mul _)
    have hone : ∀ i, design true exOneRate.x i (0 : Fin 1) = 1 := fun _ => rfl
    rw [exposure_score hx, Fin.sum_univ_two, hw, hw, hb, hb, hone, hone, Real.exp_log (by norm_num)]
    simp [exOneRate]; norm_num
  have hg : IsUnit (gram exOneRate true).det := by
    rw [isUnit_iff_ne_zero]
    refine (Matrix.det_fin_one _).trans_ne ?_
    simp only [gram, hw, Fin.sum_univ_two]
    simp [design]
  obtain ⟨f, hf, -, -, hr⟩ := C22_stationary_start
    (options := exOpts 0 0 (some (fun _ => Real.log (11 / 7) : Fin 1 → ℝ) : Option (Vec ℝ (ncols true 0))) m)
    (exactEnv_exact (by norm_num : (0 : ℝ) ≤ 1 / 1000) 7) (Family.lawfulAdj .poisson)
    (rfl : exOneRate.finalize false true = some _) le_rfl rfl
    ((isUnit_iff_isUnit_det _).mp
      (C30_fullRank_posDef (by norm_num [exactEnv]) (fun i => by rw [hw]; norm_num)
      (fun _ => Family.variance_nonneg .poisson trivial _) hg).isUnit) (hs _)
  have hsc : f.score f.result = 0 := by
    rw [(C10_external (Family.lawfulAdj .poisson)
      (rfl : exOneRate.finalize false true = some _) le_rfl hf).2.1 f.result, hr]
    exact hs _
  obtain ⟨-, r, cov, hc, v⟩ := C110_rate hx (by rw [hE]; norm_num)
    (rfl : exOneRate.finalize false true = some _) le_rfl hf hsc (exactEnv_exact (le_refl (0 : ℝ)) 0)
  rw [hD] at r v
  rw [hE] at r
  exact ⟨_, f, rfl, hf, r, cov, hc, v⟩

end GLM
