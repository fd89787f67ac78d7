/-
  C67: the units of the features do not matter for standardized fits.
-/
import Verif.Spec.Units
import Verif.Lemmas.Congr
import Verif.Lemmas.Witness
import Verif.Lemmas.Reweight
import Verif.Props.Weights

namespace GLM
open Spec Matrix Scalar
variable {n p : ℕ} {b : Bool} {raw : Dataset ℝ n p false} {d : Dataset ℝ n p b} {a c : Fin p → ℝ}

section
variable (ha : ∀ j, 0 < a j) (hc : b = false → ∀ j, c j = 0) (hw : 0 < ∑ i, totalWt raw i)
  (hv : ∀ j, Varies raw j)

theorem changeUnits_wMean (hw : 0 < ∑ i, totalWt raw i) (j : Fin p) :
    wMean (changeUnits a c raw) j = a j * wMean raw j + c j := by
  have h1 : ∀ i, totalWt (changeUnits a c raw) i = totalWt raw i := fun _ => rfl
  have h2 : ∀ i, (changeUnits a c raw).x i j = a j * raw.x i j + c j := fun _ => rfl
  unfold wMean
  simp only [h1, h2]
  rw [eq_comm, ← mul_div_assoc, div_add' _ _ _ hw.ne']
  congr 1
  rw [Finset.mul_sum, Finset.mul_sum, ← Finset.sum_add_distrib]
  exact Finset.sum_congr rfl fun i _ => by ring

theorem changeUnits_wVar (hw : 0 < ∑ i, totalWt raw i) (j : Fin p) :
    wVar (changeUnits a c raw) j = a j ^ 2 * wVar raw j := by
  have h1 : ∀ i, totalWt (changeUnits a c raw) i = totalWt raw i := fun _ => rfl
  have h2 : (changeUnits a c raw).nEff = raw.nEff := rfl
  unfold wVar
  have h3 : ∀ i, (changeUnits a c raw).x i j = a j * raw.x i j + c j := fun _ => rfl
  have h4 : ∑ i, totalWt raw i * (a j * raw.x i j + c j - (a j * wMean raw j + c j)) ^ 2
      = a j ^ 2 * ∑ i, totalWt raw i * (raw.x i j - wMean raw j) ^ 2 := by
    rw [Finset.mul_sum]
    exact Finset.sum_congr rfl fun i _ => by ring
  simp only [h1, h2, h3, changeUnits_wMean hw, h4]
  ring

theorem wVar_pos (hw : 0 < ∑ i, totalWt raw i) {j : Fin p} (hv : Varies raw j)
    {s : Standardizer ℝ p} (h : Standardizer.fromDataset raw b = some s) : 0 < wVar raw j := by
  have hn : 1 < raw.nEff := by
    by_cases h1 : n ≤ 1
    · exfalso
      have : n = 1 := by
        rcases Nat.le_one_iff_eq_zero_or_eq_one.mp h1 with rfl | h2
        · simp at hw
        · exact h2
      subst this
      rw [Fin.sum_univ_one] at hw
      unfold Varies wMean at hv
      simp only [Fin.sum_univ_one] at hv
      have : raw.x 0 j - totalWt raw 0 * raw.x 0 j / totalWt raw 0 = 0 := by
        field_simp; ring
      rw [this] at hv
      simp at hv
    · obtain ⟨d, hd⟩ : ∃ d, raw.finalize true b = some d := by
        unfold Dataset.finalize
        rw [if_pos rfl, h]
        exact ⟨_, rfl⟩
      rcases nEff_of_finalize hd with h2 | h2
      · exact absurd h2 h1
      · exact h2
  unfold wVar
  exact mul_pos (div_pos hv hw) (div_pos (by linarith) (by linarith))

include ha hc hw hv in
/-- The standardized design does not depend on the units. -/
theorem changeUnits_finalize (hd : raw.finalize true b = some d) :
    ∃ s s', d.standardizer = some s ∧
      (changeUnits a c raw).finalize true b = some { d with standardizer := some s' } ∧
      (∀ j, s'.scales j = a j * s.scales j) ∧
      ∀ j, s'.shifts j = if b then a j * s.shifts j + c j else 0 := by
  unfold Dataset.finalize at hd
  rw [if_pos rfl, Option.map_eq_some_iff] at hd
  obtain ⟨s, hs, rfl⟩ := hd
  have hs' : ∃ s', Standardizer.fromDataset (changeUnits a c raw) b = some s' := by
    have h0 := hs
    unfold Standardizer.fromDataset at h0 ⊢
    rw [Option.map_eq_some_iff] at h0
    obtain ⟨v, hv, -⟩ := h0
    dsimp only at hv ⊢
    have hn : (changeUnits a c raw).nEff = raw.nEff := rfl
    rw [hn]
    by_cases h1 : n ≤ 1
    · simp [if_pos h1]
    · rw [if_neg h1] at hv ⊢
      split at hv
      · rename_i h2; rw [if_pos h2]; exact ⟨_, rfl⟩
      · simp at hv
  obtain ⟨s', hs'⟩ := hs'
  obtain ⟨e1, e2⟩ := fromDataset_eq hw hs
  obtain ⟨e1', e2'⟩ := fromDataset_eq (d := changeUnits a c raw) hw hs'
  have hscale : ∀ j, s'.scales j = a j * s.scales j := by
    intro j
    have hp := wVar_pos hw (hv j) hs
    rw [e2', e2, changeUnits_wVar hw, if_pos hp, if_pos (mul_pos (pow_pos (ha j) 2) hp),
      Real.sqrt_mul (sq_nonneg _), Real.sqrt_sq (ha j).le]
  have hshift : ∀ j, s'.shifts j = if b then a j * s.shifts j + c j else 0 := by
    intro j
    rw [e1', e1, changeUnits_wMean hw]
    cases b <;> simp
  refine ⟨s, s', rfl, ?_, hscale, hshift⟩
  have hx : s'.transform (changeUnits a c raw).x = s.transform raw.x := by
    funext i j
    have hs0 : s.scales j ≠ 0 := by
      rw [e2, if_pos (wVar_pos hw (hv j) hs)]
      exact (Real.sqrt_pos.mpr (wVar_pos hw (hv j) hs)).ne'
    have := (ha j).ne'
    simp only [Standardizer.transform, changeUnits, newUnits]
    rw [hscale, hshift]
    cases b
    · have h0 : s.shifts j = 0 := by rw [e1]; simp
      simp only [hc rfl j, h0, Bool.false_eq_true, if_false]
      field_simp
      ring
    · simp only [if_true]
      field_simp
      ring
  unfold Dataset.finalize
  rw [if_pos rfl, hs']
  simp only [Option.map_some]
  have hx' : s'.transform (changeUnits a c raw).x = s.transform raw.x := hx
  rw [hx']
  rfl
end

/-- Coefficients on the user's scale, in the new units. -/
theorem unitCoef_inverse {d d' : Dataset ℝ n p b} {s s' : Standardizer ℝ p} (ha : ∀ j, 0 < a j)
    (hs : d.standardizer = some s) (hs' : d'.standardizer = some s')
    (h1 : ∀ j, s'.scales j = a j * s.scales j)
    (h2 : ∀ j, s'.shifts j = if b then a j * s.shifts j + c j else 0) (γ : Vec ℝ (ncols b p)) :
    d'.inverseTransformBeta γ = unitCoef a c (d.inverseTransformBeta γ) := by
  have ha' := fun j => (ha j).ne'
  cases b
  · have e1 : d'.inverseTransformBeta γ = s'.inverseTransformCoefficientsNoInt γ := by
      unfold Dataset.inverseTransformBeta; dsimp only; rw [hs']
    have e2 : d.inverseTransformBeta γ = s.inverseTransformCoefficientsNoInt γ := by
      unfold Dataset.inverseTransformBeta; dsimp only; rw [hs]
    rw [e1, e2]
    funext j
    simp only [Standardizer.inverseTransformCoefficientsNoInt, unitCoef, h1]
    rw [div_div, mul_comm]
  · have e1 : d'.inverseTransformBeta γ = s'.inverseTransformCoefficients γ := by
      unfold Dataset.inverseTransformBeta; dsimp only; rw [hs']
    have e2 : d.inverseTransformBeta γ = s.inverseTransformCoefficients γ := by
      unfold Dataset.inverseTransformBeta; dsimp only; rw [hs]
    rw [e1, e2]
    funext j
    unfold unitCoef
    refine Fin.cases ?_ (fun j => ?_) j
    · simp only [Standardizer.inverseTransformCoefficients, Fin.cons_zero, Fin.cons_succ, h1, h2,
        if_true, vsum_real]
      rw [sub_sub, ← Finset.sum_add_distrib]
      congr 1
      refine Finset.sum_congr rfl fun j _ => ?_
      have := ha' j
      rw [mul_comm (a j) (s.scales j), ← div_div]
      field_simp
    · simp only [Standardizer.inverseTransformCoefficients, Fin.cons_succ, h1]
      rw [div_div, mul_comm]

theorem unitCoef_transform {d d' : Dataset ℝ n p b} (hwf : d.WF) (hwf' : d'.WF)
    (hinv : ∀ γ, d'.inverseTransformBeta γ = unitCoef a c (d.inverseTransformBeta γ))
    (β : Vec ℝ (ncols b p)) : d'.transformBeta (unitCoef a c β) = d.transformBeta β := by
  conv_lhs => rw [← hwf.inverseTransformBeta_transformBeta β]
  rw [← hinv, hwf'.transformBeta_inverseTransformBeta]

theorem predict_units (ha : ∀ j, 0 < a j) (hc : b = false → ∀ j, c j = 0) {m : ℕ} (x : Mat ℝ m p)
    (β : Vec ℝ (ncols b p)) :
    Mat.dotV (Dataset.padded b (newUnits a c x)) (unitCoef a c β)
      = Mat.dotV (Dataset.padded b x) β := by
  have ha' := fun j => (ha j).ne'
  funext i
  simp only [dotV_real, mulVec, dotProduct, of_apply]
  cases b
  · refine Finset.sum_congr rfl fun j _ => ?_
    have := ha' j
    simp only [Dataset.padded, newUnits, unitCoef, hc rfl j]
    field_simp
    ring
  · simp only [Dataset.padded, onePad, unitCoef]
    rw [Fin.sum_univ_succ, Fin.sum_univ_succ]
    simp only [Fin.cons_zero, Fin.cons_succ]
    rw [mul_sub, sub_add, Finset.mul_sum, ← Finset.sum_sub_distrib, one_mul, sub_eq_add_neg,
      ← Finset.sum_neg_distrib]
    congr 1
    refine Finset.sum_congr rfl fun j _ => ?_
    have := ha' j
    simp only [newUnits]
    field_simp
    ring

theorem waldZ_units (ha : ∀ j, 0 < a j) {f f' : Fit ℝ n p b} {env : Env ℝ} (he : env.Exact)
    (hwf : f.data.WF) (hwf' : f'.data.WF)
    (hT : ∀ β, f'.data.transformBeta (unitCoef a c β) = f.data.transformBeta β)
    (hr : f'.result = unitCoef a c f.result) (hphi : f'.dispersion = f.dispersion)
    (hF : ∀ γ, f'.fisherStd γ = f.fisherStd γ) (hD : f'.fisherDataStd f'.resultStd
      = f.fisherDataStd f.resultStd) (z : Vec ℝ (ncols b p)) (hz : f.waldZ env = .ok z) :
    ∃ z', f'.waldZ env = .ok z' ∧ ∀ j, slope (b := b) z' j = slope (b := b) z j := by
  set T := f.data.tmat with hTd
  set T' := f'.data.tmat with hTd'
  have hdet : IsUnit T.det := (hwf.det_tmat).isUnit
  have hdet' : IsUnit T'.det := (hwf'.det_tmat).isUnit
  set U := T'⁻¹ * T with hU
  have hUβ : ∀ β, unitCoef a c β = U *ᵥ β := by
    intro β
    have := hT β
    rw [Dataset.transformBeta_eq, Dataset.transformBeta_eq] at this
    rw [hU, ← mulVec_mulVec, ← this, mulVec_mulVec, nonsing_inv_mul _ hdet', one_mulVec]
  -- the inverse information
  unfold Fit.waldZ Fit.covariance Fit.fisherInv at hz
  obtain ⟨A, hA⟩ : ∃ A, env.inv (f.fisher f.result) = .ok A := by
    cases h : env.inv (f.fisher f.result) with
    | error e => rw [h] at hz; cases hz
    | ok A => exact ⟨A, rfl⟩
  rw [hA] at hz
  have hz' := Except.ok.inj hz
  set Fs := Matrix.of (f.fisherStd (f.data.transformBeta f.result)) with hFs
  have hfis : Matrix.of (f.fisher f.result) = Tᵀ * Fs * T := by
    unfold Fit.fisher; rw [Dataset.inverseTransformFisher_eq]; rfl
  have hfis' : Matrix.of (f'.fisher f'.result) = T'ᵀ * Fs * T' := by
    unfold Fit.fisher; rw [Dataset.inverseTransformFisher_eq, hr, hT, hF]; rfl
  have hAs := he.inv_sound hA
  rw [hfis] at hAs
  have hTT : Tᵀ⁻¹ * Tᵀ = 1 := nonsing_inv_mul _ (by rw [det_transpose]; exact hdet)
  have hTT' : T'ᵀ * T'ᵀ⁻¹ = 1 := mul_nonsing_inv _ (by rw [det_transpose]; exact hdet')
  have hT1 : T' * T'⁻¹ = 1 := mul_nonsing_inv _ hdet'
  have hFTA : Fs * T * Matrix.of A = Tᵀ⁻¹ := by
    have : Tᵀ⁻¹ * (Tᵀ * Fs * T * Matrix.of A) = Tᵀ⁻¹ := by rw [hAs, Matrix.mul_one]
    rw [← this, Matrix.mul_assoc Tᵀ, Matrix.mul_assoc Tᵀ, ← Matrix.mul_assoc Tᵀ⁻¹, hTT, Matrix.one_mul]
  have hUt : Uᵀ = Tᵀ * T'ᵀ⁻¹ := by
    rw [hU, transpose_mul, transpose_nonsing_inv]
  have hTU : T' * U = T := by rw [hU, ← Matrix.mul_assoc, hT1, Matrix.one_mul]
  have hUT : Uᵀ * T'ᵀ = Tᵀ := by rw [← transpose_mul, hTU]
  have hinv1 : T'ᵀ * Fs * T' * (U * Matrix.of A * Uᵀ) = 1 := by
    calc T'ᵀ * Fs * T' * (U * Matrix.of A * Uᵀ)
        = T'ᵀ * (Fs * (T' * U) * Matrix.of A) * Uᵀ := by simp only [Matrix.mul_assoc]
      _ = T'ᵀ * (Tᵀ⁻¹ * Tᵀ) * T'ᵀ⁻¹ := by rw [hTU, hFTA, hUt]; simp only [Matrix.mul_assoc]
      _ = 1 := by rw [hTT, Matrix.mul_one, hTT']
  have hunit : IsUnit (Matrix.of (f'.fisher f'.result)).det := by
    rw [hfis']
    exact (isUnit_iff_isUnit_det _).mp (IsUnit.of_mul_eq_one _ hinv1)
  obtain ⟨B, hB⟩ := he.inv_complete hunit
  have hBs := he.inv_sound hB
  have hBA : Matrix.of B = U * Matrix.of A * Uᵀ := by
    rw [hfis'] at hBs
    have h1 : (U * Matrix.of A * Uᵀ) * (T'ᵀ * Fs * T') = 1 := mul_eq_one_comm.mp hinv1
    calc Matrix.of B = (U * Matrix.of A * Uᵀ) * (T'ᵀ * Fs * T') * Matrix.of B := by
          rw [h1, Matrix.one_mul]
      _ = U * Matrix.of A * Uᵀ := by rw [Matrix.mul_assoc _ _ (Matrix.of B), hBs, Matrix.mul_one]
  set Ds := Matrix.of (f.fisherDataStd f.resultStd) with hDs
  have hcov : Matrix.of B * (T'ᵀ * Ds * T') * Matrix.of B
      = U * (Matrix.of A * (Tᵀ * Ds * T) * Matrix.of A) * Uᵀ := by
    calc Matrix.of B * (T'ᵀ * Ds * T') * Matrix.of B
        = U * Matrix.of A * (Uᵀ * T'ᵀ) * Ds * (T' * U) * Matrix.of A * Uᵀ := by
          rw [hBA]; simp only [Matrix.mul_assoc]
      _ = _ := by rw [hUT, hTU]; simp only [Matrix.mul_assoc]
  have hD1 : Matrix.of (f.data.inverseTransformFisher (f.fisherDataStd f.resultStd))
      = Tᵀ * Ds * T := by rw [Dataset.inverseTransformFisher_eq]; rfl
  have hD2 : Matrix.of (f'.data.inverseTransformFisher (f'.fisherDataStd f'.resultStd))
      = T'ᵀ * Ds * T' := by rw [Dataset.inverseTransformFisher_eq, hD]; rfl
  refine ⟨fun j => f'.result j / sqrt (((B.dotM (f'.data.inverseTransformFisher
    (f'.fisherDataStd f'.resultStd))).dotM B) j j * f'.dispersion), ?_, ?_⟩
  · unfold Fit.waldZ Fit.covariance Fit.fisherInv
    rw [hB]
    rfl
  · have key : ∀ (i : Fin (ncols b p)) (t : ℝ), 0 < t → (∀ v, (U *ᵥ v) i = v i / t) →
        f'.result i / sqrt (((B.dotM (f'.data.inverseTransformFisher
          (f'.fisherDataStd f'.resultStd))).dotM B) i i * f'.dispersion) = z i := by
      intro i t ht hrow
      have hl : ∀ M : Matrix (Fin (ncols b p)) (Fin (ncols b p)) ℝ, (U * M * Uᵀ) i i
          = M i i / t ^ 2 := by
        intro M
        have h1 : ∀ l, (U * M) i l = M i l / t := fun l => hrow fun k => M k l
        have h2 : (U * M * Uᵀ) i i = (U *ᵥ (U * M) i) i := by
          rw [Matrix.mul_apply, mulVec, dotProduct]
          exact Finset.sum_congr rfl fun l _ => mul_comm _ _
        rw [h2, hrow, h1, div_div, sq]
      have e1 : ((B.dotM (f'.data.inverseTransformFisher
          (f'.fisherDataStd f'.resultStd))).dotM B) i i
          = (Matrix.of A * (Tᵀ * Ds * T) * Matrix.of A) i i / t ^ 2 := by
        rw [← hl, ← hcov, ← hD2, dotM_real, dotM_real]; rfl
      have e2 : ((A.dotM (f.data.inverseTransformFisher
          (f.fisherDataStd f.resultStd))).dotM A) i i
          = (Matrix.of A * (Tᵀ * Ds * T) * Matrix.of A) i i := by
        rw [← hD1, dotM_real, dotM_real]; rfl
      rw [← hz', e1, hr, hUβ, hrow, hphi]
      dsimp only
      rw [e2, div_mul_eq_mul_div, sqrt_real, sqrt_real, Real.sqrt_div' _ (sq_nonneg t),
        Real.sqrt_sq ht.le, div_div_div_cancel_right₀ ht.ne']
    intro j
    cases b
    · exact key j (a j) (ha j) fun v => by rw [← hUβ]; rfl
    · exact key j.succ (a j) (ha j) fun v => by rw [← hUβ]; rfl

/-- C67: for every family, every penalty, tolerance and budget, every weights and offset: reporting the
features in other units (`x ↦ a x + c` with `a > 0`; without an intercept only `x ↦ a x`) does not change
a fit of the standardized data.  Both builds succeed, the fits succeed or fail alike, and successful fits
agree up to the conversion of their coefficients.  A start given by the caller is converted likewise. -/
theorem C67_units (ha : ∀ j, 0 < a j) (hc : b = false → ∀ j, c j = 0)
    (hw : 0 < ∑ i, totalWt raw i) (hv : ∀ j, Varies raw j) (hd : raw.finalize true b = some d) :
    ∃ d', (changeUnits a c raw).finalize true b = some d' ∧
      ∀ (env : Env ℝ) (g : Glm ℝ) (options : FitOptions ℝ (ncols b p)),
        Related (· = ·) (SameUpToUnits a c) (regression env g d options)
          (regression env g d' { options with
            initGuess := options.initGuess.map fun β => unitCoef a c β }) := by
  obtain ⟨s, s', hs, hd', h1, h2⟩ := changeUnits_finalize ha hc hw hv hd
  refine ⟨_, hd', fun env g options => ?_⟩
  set d' : Dataset ℝ n p b := { d with standardizer := some s' } with hdd
  have hwf := Dataset.finalize_wf hd
  have hwf' : d'.WF := Dataset.finalize_wf hd'
  have hinv : ∀ γ, d'.inverseTransformBeta γ = unitCoef a c (d.inverseTransformBeta γ) :=
    unitCoef_inverse ha hs rfl h1 h2
  have hT := unitCoef_transform hwf hwf' hinv
  set o' : FitOptions ℝ (ncols b p) := { options with
    initGuess := options.initGuess.map fun β => unitCoef a c β } with ho
  have hcore : regressionCore env g d' o' = regressionCore env g d options := by
    refine regressionCore_congr (fun _ => rfl) (fun _ => rfl) rfl rfl rfl rfl rfl ?_
    unfold initialGuess
    rw [ho]
    cases options.initGuess with
    | none => rfl
    | some β => exact hT β
  unfold regression
  rw [hcore]
  cases regressionCore env g d options with
  | panic => exact .panic
  | diverge => exact .diverge
  | err e => exact .err rfl
  | ok r =>
    refine .ok ?_
    refine
      { result := hinv _
        history := ?_
        nIter := rfl
        modelLike := rfl
        yHat := rfl
        predict := ?_
        deviance := rfl
        dispersion := rfl
        aic := rfl
        bic := rfl
        lrTest := fun _ => rfl
        rSq := fun _ => rfl
        leverage := fun _ => rfl
        cooks := fun _ => rfl
        residStudent := fun _ => rfl
        residWork := rfl
        waldZ := fun env he z hz => waldZ_units (f := Fit.new g d options r.1 r.2)
          (f' := Fit.new g d' o' r.1 r.2) ha he hwf hwf' hT (hinv _) rfl (fun _ => rfl) rfl z hz }
    · simp only [Fit.new, List.map_map]
      refine List.map_congr_left fun st _ => ?_
      simp only [Function.comp, hinv]
    · intro m x off
      unfold Fit.predict
      dsimp only [Fit.new]
      rw [hinv, predict_units ha hc]

theorem exRaw_varies (y : Vec ℝ 3) (j : Fin 1) : Varies (exRaw y) j := by
  have hj : j = 0 := Subsingleton.elim _ _
  subst hj
  have hm : wMean (exRaw y) 0 = 1 := by
    simp only [wMean, exRaw_totalWt, Fin.sum_univ_three]
    simp [exRaw]; norm_num
  simp only [Varies, hm, exRaw_totalWt, Fin.sum_univ_three]
  simp [exRaw]; norm_num

/-- Fahrenheit for Celsius, with an intercept: the hypotheses of `C67_units` hold for the example data. -/
example : ∃ d d', (exRaw ![0, 1, 4]).finalize true true = some d ∧
    (changeUnits (fun _ => 9 / 5) (fun _ => 32) (exRaw ![0, 1, 4])).finalize true true = some d' ∧
    ∀ env : Env ℝ, Related (· = ·) (SameUpToUnits (fun _ => 9 / 5) (fun _ => 32))
      (regression env (linearGlm linkId) d (exOpts (1 / 10) (1 / 5) none 50))
      (regression env (linearGlm linkId) d' (exOpts (1 / 10) (1 / 5) none 50)) := by
  obtain ⟨d, hd⟩ := exRaw_finalize ![0, 1, 4] true true
  obtain ⟨d', hd', h⟩ := C67_units (a := fun _ => 9 / 5) (c := fun _ => 32) (fun _ => by norm_num)
    (fun h => by simp at h) (Finset.sum_pos (fun i _ => exRaw_totalWt_pos _ i) ⟨0, Finset.mem_univ _⟩)
    (exRaw_varies _) hd
  exact ⟨d, d', hd, hd', fun env => h env _ (exOpts (1 / 10) (1 / 5) none 50)⟩

end GLM
