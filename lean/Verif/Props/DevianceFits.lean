/-
  C99 for fits: the reported deviance, information criteria, dispersion and deviance residuals.
-/
import Verif.Props.DevianceAccuracy
import Verif.Props.StandardAccuracy
import Verif.Props.Deviance

namespace GLM
open Spec Scalar Fl Matrix

section
variable {fmt : FloatFormat} {n p : ℕ} {b : Bool} {u tiny big : ℝ}
  {raw D : Dataset (Fl fmt) n p false} {data : Dataset (Fl fmt) n p b} {fam : Family}
  {env : Env (Fl fmt)} {options : FitOptions (Fl fmt) (ncols b p)} {f : Fit (Fl fmt) n p b}
  {s : Standardizer (Fl fmt) p}

/-- The numbers of a fit without standardization. -/
theorem plain_setting (hd : raw.finalize false b = some data) (h : regression env fam.glm data options = .ok f) :
    f.g = fam.glm ∧ raw.finalize false b = some { f.data with standardizer := none } ∧
      f.resultStd = f.result := by
  obtain ⟨hg, rfl, -, hc⟩ := regression_coherent h
  refine ⟨hg, ?_, ?_⟩
  · rw [hd]
    have := finalize_plain hd
    rw [this]
  · rw [hc.result, plain_inverseTransform hd]

/-- **C99** (deviance).  Whatever the linear-algebra library returned: the reported deviance is within an
explicit bound of twice the log-likelihood that the reported coefficients lack, compared to the saturated
model. -/
theorem C99_deviance (acc : AccurateLogs fmt u tiny big) (hd : raw.finalize false b = some data)
    (h : regression env fam.glm data options = .ok f) (hf : DevFits u tiny big fam raw b f.result) :
    f.deviance.isFinite ∧
      |real f.deviance - devianceOf fam.glm (exactData raw) b fun j => real (f.result j)| ≤
        devianceError u tiny fam raw b f.result := by
  obtain ⟨hg, hd', hr⟩ := plain_setting hd h
  have := fit_deviance acc hg hd' (by rw [hr]; exact hf)
  rw [hr] at this
  exact ⟨this.fin, this.err⟩

/-- The exact deviance is not negative. -/
theorem deviance_nonneg (hv : ValidFamily fam) {d : Dataset ℝ n p false} {β : Vec ℝ (ncols b p)}
    (hy : ∀ i, d.y i ∈ yDom fam) (hfr : ∀ i, 0 ≤ freq d i) (hw : ∀ i, 0 ≤ varWt d i)
    (ha : Admissible fam d b β) : 0 ≤ devianceOf fam.glm d b β := by
  refine mul_nonneg two_pos.le ?_
  unfold satLik logLik
  rw [← Finset.sum_sub_distrib]
  refine Finset.sum_nonneg fun i _ => ?_
  rw [← mul_sub]
  exact mul_nonneg (mul_nonneg (hfr i) (hw i))
    (sub_nonneg.mpr (logLikeNatural_le_sat fam hv (hy i) (natParam_mem fam (ha i))))

/-- **C99** (sign).  Hence a computed deviance below zero is an effect of rounding that the bound limits. -/
theorem C99_deviance_sign (acc : AccurateLogs fmt u tiny big) (hd : raw.finalize false b = some data)
    (h : regression env fam.glm data options = .ok f) (hf : DevFits u tiny big fam raw b f.result)
    (hv : ValidFamily fam) (hy : ∀ i, real (raw.y i) ∈ yDom fam) (hfr : ∀ i, 0 ≤ freq (exactData raw) i)
    (hw : ∀ i, 0 ≤ varWt (exactData raw) i)
    (ha : Admissible fam (exactData raw) b fun j => real (f.result j)) :
    -devianceError u tiny fam raw b f.result ≤ real f.deviance := by
  have h1 := deviance_nonneg hv (d := exactData raw) hy hfr hw ha
  have h2 := (abs_le.mp (C99_deviance acc hd h hf).2).1
  linarith

/-- **C99** (Akaike criterion). -/
theorem C99_aic (acc : AccurateLogs fmt u tiny big) (hd : raw.finalize false b = some data)
    (h : regression env fam.glm data options = .ok f) (hf : AicFits u tiny big fam raw b f.result) :
    f.aic.isFinite ∧
      |real f.aic - aicOf fam.glm (exactData raw) b fun j => real (f.result j)| ≤
        aicError u tiny fam raw b f.result := by
  obtain ⟨hg, hd', hr⟩ := plain_setting hd h
  have := fit_aic acc hg hd' (by rw [hr]; exact hf)
  rw [hr] at this
  exact ⟨this.fin, this.err⟩

/-- **C99** (Bayesian criterion).  It is formed from the penalized log-likelihood. -/
theorem C99_bic (acc : AccurateLogs fmt u tiny big) (hd : raw.finalize false b = some data)
    (h : regression env fam.glm data options = .ok f)
    (hp : PenLikFits u tiny big fam raw b options.l1 options.l2 f.result)
    (hf : BicFits u tiny big raw b
      (penLikError u tiny fam raw b (real options.l1) (real options.l2) f.result)
      (exactPenLik fam raw b (real options.l1) (real options.l2) f.result)) :
    f.bic.isFinite ∧
      |real f.bic - bicOf (exactData raw) b
          (exactPenLik fam raw b (real options.l1) (real options.l2) f.result)| ≤
        bicError u tiny raw b
          (penLikError u tiny fam raw b (real options.l1) (real options.l2) f.result)
          (exactPenLik fam raw b (real options.l1) (real options.l2) f.result) := by
  obtain ⟨-, hd', -⟩ := plain_setting hd h
  obtain ⟨h1, h2⟩ := C95_fit acc hd h hp
  have := fit_bic acc hd' ⟨h1, h2⟩ hp.1.2.1 hf
  exact ⟨this.fin, this.err⟩

/-- **C99** (dispersion), for the families that estimate it. -/
theorem C99_dispersion (acc : AccurateLogs fmt u tiny big) (hd : raw.finalize false b = some data)
    (h : regression env fam.glm data options = .ok f) (hfree : freeDispersion fam = true)
    (hf : DispFits u tiny big fam raw b f.result) :
    f.dispersion.isFinite ∧
      |real f.dispersion - dispersionOf fam.glm (exactData raw) b fun j => real (f.result j)| ≤
        dispersionError u tiny fam raw b f.result := by
  obtain ⟨hg, hd', hr⟩ := plain_setting hd h
  have := fit_dispersion acc hg hd' hfree (by rw [hr]; exact hf)
  rw [hr] at this
  exact ⟨this.fin, this.err⟩

/-! ### Deviance residuals -/

open Classical in
/-- The sign of a number, which is `-1` or `1`. -/
theorem signum_approx {x : Fl fmt} (h : ¬ x.isNaN) : ∃ σ : ℝ, Approx (signum x : Fl fmt) σ 0 ∧ |σ| = 1 ∧
    (x.val < 0 → σ = -1) ∧ (0 < x.val → σ = 1) := by
  have e : (signum x : Fl fmt) = if x.isNaN then invalid else if x.neg? then num (-1) else num 1 := rfl
  have hm : Approx (num (-1) : Fl fmt) (-1) 0 := by
    obtain ⟨h1, h2⟩ := real_num (fmt := fmt) (-1)
    exact ⟨h1, by rw [show (num (-1) : Fl fmt) = num ((-1 : ℝ) : EReal) from rfl, h2]; simp⟩
  have hp : Approx (num 1 : Fl fmt) 1 0 := by
    obtain ⟨h1, h2⟩ := real_num (fmt := fmt) 1
    exact ⟨h1, by rw [show (num 1 : Fl fmt) = num ((1 : ℝ) : EReal) from rfl, h2]; simp⟩
  rw [e, if_neg h]
  cases x with
  | nan s => exact absurd trivial h
  | negZero => exact ⟨-1, by simpa [neg?] using hm, by simp, fun _ => rfl, fun h => absurd h (lt_irrefl _)⟩
  | num v =>
    by_cases hv : v < 0
    · exact ⟨-1, by simpa [neg?, hv] using hm, by simp, fun _ => rfl, fun h => absurd (hv.trans h) (lt_irrefl _)⟩
    · exact ⟨1, by simpa [neg?, hv] using hp, by simp, fun h => absurd h hv, fun _ => rfl⟩

/-- The error of the size of a deviance residual, whose square is exactly `v` and has the error `e`. -/
noncomputable def Spec.residDevError (u tiny e v : ℝ) : ℝ :=
  afterRounding u tiny (afterRounding u tiny (e / Real.sqrt v) (Real.sqrt v)) (Real.sqrt v)

theorem fit_residDev (acc : AccurateLogs fmt u tiny big) (hg : f.g = fam.glm)
    (hd : D.finalize false b = some { f.data with standardizer := none })
    (hl : LikFits u tiny big fam D b f.resultStd) {i : Fin n}
    (ht : DevTermFits u tiny big fam D b f.resultStd i) (hn : ¬ (f.residResp i).isNaN)
    (hpos : devTermError u tiny fam D b f.resultStd i < devTerm fam D b f.resultStd i)
    (hroot : Real.sqrt (devTerm fam D b f.resultStd i) + afterRounding u tiny
      (devTermError u tiny fam D b f.resultStd i / Real.sqrt (devTerm fam D b f.resultStd i))
      (Real.sqrt (devTerm fam D b f.resultStd i)) < big) :
    ∃ σ : ℝ, Approx (f.residDev i) (σ * Real.sqrt (devTerm fam D b f.resultStd i))
        (residDevError u tiny (devTermError u tiny fam D b f.resultStd i) (devTerm fam D b f.resultStd i)) ∧
      |σ| = 1 ∧ ((f.residResp i).val < 0 → σ = -1) ∧ (0 < (f.residResp i).val → σ = 1) := by
  have a := acc.toAccurate
  have h1 := fit_devTerm acc hg hd hl i ht
  obtain ⟨σ, hs, h2, h3⟩ := signum_approx hn
  refine ⟨σ, ?_, h2, h3⟩
  set v := devTerm fam D b f.resultStd i
  set e := devTermError u tiny fam D b f.resultStd i
  have he : e / Real.sqrt v ≤ afterRounding u tiny (e / Real.sqrt v) (Real.sqrt v) := by
    have := div_nonneg h1.nonneg (Real.sqrt_nonneg v)
    have := mul_nonneg a.u_nonneg (add_nonneg (abs_nonneg (Real.sqrt v)) this)
    have := a.tiny_nonneg
    unfold afterRounding
    linarith
  have k1 := h1.sqrt a hpos (by linarith)
  have e1 : ∀ t, productError 0 t σ (Real.sqrt v) = t := fun t => by
    unfold productError; rw [h2]; ring
  have e2 : |σ * Real.sqrt v| = Real.sqrt v := by
    rw [abs_mul, h2, one_mul, abs_of_nonneg (Real.sqrt_nonneg v)]
  have k2 := hs.mul a k1 (by rw [e1, e2]; exact hroot)
  rw [e1] at k2
  unfold afterRounding at k2
  rw [e2] at k2
  unfold residDevError
  rw [afterRounding, abs_of_nonneg (Real.sqrt_nonneg v)]
  exact k2

/-- **C99** (deviance residuals).  If the exact contribution of an observation to the deviance is larger
than its error, its deviance residual is not NaN: it has the sign of the computed response residual, and
its size is within an explicit bound of the root of the contribution. -/
theorem C99_residual (acc : AccurateLogs fmt u tiny big) (hd : raw.finalize false b = some data)
    (h : regression env fam.glm data options = .ok f) (hl : LikFits u tiny big fam raw b f.result) {i : Fin n}
    (ht : DevTermFits u tiny big fam raw b f.result i) (hn : ¬ (f.residResp i).isNaN)
    (hpos : devTermError u tiny fam raw b f.result i < devTerm fam raw b f.result i)
    (hroot : Real.sqrt (devTerm fam raw b f.result i) + afterRounding u tiny
      (devTermError u tiny fam raw b f.result i / Real.sqrt (devTerm fam raw b f.result i))
      (Real.sqrt (devTerm fam raw b f.result i)) < big) :
    (f.residDev i).isFinite ∧ ∃ σ : ℝ,
      |real (f.residDev i) - σ * Real.sqrt (devTerm fam raw b f.result i)| ≤
        residDevError u tiny (devTermError u tiny fam raw b f.result i) (devTerm fam raw b f.result i) ∧
      |σ| = 1 ∧ ((f.residResp i).val < 0 → σ = -1) ∧ (0 < (f.residResp i).val → σ = 1) := by
  obtain ⟨hg, hd', hr⟩ := plain_setting hd h
  obtain ⟨σ, h1, h2⟩ := fit_residDev acc hg hd' (by rw [hr]; exact hl) (i := i) (by rw [hr]; exact ht) hn
    (by rw [hr]; exact hpos) (by rw [hr]; exact hroot)
  rw [hr] at h1
  exact ⟨h1.fin, σ, h1.err, h2⟩

/-! ### Standardized fits -/

theorem readBack_deviance (hσ : ∀ j, 0 < scaleOf s j) (hμ : b = false → ∀ j, shiftOf s j = 0)
    (γ : Vec (Fl fmt) (ncols b p)) :
    devianceOf fam.glm (readBack raw data s) b (exactBack b s γ)
      = devianceOf fam.glm (exactData (storedRaw raw data)) b (fun j => real (γ j)) := by
  have h := readBack_penLogLik (fam := fam) (raw := raw) (data := data) hσ hμ 0 0 γ
  unfold exactPenLik penLogLik penalty at h
  simp only [max_self, zero_mul, zero_div, sub_zero, add_zero] at h
  unfold devianceOf
  have e : satLik fam.glm (readBack raw data s) = satLik fam.glm (exactData (storedRaw raw data)) := rfl
  rw [e]
  linarith

/-- **C99** (standardized fits).  The same bounds hold for the numbers that the fit works with: the
standardized features, read back without rounding (`readBack`), and the coefficients for the user's
features that belong to the coefficients of the iteration (`exactBack`). -/
theorem C99_standardized (acc : AccurateLogs fmt u tiny big) (hd : raw.finalize true b = some data)
    (hs : data.standardizer = some s) (h : regression env fam.glm data options = .ok f)
    (hσ : ∀ j, 0 < scaleOf s j) :
    (DevFits u tiny big fam (storedRaw raw data) b f.resultStd → f.deviance.isFinite ∧
      |real f.deviance - devianceOf fam.glm (readBack raw data s) b (exactBack b s f.resultStd)| ≤
        devianceError u tiny fam (storedRaw raw data) b f.resultStd) ∧
    (AicFits u tiny big fam (storedRaw raw data) b f.resultStd → f.aic.isFinite ∧
      |real f.aic - aicOf fam.glm (readBack raw data s) b (exactBack b s f.resultStd)| ≤
        aicError u tiny fam (storedRaw raw data) b f.resultStd) ∧
    (∀ e, PenLikFits u tiny big fam (storedRaw raw data) b options.l1 options.l2 f.resultStd →
      e = penLikError u tiny fam (storedRaw raw data) b (real options.l1) (real options.l2) f.resultStd →
      BicFits u tiny big (storedRaw raw data) b e (penLogLik fam.glm (readBack raw data s) b (real options.l1)
        (real options.l2) (scaleOf s) (exactBack b s f.resultStd)) → f.bic.isFinite ∧
      |real f.bic - bicOf (readBack raw data s) b (penLogLik fam.glm (readBack raw data s) b (real options.l1)
        (real options.l2) (scaleOf s) (exactBack b s f.resultStd))| ≤
        bicError u tiny (storedRaw raw data) b e (penLogLik fam.glm (readBack raw data s) b (real options.l1)
          (real options.l2) (scaleOf s) (exactBack b s f.resultStd))) ∧
    (freeDispersion fam = true → DispFits u tiny big fam (storedRaw raw data) b f.resultStd →
      f.dispersion.isFinite ∧
      |real f.dispersion - dispersionOf fam.glm (readBack raw data s) b (exactBack b s f.resultStd)| ≤
        dispersionError u tiny fam (storedRaw raw data) b f.resultStd) := by
  have hμ : b = false → ∀ j, shiftOf s j = 0 := by rintro rfl j; exact std_shift hd hs j
  have hD := stored_finalize hd hs
  obtain ⟨hg, rfl, -, -⟩ := regression_coherent h
  have hdev := readBack_deviance (fam := fam) (raw := raw) (data := f.data) hσ hμ f.resultStd
  refine ⟨fun hf => ?_, fun hf => ?_, fun e hp he hf => ?_, fun hfree hf => ?_⟩
  · have := fit_deviance acc hg hD hf
    rw [hdev]
    exact ⟨this.fin, this.err⟩
  · have := fit_aic acc hg hD hf
    unfold aicOf at this ⊢
    rw [hdev]
    exact ⟨this.fin, this.err⟩
  · obtain ⟨-, h1, h2⟩ := C97_likelihood acc hd hs h hσ hp
    have := fit_bic acc hD ⟨h1, he ▸ h2⟩ hp.1.2.1 hf
    exact ⟨this.fin, this.err⟩
  · have := fit_dispersion acc hg hD hfree hf
    unfold dispersionOf at this ⊢
    rw [hdev]
    exact ⟨this.fin, this.err⟩

end
end GLM
