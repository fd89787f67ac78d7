/-
  C99: deviance, information criteria and dispersion are computed accurately.
-/
import Verif.Spec.DevianceAccuracy
import Verif.Props.ScaleAccuracy
import Verif.Props.LikeAccuracy

namespace GLM
open Spec Scalar Fl Matrix

section
variable {fmt : FloatFormat} {n p : ℕ} {b : Bool} {u tiny big : ℝ}

namespace Approx
variable {x y : Fl fmt} {v w e d : ℝ}

theorem neg (h : Approx x v e) : Approx (-x) (-v) e := by
  obtain ⟨h1, h2⟩ := real_neg h.fin
  refine ⟨h1, ?_⟩
  rw [h2, ← neg_sub', _root_.abs_neg]
  exact h.err

theorem add (acc : Accurate fmt u tiny big) (hx : Approx x v e) (hy : Approx y w d)
    (hlt : |v + w| + (e + d) < big) :
    Approx (x + y) (v + w) (afterRounding u tiny (e + d) (v + w)) := by
  obtain ⟨h1, h2⟩ := add_rounded acc hx.fin hy.fin hx.err hy.err hlt
  exact ⟨h1, h2⟩

theorem one : Approx (1 : Fl fmt) 1 0 := ⟨real_one.1, by rw [real_one.2]; simp⟩

theorem zero : Approx (0 : Fl fmt) 0 0 := ⟨real_zero.1, by rw [real_zero.2]; simp⟩

theorem two (acc : Accurate fmt u tiny big) : Approx (Scalar.two : Fl fmt) 2 0 :=
  ⟨(two_near acc).1, by rw [(two_near acc).2]; simp⟩

theorem half (acc : AccurateLogs fmt u tiny big) : Approx (Scalar.half : Fl fmt) (1 / 2) 0 :=
  ⟨(half_near acc).1, by rw [(half_near acc).2]; simp⟩

/-- A natural number. -/
theorem count (acc : Accurate fmt u tiny big) (k : ℕ) (hk : (k : ℝ) < big) :
    Approx (ofNat k : Fl fmt) k (countError u tiny k) := by
  obtain ⟨r, hr, hn⟩ := rnd_lt acc (v := k) (by rwa [abs_of_nonneg (Nat.cast_nonneg k)])
  obtain ⟨f1, f2⟩ := finite_of_val (x := (ofNat k : Fl fmt)) (r := r) (by simp [ofNat_def, isNaN])
    (by rw [ofNat_def]; exact hr)
  refine ⟨f1, ?_⟩
  rw [f2]
  simpa [Near, countError] using hn

theorem ln (acc : AccurateLogs fmt u tiny big) (hx : Approx x v e) (he : e < v)
    (hlt : |Real.log v| + e / (v - e) < big) :
    Approx (Scalar.ln x) (Real.log v) (lnError u tiny e v) := by
  have hv : 0 < v := hx.nonneg.trans_lt he
  have hve : 0 < v - e := sub_pos.mpr he
  obtain ⟨h1, h2⟩ := _root_.abs_le.mp hx.err
  have hx0 : 0 < real x := by linarith
  have e0 := hx.nonneg
  have h : |Real.log (real x) - Real.log v| ≤ e / (v - e) := by
    rw [_root_.abs_le]
    constructor
    · have := Real.log_le_sub_one_of_pos (div_pos hv hx0)
      rw [Real.log_div hv.ne' hx0.ne'] at this
      have h3 : v / real x - 1 ≤ e / (v - e) := by
        rw [div_sub_one hx0.ne']
        exact div_le_div₀ e0 (by linarith) hve (by linarith)
      linarith
    · have := Real.log_le_sub_one_of_pos (div_pos hx0 hv)
      rw [Real.log_div hx0.ne' hv.ne'] at this
      have h3 : real x / v - 1 ≤ e / (v - e) := by
        rw [div_sub_one hv.ne']
        exact div_le_div₀ e0 (by linarith) hve (by linarith)
      linarith
  have hb : |Real.log (real x)| < big := by
    have := abs_add_le (Real.log (real x) - Real.log v) (Real.log v)
    rw [sub_add_cancel] at this
    linarith
  obtain ⟨f1, f2⟩ := ln_near acc hx.fin hx0 hb
  exact ⟨f1, near_rounded acc.u_nonneg h f2⟩

/-- A number at a known distance from zero that is compared with zero. -/
theorem prodLog (acc : AccurateLogs fmt u tiny big) (hx : Approx x v e) (he : v = 0 → e = 0)
    (hf : PlogFits u tiny big e v) :
    Approx (GLM.prodLog x) (v * Real.log v) (plogError u tiny e v) := by
  unfold GLM.prodLog plogError
  by_cases hv : v = 0
  · have h0 : real x = 0 := by
      have := hx.err
      rw [he hv, hv, sub_zero] at this
      exact abs_nonpos_iff.mp this
    have : Scalar.eq x 0 = true :=
      eq_iff.mpr ⟨hx.fin.1, real_zero.1.1, by rw [val_real hx.fin, val_real real_zero.1, h0, real_zero.2]⟩
    rw [if_pos this, if_pos hv, hv, zero_mul]
    exact zero
  · obtain ⟨h1, h2, h3⟩ := hf hv
    have hx0 : 0 < real x := by
      have := (_root_.abs_le.mp hx.err).1
      linarith
    have : ¬ Scalar.eq x 0 = true := by
      rw [eq_iff]
      rintro ⟨-, -, h⟩
      rw [val_real hx.fin, val_real real_zero.1, real_zero.2] at h
      exact hx0.ne' (by exact_mod_cast h)
    rw [if_neg this, if_neg hv]
    exact hx.mul acc.toAccurate (hx.ln acc h1 h2) h3

/-- A difference of exact numbers that may be zero. -/
theorem difference (acc : Accurate fmt u tiny big) (hx : Approx x v 0) (hy : Approx y w 0)
    (hlt : |v - w| < big) : Approx (x - y) (v - w) (differenceError u tiny (v - w)) := by
  have h := hx.sub acc hy (by rwa [add_zero, add_zero])
  rw [add_zero] at h
  unfold differenceError
  by_cases hv : v - w = 0
  · have ex : real x = v := by
      have := hx.err
      linarith [_root_.abs_le.mp this]
    have ey : real y = w := by
      have := hy.err
      linarith [_root_.abs_le.mp this]
    rw [if_pos hv, hv]
    have hf := h.fin
    rw [sub_eq] at hf ⊢
    obtain ⟨h1, h2⟩ := finite_of_val (r := 0) hf.1 (by
      rw [val_add hf.1, val_neg, val_real hx.fin, val_real hy.fin, ← EReal.coe_neg, ← EReal.coe_add, ex, ey,
        ← sub_eq_add_neg, hv]
      exact fmt.rnd_zero)
    exact ⟨h1, by rw [h2]; simp⟩
  · rw [if_neg hv]; exact h

end Approx

/-! ### The saturated log-likelihood -/

/-- **C99** (saturated log-likelihood). -/
theorem sat_approx (acc : AccurateLogs fmt u tiny big) (fam : Family) {y : Fl fmt} (hy : y.isFinite)
    (hf : SatFits fmt u tiny big fam (real y)) :
    Approx (fam.glm.logLikeSat y) (satTerm fam (real y)) (satError u tiny fam (real y)) := by
  have a := acc.toAccurate
  have sy := Approx.self hy
  have logistic : SatFits fmt u tiny big .logisticLogit (real y) →
      Approx (prodLog y + prodLog (1 - y)) (satTerm .logisticLogit (real y))
        (satError u tiny .logisticLogit (real y)) := by
    rintro ⟨h1, h2, h3, h4⟩
    have k1 := sy.prodLog acc (fun _ => rfl) h2
    have k2 := (Approx.one.difference a sy h1).prodLog acc (fun h => by simp [differenceError, h]) h3
    have e : satTerm .logisticLogit (real y)
        = real y * Real.log (real y) + (1 - real y) * Real.log (1 - real y) := by
      change prodLog (real y) + prodLog (1 - real y) = _
      simp only [prodLog_real]
    rw [e]
    exact k1.add a k2 h4
  have gamma : SatFits fmt u tiny big .gammaLog (real y) →
      Approx (-(1 + ln y)) (satTerm .gammaLog (real y)) (satError u tiny .gammaLog (real y)) := by
    rintro ⟨h1, h2, h3⟩
    have k1 := sy.ln acc h1 (by rwa [zero_div, add_zero])
    have k2 := (Approx.one.add a k1 (by rwa [zero_add])).neg
    rw [zero_add] at k2
    exact k2
  have ig : SatFits fmt u tiny big .invGaussLog (real y) →
      Approx (half * recip y) (satTerm .invGaussLog (real y)) (satError u tiny .invGaussLog (real y)) := by
    rintro ⟨h1, h2, h3⟩
    have k1 := Approx.one.div a sy (by rwa [abs_of_pos h1])
      (by simpa [quotientError] using h2)
    have q0 : quotientError 0 0 1 (real y) = 0 := by simp [quotientError]
    rw [q0] at k1
    have k2 := (Approx.half acc).mul a k1 (by
      have : productError 0 (afterRounding u tiny 0 (1 / real y)) (1 / 2) (1 / real y)
          = 1 / 2 * afterRounding u tiny 0 (1 / real y) := by
        unfold productError; rw [abs_of_pos (by norm_num : (0 : ℝ) < 1 / 2)]; ring
      rw [this]; exact h3)
    have e : productError 0 (afterRounding u tiny 0 (1 / real y)) (1 / 2) (1 / real y)
        = 1 / 2 * afterRounding u tiny 0 (1 / real y) := by
      unfold productError; rw [abs_of_pos (by norm_num : (0 : ℝ) < 1 / 2)]; ring
    rw [e] at k2
    have e2 : satTerm .invGaussLog (real y) = 1 / 2 * (1 / real y) := by
      change half * recip (real y) = _
      rw [half_real]; rfl
    rw [e2]
    exact k2
  cases fam with
  | linear =>
    obtain ⟨h1, h2⟩ := hf
    have k1 := (Approx.half acc).exact_mul a hy (by simpa using h1)
    rw [zero_mul] at k1
    have k2 := k1.exact_mul a hy h2
    have e : satTerm .linear (real y) = 1 / 2 * real y * real y := by
      change half * real y * real y = _
      rw [half_real]
    rw [e]
    exact k2
  | logisticLogit => exact logistic hf
  | logisticCloglog => exact logistic hf
  | poisson =>
    obtain ⟨h1, h2⟩ := hf
    have k1 := (sy.prodLog acc (fun _ => rfl) h1).sub a sy (by rwa [add_zero])
    rw [add_zero] at k1
    have e : satTerm .poisson (real y) = real y * Real.log (real y) - real y := by
      change prodLog (real y) - real y = _
      rw [prodLog_real]
    rw [e]
    exact k1
  | binomial N =>
    obtain ⟨h0, h1, h2, h3, h4, h5, h6⟩ := hf
    have hN : Approx (ofNat N : Fl fmt) N 0 := by
      obtain ⟨f1, f2⟩ := finite_of_val (x := (ofNat N : Fl fmt)) (r := N) (by simp [ofNat_def, isNaN])
        (by rw [ofNat_def]; exact h0)
      exact ⟨f1, by rw [f2]; simp⟩
    have k1 := sy.prodLog acc (fun _ => rfl) h2
    have k2 := (hN.difference a sy h1).prodLog acc (fun h => by simp [differenceError, h]) h3
    have k3 := hN.prodLog acc (fun _ => rfl) h4
    have e : satTerm (.binomial N) (real y) = real y * Real.log (real y)
        + (N - real y) * Real.log (N - real y) - N * Real.log N := by
      change prodLog (real y) + prodLog (ofNat N - real y) - prodLog (ofNat N) = _
      simp only [prodLog_real, ofNat_real]
    rw [e]
    exact (k1.add a k2 h5).sub a k3 h6
  | exponentialNegRec => exact gamma hf
  | exponentialLog => exact gamma hf
  | gammaNegRec => exact gamma hf
  | gammaLog => exact gamma hf
  | invGaussNegRecSq => exact ig hf
  | invGaussLog => exact ig hf

/-! ### The deviance -/

variable {raw : Dataset (Fl fmt) n p false} {data : Dataset (Fl fmt) n p b} {fam : Family}
  {β : Vec (Fl fmt) (ncols b p)}

/-- Multiplying by the variance weights, for a data set with or without an intercept. -/
theorem applyVar_approx (acc : Accurate fmt u tiny big)
    (hw : ∀ w, raw.weights = some w → ∀ i, (w i).isFinite) {v : Vec (Fl fmt) n} {s e : Fin n → ℝ} (i : Fin n)
    (h : Approx (v i) (s i) (e i))
    (hlt : |varWt (exactData raw) i * s i| + |varWt (exactData raw) i| * e i < big) :
    Approx (raw.applyVarWeights v i) (varWt (exactData raw) i * s i)
      (afterRounding u tiny (|varWt (exactData raw) i| * e i) (varWt (exactData raw) i * s i)) := by
  unfold Dataset.applyVarWeights
  cases hc : raw.weights with
  | none =>
    have hone : varWt (exactData raw) i = 1 := by simp [varWt, exactData, hc]
    rw [hone, one_mul, abs_one, one_mul]
    exact h.rounding acc
  | some f =>
    have hfi : varWt (exactData raw) i = real (f i) := by simp [varWt, exactData, hc]
    rw [hfi] at hlt ⊢
    exact Approx.mul_exact acc (hw f hc i) h hlt

/-- The sum of numbers, counted with their frequencies. -/
theorem freqSum_approx (acc : Accurate fmt u tiny big)
    (hf : ∀ f, raw.freqs = some f → ∀ i, (f i).isFinite) {v : Vec (Fl fmt) n} {s e : Fin n → ℝ}
    (h : ∀ i, Approx (v i) (s i) (e i))
    (hlt : ∀ i, |freq (exactData raw) i * s i| + |freq (exactData raw) i| * e i < big)
    (hs : ∑ i, |freq (exactData raw) i * s i| + freqSumError u tiny raw s e < big) :
    Approx (raw.freqSum v) (∑ i, freq (exactData raw) i * s i) (freqSumError u tiny raw s e) :=
  Approx.vsum acc (fun i => applyFreq_approx acc hf i (h i) (hlt i)) hs

/-- **C99** (contributions to the deviance). -/
theorem devTerm_approx (acc : AccurateLogs fmt u tiny big) (hd : raw.finalize false b = some data)
    (hl : LikFits u tiny big fam raw b β) (i : Fin n) (ht : DevTermFits u tiny big fam raw b β i) :
    Approx (data.applyVarWeights (fun i => (fam.glm.logLikeSat (data.y i) - fam.glm.logLikeTerms data β i)
      * two) i) (devTerm fam raw b β i) (devTermError u tiny fam raw b β i) := by
  have a := acc.toAccurate
  obtain ⟨h1, h2, h3, h4⟩ := ht
  have hrow := row_near acc fam hd hl i
  obtain ⟨hy, hw, -⟩ := hl
  have hd' := finalize_plain hd
  have hyd : data.y i = raw.y i := by rw [hd']
  have k1 := (sat_approx acc fam (hy i) h1).sub a ⟨hrow.1, hrow.2⟩ h2
  have k2 := k1.exact_mul a (two_near a).1 (by rw [(two_near a).2, abs_two]; exact h3)
  rw [(two_near a).2, abs_two] at k2
  have k3 := applyVar_approx (raw := raw) a hw (v := fun i =>
    (fam.glm.logLikeSat (data.y i) - fam.glm.logLikeTerms data β i) * two)
    (s := fun i => (satTerm fam (real (raw.y i)) - rowLik fam raw b β i) * 2)
    (e := fun i => twiceError u tiny fam raw b β i) i (by rw [hyd]; exact k2) h4
  have e : ∀ v : Vec (Fl fmt) n, data.applyVarWeights v = raw.applyVarWeights v := fun v => by
    unfold Dataset.applyVarWeights; rw [hd']
  rw [e]
  exact k3

theorem exact_deviance (fam : Family) (raw : Dataset (Fl fmt) n p false) (β : Vec (Fl fmt) (ncols b p)) :
    devianceOf fam.glm (exactData raw) b (fun j => real (β j))
      = ∑ i, freq (exactData raw) i * devTerm fam raw b β i := by
  unfold devianceOf satLik
  rw [exact_logLik, ← Finset.sum_sub_distrib, Finset.mul_sum]
  refine Finset.sum_congr rfl fun i _ => ?_
  unfold devTerm totalWt satTerm
  have : (exactData raw).y i = real (raw.y i) := rfl
  rw [this]
  ring

/-- **C99** (deviance). -/
theorem deviance_approx (acc : AccurateLogs fmt u tiny big) (hd : raw.finalize false b = some data)
    (hf : DevFits u tiny big fam raw b β) :
    Approx (data.freqSum (data.applyVarWeights fun i =>
        (fam.glm.logLikeSat (data.y i) - fam.glm.logLikeTerms data β i) * two))
      (devianceOf fam.glm (exactData raw) b fun j => real (β j)) (devianceError u tiny fam raw b β) := by
  have e : ∀ v : Vec (Fl fmt) n, data.freqSum v = raw.freqSum v := fun v => by
    unfold Dataset.freqSum Dataset.applyFreqWeights; rw [finalize_plain hd]
  rw [e, exact_deviance]
  exact freqSum_approx acc.toAccurate hf.like.2.2.1
    (fun i => devTerm_approx acc hd hf.like i (hf.terms i)) hf.weighted hf.sum

/-! ### Information criteria -/

/-- The sum of the logarithms of the weights. -/
theorem logWeights_approx (acc : AccurateLogs fmt u tiny big)
    (hw : ∀ w, raw.weights = some w → ∀ i, (w i).isFinite)
    (hf : ∀ f, raw.freqs = some f → ∀ i, (f i).isFinite) (hl : LogWeightsFit u tiny big raw) :
    Approx (raw.freqSum fun i => ln (raw.getVarianceWeights i)) (logWeights (exactData raw))
      (logWeightsError u tiny raw) := by
  refine freqSum_approx acc.toAccurate hf (fun i => ?_) hl.weighted hl.sum
  have h1 : Approx (raw.getVarianceWeights i) (varWt (exactData raw) i) 0 := by
    unfold Dataset.getVarianceWeights
    cases hc : raw.weights with
    | none =>
      have hone : varWt (exactData raw) i = 1 := by simp [varWt, exactData, hc]
      rw [hone]
      exact Approx.one
    | some w =>
      have hwi : varWt (exactData raw) i = real (w i) := by simp [varWt, exactData, hc]
      rw [hwi]
      exact Approx.self (hw w hc i)
  exact h1.ln acc (hl.positive i) (by rw [zero_div, add_zero]; exact hl.small i)

theorem twice_approx (acc : Accurate fmt u tiny big) {x : Fl fmt} {v e : ℝ} (h : Approx x v e)
    (hlt : |2 * v| + 2 * e < big) : Approx (two * x) (2 * v) (afterRounding u tiny (2 * e) (2 * v)) := by
  have := Approx.mul_exact acc (two_near acc).1 h (by rw [(two_near acc).2, abs_two]; exact hlt)
  rwa [(two_near acc).2, abs_two] at this

/-- The number of observations. -/
theorem nObs_approx (acc : Accurate fmt u tiny big) (hf : ∀ f, raw.freqs = some f → ∀ i, (f i).isFinite)
    (hlt : ∑ i, |freq (exactData raw) i| + obsError u tiny raw < big) :
    Approx raw.nObs (obsCount (exactData raw)) (obsError u tiny raw) := by
  unfold Dataset.nObs obsCount
  cases hc : raw.freqs with
  | none =>
    have hfr : ∀ i, freq (exactData raw) i = 1 := fun i => by simp [freq, exactData, hc]
    simp only [hfr, obsError, hc, abs_one, Finset.sum_const, Finset.card_univ, Fintype.card_fin,
      nsmul_eq_mul, mul_one] at hlt ⊢
    refine Approx.count acc n ?_
    have := mul_nonneg acc.u_nonneg (Nat.cast_nonneg (α := ℝ) n)
    have := acc.tiny_nonneg
    unfold countError at hlt
    linarith
  | some f =>
    have hfr : ∀ i, freq (exactData raw) i = real (f i) := fun i => by simp [freq, exactData, hc]
    simp only [obsError, hc] at hlt ⊢
    exact Approx.vsum acc (fun i => by rw [hfr]; exact Approx.self (hf f hc i)) hlt

/-- **C99** (Bayesian criterion), for a log-likelihood with a known error. -/
theorem bic_approx (acc : AccurateLogs fmt u tiny big) {x : Fl fmt} {l e : ℝ} (hx : Approx x l e)
    (hw : ∀ w, raw.weights = some w → ∀ i, (w i).isFinite) (hf : BicFits u tiny big raw b e l) :
    Approx (ln raw.nObs * ofNat (ncols b p) - two * x - two * raw.freqSum fun i => ln (raw.getVarianceWeights i))
      (bicOf (exactData raw) b l) (bicError u tiny raw b e l) := by
  have a := acc.toAccurate
  have k1 := (nObs_approx a hf.freqs hf.obs).ln acc hf.positive hf.log
  have k2 := k1.mul a (Approx.count a (ncols b p) hf.rank) hf.term
  have k3 := k2.sub a (twice_approx a hx hf.like) hf.sum
  exact k3.sub a (twice_approx a (logWeights_approx acc hw hf.freqs hf.logs) hf.logs.twice) hf.total

/-- The sum of the weights. -/
theorem sumWeights_approx (acc : Accurate fmt u tiny big) (hw : WeightsFit u tiny big raw)
    (hlt : ∑ i, |totalWt (exactData raw) i| + sumWeightsError u tiny raw < big) :
    Approx raw.sumWeights (weightSum (exactData raw)) (sumWeightsError u tiny raw) := by
  unfold Dataset.sumWeights weightSum
  cases hc : raw.weights with
  | none =>
    have hone : ∀ i, totalWt (exactData raw) i = freq (exactData raw) i := fun i => by
      simp [totalWt, varWt, exactData, hc]
    simp only [hone, sumWeightsError, hc] at hlt ⊢
    exact nObs_approx acc hw.freqs hlt
  | some w =>
    have hwi : ∀ i, varWt (exactData raw) i = real (w i) := fun i => by simp [varWt, exactData, hc]
    simp only [sumWeightsError, hc] at hlt ⊢
    refine freqSum_approx acc hw.freqs (fun i => ?_) (fun i => ?_) hlt
    · rw [hwi]; exact Approx.self (hw.weights w hc i)
    · have h1 := (hw.small i).2
      have h2 : 0 ≤ |freq (exactData raw) i| * afterRounding u tiny 0 (varWt (exactData raw) i) := by
        refine mul_nonneg (abs_nonneg _) ?_
        have := mul_nonneg acc.u_nonneg (abs_nonneg (varWt (exactData raw) i))
        have := acc.tiny_nonneg
        simp only [afterRounding, add_zero, zero_add]
        linarith
      rw [mul_zero, add_zero]
      unfold totalWt at h1
      linarith

/-! ### Fits

`D` are the numbers that the fit works with: the user's own without standardization, the standardized ones
otherwise. -/

variable {env : Env (Fl fmt)} {options : FitOptions (Fl fmt) (ncols b p)} {f : Fit (Fl fmt) n p b}
  {s : Standardizer (Fl fmt) p} {D : Dataset (Fl fmt) n p false}

theorem fit_deviance (acc : AccurateLogs fmt u tiny big) (hg : f.g = fam.glm)
    (hd : D.finalize false b = some { f.data with standardizer := none })
    (hf : DevFits u tiny big fam D b f.resultStd) :
    Approx f.deviance (devianceOf fam.glm (exactData D) b fun j => real (f.resultStd j))
      (devianceError u tiny fam D b f.resultStd) := by
  have := deviance_approx acc hd hf
  unfold Fit.deviance Fit.devianceTerms
  rw [hg]
  exact this

theorem fit_devTerm (acc : AccurateLogs fmt u tiny big) (hg : f.g = fam.glm)
    (hd : D.finalize false b = some { f.data with standardizer := none })
    (hl : LikFits u tiny big fam D b f.resultStd) (i : Fin n)
    (ht : DevTermFits u tiny big fam D b f.resultStd i) :
    Approx (f.devianceTerms i) (devTerm fam D b f.resultStd i) (devTermError u tiny fam D b f.resultStd i) := by
  have := devTerm_approx acc hd hl i ht
  unfold Fit.devianceTerms
  rw [hg]
  exact this

theorem fit_logWeights (acc : AccurateLogs fmt u tiny big)
    (hd : D.finalize false b = some { f.data with standardizer := none })
    (hw : ∀ w, D.weights = some w → ∀ i, (w i).isFinite)
    (hf : ∀ v, D.freqs = some v → ∀ i, (v i).isFinite) (hl : LogWeightsFit u tiny big D) :
    Approx f.sumLogWeights (logWeights (exactData D)) (logWeightsError u tiny D) := by
  have h := logWeights_approx acc hw hf hl
  have hd' := finalize_plain hd
  have e1 : f.data.weights = D.weights := congrArg Dataset.weights hd'
  have e2 : f.data.freqs = D.freqs := congrArg Dataset.freqs hd'
  have e : f.sumLogWeights = D.freqSum fun i => ln (D.getVarianceWeights i) := by
    unfold Fit.sumLogWeights Dataset.freqSum Dataset.applyFreqWeights Dataset.getVarianceWeights
    rw [e1, e2]
  rw [e]
  exact h

theorem fit_aic (acc : AccurateLogs fmt u tiny big) (hg : f.g = fam.glm)
    (hd : D.finalize false b = some { f.data with standardizer := none })
    (hf : AicFits u tiny big fam D b f.resultStd) :
    Approx f.aic (aicOf fam.glm (exactData D) b fun j => real (f.resultStd j))
      (aicError u tiny fam D b f.resultStd) := by
  have a := acc.toAccurate
  have h1 := fit_deviance acc hg hd hf.deviance
  have hk : (ncols b p : ℝ) < big := by
    have := hf.rank
    have := mul_nonneg a.u_nonneg (Nat.cast_nonneg (α := ℝ) (ncols b p))
    have := a.tiny_nonneg
    have := Nat.cast_nonneg (α := ℝ) (ncols b p)
    unfold countError at *
    linarith
  have h2 := twice_approx a (Approx.count a (ncols b p) hk)
    (by rw [abs_of_nonneg (by positivity)]; exact hf.rank)
  have h3 := twice_approx a (fit_logWeights acc hd hf.deviance.like.2.1 hf.deviance.like.2.2.1 hf.logs)
    hf.logs.twice
  exact (h1.add a h2 hf.sum).sub a h3 hf.total

theorem fit_bic (acc : AccurateLogs fmt u tiny big)
    (hd : D.finalize false b = some { f.data with standardizer := none }) {l e : ℝ}
    (hx : Approx f.modelLike l e) (hw : ∀ w, D.weights = some w → ∀ i, (w i).isFinite)
    (hf : BicFits u tiny big D b e l) :
    Approx f.bic (bicOf (exactData D) b l) (bicError u tiny D b e l) := by
  have h := bic_approx acc hx hw hf
  have hd' := finalize_plain hd
  have e1 : f.data.weights = D.weights := congrArg Dataset.weights hd'
  have e2 : f.data.freqs = D.freqs := congrArg Dataset.freqs hd'
  have e : f.bic = ln D.nObs * ofNat (ncols b p) - two * f.modelLike
      - two * D.freqSum fun i => ln (D.getVarianceWeights i) := by
    unfold Fit.bic Fit.sumLogWeights Fit.rank Dataset.nObs Dataset.freqSum Dataset.applyFreqWeights
      Dataset.getVarianceWeights
    rw [e1, e2]
  rw [e]
  exact h

theorem fit_dispersion (acc : AccurateLogs fmt u tiny big) (hg : f.g = fam.glm)
    (hd : D.finalize false b = some { f.data with standardizer := none }) (hfree : freeDispersion fam = true)
    (hf : DispFits u tiny big fam D b f.resultStd) :
    Approx f.dispersion (dispersionOf fam.glm (exactData D) b fun j => real (f.resultStd j))
      (dispersionError u tiny fam D b f.resultStd) := by
  have a := acc.toAccurate
  have h1 := fit_deviance acc hg hd hf.deviance
  have hd' := finalize_plain hd
  have e1 : f.data.weights = D.weights := congrArg Dataset.weights hd'
  have e2 : f.data.freqs = D.freqs := congrArg Dataset.freqs hd'
  have en : f.data.nEff = D.nEff := by
    unfold Dataset.nEff Dataset.nObs Dataset.freqSum Dataset.applyFreqWeights; rw [e1, e2]
  have es : f.data.sumWeights = D.sumWeights := by
    unfold Dataset.sumWeights Dataset.nObs Dataset.freqSum Dataset.applyFreqWeights; rw [e1, e2]
  have hq := Approx.count (fmt := fmt) a (ncols b p) hf.rank
  have hN := nEff_approx a hf.weights hf.count
  have hW := sumWeights_approx a hf.weights hf.sum
  have hm := hf.more
  have hk0 := Nat.cast_nonneg (α := ℝ) (ncols b p)
  have hc0 := hq.nonneg
  have hle : Scalar.le D.nEff (ofNat (ncols b p)) = false := by
    rw [Bool.eq_false_iff, ne_eq, le_iff]
    rintro ⟨-, -, h⟩
    rw [val_real hN.fin, val_real hq.fin] at h
    have h : real D.nEff ≤ real (ofNat (ncols b p) : Fl fmt) := by exact_mod_cast h
    have := (abs_le.mp hN.err).1
    have := (abs_le.mp hq.err).2
    linarith
  have hdisp : f.g.dispersed = .free := by
    rw [hg]
    cases fam <;> first | rfl | simp [freeDispersion] at hfree
  have e : f.dispersion = f.deviance / ((1 - ofNat (ncols b p) / D.nEff) * D.sumWeights) := by
    rw [Fit.dispersion, hdisp]
    simp only [en, es, Fit.rank, hle, Bool.false_eq_true, if_false]
  rw [e]
  have k1 := hq.div a hN (by rw [abs_of_pos (by linarith [hN.nonneg])]; linarith) hf.ratio
  have k2 := Approx.one.sub a k1 (by rw [zero_add]; exact hf.share)
  rw [zero_add] at k2
  have k3 := k2.mul a hW hf.product
  exact h1.div a k3 hf.positive hf.quotient

end
end GLM
