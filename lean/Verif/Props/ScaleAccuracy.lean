/-
  C98: the computed means and standard deviations of the features are near the exact ones.
-/
import Verif.Spec.ScaleAccuracy
import Verif.Props.ComputedScale

namespace GLM
open Spec Scalar Fl Matrix

section
variable {fmt : FloatFormat} {n p : ℕ} {b : Bool} {u tiny big : ℝ}

/-- A finite number at distance at most `e` from `v`. -/
structure Approx (x : Fl fmt) (v e : ℝ) : Prop where
  fin : x.isFinite
  err : |real x - v| ≤ e

namespace Approx
variable {x y : Fl fmt} {v w e d : ℝ}

theorem self (hx : x.isFinite) : Approx x (real x) 0 := ⟨hx, by simp⟩

theorem nonneg (h : Approx x v e) : 0 ≤ e := (abs_nonneg _).trans h.err

theorem mono (h : Approx x v e) (hd : e ≤ d) : Approx x v d := ⟨h.fin, h.err.trans hd⟩

theorem abs_le (h : Approx x v e) : |real x| ≤ |v| + e := by
  have := abs_add_le (real x - v) v
  rw [sub_add_cancel] at this
  have := h.err
  linarith

theorem rounding (acc : Accurate fmt u tiny big) (h : Approx x v e) :
    Approx x v (afterRounding u tiny e v) := by
  refine h.mono ?_
  have := mul_nonneg acc.u_nonneg (add_nonneg (abs_nonneg v) h.nonneg)
  have := acc.tiny_nonneg
  unfold afterRounding
  linarith

theorem mul (acc : Accurate fmt u tiny big) (hx : Approx x v e) (hy : Approx y w d)
    (hlt : |v * w| + productError e d v w < big) :
    Approx (x * y) (v * w) (afterRounding u tiny (productError e d v w) (v * w)) := by
  have h : |real x * real y - v * w| ≤ productError e d v w := by
    have e1 : real x * real y - v * w = (real x - v) * w + v * (real y - w) + (real x - v) * (real y - w) := by
      ring
    rw [e1]
    refine (abs_add_three _ _ _).trans ?_
    rw [abs_mul, abs_mul, abs_mul]
    unfold productError
    gcongr
    · exact hx.err
    · exact hy.err
    · exact hx.nonneg
    · exact hx.err
    · exact hy.err
  obtain ⟨h1, h2⟩ := mul_rounded acc hx.fin hy.fin h hlt
  exact ⟨h1, h2⟩

/-- The first factor is exact. -/
theorem mul_exact (acc : Accurate fmt u tiny big) (hx : x.isFinite) (hy : Approx y w d)
    (hlt : |real x * w| + |real x| * d < big) :
    Approx (x * y) (real x * w) (afterRounding u tiny (|real x| * d) (real x * w)) := by
  have := (self hx).mul acc hy (by simpa [productError] using hlt)
  simpa [productError] using this

/-- The second factor is exact. -/
theorem exact_mul (acc : Accurate fmt u tiny big) (hx : Approx x v e) (hy : y.isFinite)
    (hlt : |v * real y| + e * |real y| < big) :
    Approx (x * y) (v * real y) (afterRounding u tiny (e * |real y|) (v * real y)) := by
  have := hx.mul acc (self hy) (by simpa [productError] using hlt)
  simpa [productError] using this

theorem sub (acc : Accurate fmt u tiny big) (hx : Approx x v e) (hy : Approx y w d)
    (hlt : |v - w| + (e + d) < big) :
    Approx (x - y) (v - w) (afterRounding u tiny (e + d) (v - w)) := by
  obtain ⟨h1, h2⟩ := sub_rounded acc hx.fin hy.fin hx.err hy.err hlt
  exact ⟨h1, h2⟩

theorem div (acc : Accurate fmt u tiny big) (hx : Approx x v e) (hy : Approx y w d) (hw : d < |w|)
    (hlt : |v / w| + quotientError e d v w < big) :
    Approx (x / y) (v / w) (afterRounding u tiny (quotientError e d v w) (v / w)) := by
  have hd := hy.nonneg
  have hw0 : w ≠ 0 := abs_pos.mp (hd.trans_lt hw)
  have hy1 : |w| - d ≤ |real y| := by
    have := abs_add_le (w - real y) (real y)
    rw [sub_add_cancel, abs_sub_comm] at this
    have := hy.err
    linarith
  have hy0 : real y ≠ 0 := abs_pos.mp ((sub_pos.mpr hw).trans_le hy1)
  have h : |real x / real y - v / w| ≤ quotientError e d v w := by
    have e1 : real x / real y - v / w = ((real x - v) - v / w * (real y - w)) / real y := by
      field_simp
      ring
    rw [e1, abs_div]
    unfold quotientError
    have h1 : |(real x - v) - v / w * (real y - w)| ≤ e + |v / w| * d := by
      refine (abs_sub _ _).trans (add_le_add hx.err ?_)
      rw [abs_mul]
      exact mul_le_mul_of_nonneg_left hy.err (abs_nonneg _)
    exact div_le_div₀ ((abs_nonneg _).trans h1) h1 (sub_pos.mpr hw) hy1
  have hb : |real x / real y| < big := by
    have := abs_add_le (real x / real y - v / w) (v / w)
    rw [sub_add_cancel] at this
    linarith
  obtain ⟨f1, f2⟩ := div_near acc hx.fin hy.fin hy0 hb
  exact ⟨f1, near_rounded acc.u_nonneg h f2⟩

theorem sqrt (acc : Accurate fmt u tiny big) (hx : Approx x v e) (he : e < v)
    (hlt : Real.sqrt v + e / Real.sqrt v < big) :
    Approx (Scalar.sqrt x) (Real.sqrt v) (afterRounding u tiny (e / Real.sqrt v) (Real.sqrt v)) := by
  have hv : 0 < v := hx.nonneg.trans_lt he
  have hs : 0 < Real.sqrt v := Real.sqrt_pos.mpr hv
  have hx0 : 0 ≤ real x := by
    have := (_root_.abs_le.mp hx.err).1
    linarith
  have h : |Real.sqrt (real x) - Real.sqrt v| ≤ e / Real.sqrt v := by
    rw [le_div_iff₀ hs]
    have hr := Real.sqrt_nonneg (real x)
    have e1 : real x - v = (Real.sqrt (real x) - Real.sqrt v) * (Real.sqrt (real x) + Real.sqrt v) := by
      have h1 := Real.mul_self_sqrt hx0
      have h2 := Real.mul_self_sqrt hv.le
      linear_combination -h1 + h2
    have h3 := hx.err
    rw [e1, abs_mul, abs_of_nonneg (add_nonneg hr hs.le)] at h3
    refine le_trans (mul_le_mul_of_nonneg_left ?_ (abs_nonneg _)) h3
    linarith
  have hb : Real.sqrt (real x) < big := by
    have := le_abs_self (Real.sqrt (real x) - Real.sqrt v)
    linarith
  obtain ⟨f1, f2⟩ := sqrt_near acc hx.fin hx0 hb
  exact ⟨f1, near_rounded acc.u_nonneg h f2⟩

theorem vsum (acc : Accurate fmt u tiny big) {v : Vec (Fl fmt) n} {s e : Fin n → ℝ}
    (h : ∀ i, Approx (v i) (s i) (e i)) (hlt : ∑ i, |s i| + termsError fmt u tiny s e < big) :
    Approx (GLM.vsum v) (∑ i, s i) (termsError fmt u tiny s e) := by
  obtain ⟨h1, h2⟩ := vsum_near acc (fun i => (h i).fin) (fun i => (h i).err) le_rfl le_rfl hlt
  exact ⟨h1, h2⟩

end Approx

variable {raw : Dataset (Fl fmt) n p false}

/-- Multiplying by the frequencies. -/
theorem applyFreq_approx (acc : Accurate fmt u tiny big)
    (hf : ∀ f, raw.freqs = some f → ∀ i, (f i).isFinite) {v : Vec (Fl fmt) n} {s e : Fin n → ℝ} (i : Fin n)
    (h : Approx (v i) (s i) (e i))
    (hlt : |freq (exactData raw) i * s i| + |freq (exactData raw) i| * e i < big) :
    Approx (raw.applyFreqWeights v i) (freq (exactData raw) i * s i) (freqError u tiny raw i (e i) (s i)) := by
  unfold Dataset.applyFreqWeights freqError
  cases hc : raw.freqs with
  | none =>
    have hone : freq (exactData raw) i = 1 := by simp [freq, exactData, hc]
    rw [hone, one_mul, abs_one, one_mul]
    exact h.rounding acc
  | some f =>
    have hfi : freq (exactData raw) i = real (f i) := by simp [freq, exactData, hc]
    rw [hfi] at hlt ⊢
    exact Approx.mul_exact acc (hf f hc i) h hlt

/-- The weights of the observations. -/
theorem wts_approx (acc : Accurate fmt u tiny big) (hw : WeightsFit u tiny big raw) (i : Fin n) :
    Approx (wts raw i) (totalWt (exactData raw) i) (totalWtError u tiny raw i) := by
  refine applyFreq_approx acc hw.freqs (s := varWt (exactData raw))
    (e := fun i => afterRounding u tiny 0 (varWt (exactData raw) i)) i ?_ (hw.small i).2
  have h1 := (hw.small i).1
  obtain ⟨o1, o2⟩ := real_one (fmt := fmt)
  unfold Dataset.applyVarWeights
  cases hc : raw.weights with
  | none =>
    have hone : varWt (exactData raw) i = 1 := by simp [varWt, exactData, hc]
    rw [hone]
    refine Approx.rounding acc ⟨o1, ?_⟩
    change |real (1 : Fl fmt) - 1| ≤ 0
    rw [o2, sub_self, abs_zero]
  | some w =>
    have hwi : varWt (exactData raw) i = real (w i) := by simp [varWt, exactData, hc]
    rw [hwi] at h1 ⊢
    have := Approx.mul_exact acc (hw.weights w hc i) (Approx.self o1)
      (by rw [o2, mul_one, mul_zero, add_zero]; exact h1)
    rwa [o2, mul_one, mul_zero] at this

/-- The sum of the weights. -/
theorem sumWts_approx (acc : Accurate fmt u tiny big) (hw : WeightsFit u tiny big raw) :
    Approx (vsum (wts raw)) (∑ i, totalWt (exactData raw) i) (sumWtError u tiny raw) :=
  Approx.vsum acc (wts_approx acc hw) hw.sum

/-- **C98** (mean).  The computed mean of a feature is within an explicit bound of the exact one. -/
theorem mean_approx (acc : Accurate fmt u tiny big) (hw : WeightsFit u tiny big raw) {j : Fin p}
    (hm : CenterFits u tiny big raw j) :
    Approx ((vsum fun i => wts raw i * raw.x i j) / vsum (wts raw)) (wMean (exactData raw) j)
      (wMeanError u tiny raw j) := by
  have hs := sumWts_approx acc hw
  have h1 : Approx (vsum fun i => wts raw i * raw.x i j)
      (∑ i, totalWt (exactData raw) i * real (raw.x i j)) (featureSumError u tiny raw j) :=
    Approx.vsum acc (fun i => (wts_approx acc hw i).exact_mul acc (hm.finite i) (hm.small i)) hm.sum
  exact h1.div acc hs (hw.positive.trans_le (le_abs_self _)) hm.quotient

/-- The effective number of observations. -/
theorem nEff_approx (acc : Accurate fmt u tiny big) (hw : WeightsFit u tiny big raw)
    (he : CountFits u tiny big raw) : Approx raw.nEff (effCount (exactData raw)) (effError u tiny raw) := by
  have hsmall := he.freqs
  unfold Dataset.nEff
  cases hc : raw.weights with
  | none =>
    have hone : ∀ i, varWt (exactData raw) i = 1 := fun i => by simp [varWt, exactData, hc]
    have hcount : effCount (exactData raw) = ∑ i, freq (exactData raw) i := by
      unfold effCount
      simp only [hone, mul_one, one_pow]
      by_cases h0 : ∑ i, freq (exactData raw) i = 0
      · simp [h0]
      · field_simp
    rw [hcount]
    have hsmall := hsmall hc
    unfold Dataset.nObs
    cases hf : raw.freqs with
    | none =>
      have hfr : ∀ i, freq (exactData raw) i = 1 := fun i => by simp [freq, exactData, hf]
      simp only [hfr, effError, hc, hf, abs_one, Finset.sum_const, Finset.card_univ, Fintype.card_fin,
        nsmul_eq_mul, mul_one] at hsmall ⊢
      have hb : |(n : ℝ)| < big := by
        rw [abs_of_nonneg (Nat.cast_nonneg n)]
        have := mul_nonneg acc.u_nonneg (Nat.cast_nonneg (α := ℝ) n)
        have := acc.tiny_nonneg
        linarith
      obtain ⟨r, hr, hn⟩ := rnd_lt acc hb
      obtain ⟨f1, f2⟩ := finite_of_val (x := (ofNat n : Fl fmt)) (r := r) (by simp [ofNat_def, isNaN])
        (by rw [ofNat_def]; exact hr)
      refine ⟨f1, ?_⟩
      rw [f2]
      simpa [Near] using hn
    | some f =>
      have hfr : ∀ i, freq (exactData raw) i = real (f i) := fun i => by simp [freq, exactData, hf]
      simp only [effError, hc, hf] at hsmall ⊢
      exact Approx.vsum acc (fun i => by rw [hfr]; exact Approx.self (hw.freqs f hf i)) hsmall
  | some w =>
    obtain ⟨k1, k2, k3, k4, k5, k6⟩ := he.weights (by simp [hc])
    have hwi : ∀ i, varWt (exactData raw) i = real (w i) := fun i => by simp [varWt, exactData, hc]
    have hE : effError u tiny raw
        = afterRounding u tiny (effQuotientError u tiny raw) (effCount (exactData raw)) := by
      simp only [effError, hc]
    rw [hE]
    have v1 : Approx (raw.freqSum w) (∑ i, freq (exactData raw) i * varWt (exactData raw) i)
        (freqSumError u tiny raw (varWt (exactData raw)) fun _ => 0) := by
      refine Approx.vsum acc (fun i => applyFreq_approx acc hw.freqs (s := varWt (exactData raw))
        (e := fun _ => 0) i ?_ ?_) k2
      · rw [hwi]; exact Approx.self (hw.weights w hc i)
      · have h1 := (hw.small i).2
        have h2 : 0 ≤ |freq (exactData raw) i| * afterRounding u tiny 0 (varWt (exactData raw) i) := by
          refine mul_nonneg (abs_nonneg _) ?_
          have := mul_nonneg acc.u_nonneg (abs_nonneg (varWt (exactData raw) i))
          have := acc.tiny_nonneg
          simp only [afterRounding, add_zero, zero_add]
          linarith
        rw [mul_zero, add_zero]
        unfold totalWt at h1
        linarith
    have v2 : Approx (raw.freqSum (vmul w w)) (∑ i, freq (exactData raw) i * varWt (exactData raw) i ^ 2)
        (wtSquaresError u tiny raw) := by
      refine Approx.vsum acc (fun i => applyFreq_approx acc hw.freqs
        (s := fun i => varWt (exactData raw) i ^ 2)
        (e := fun i => afterRounding u tiny 0 (varWt (exactData raw) i ^ 2)) i ?_ (k1 i).2) k3
      have h1 := (k1 i).1
      simp only [hwi] at h1 ⊢
      have := Approx.mul_exact acc (hw.weights w hc i) (Approx.self (hw.weights w hc i))
        (by rw [mul_zero, add_zero, ← sq, abs_of_nonneg (sq_nonneg _)]; exact h1)
      simpa [vmul, sq] using this
    have v11 := v1.mul acc v1 (by rw [← sq, abs_of_nonneg (sq_nonneg _)]; exact k4)
    rw [← sq] at v11
    exact v11.div acc v2 (k5.trans_le (le_abs_self _)) k6

/-- The correction of the variance. -/
theorem bias_approx (acc : Accurate fmt u tiny big) (hw : WeightsFit u tiny big raw)
    (he : EffFits u tiny big raw) :
    gt raw.nEff 1 = true ∧ Approx (raw.nEff / (raw.nEff - 1))
      (effCount (exactData raw) / (effCount (exactData raw) - 1))
      (afterRounding u tiny (biasError u tiny raw)
        (effCount (exactData raw) / (effCount (exactData raw) - 1))) := by
  have h := nEff_approx acc hw he.toCountFits
  obtain ⟨o1, o2⟩ := real_one (fmt := fmt)
  have h1 : Approx (1 : Fl fmt) 1 0 := ⟨o1, by rw [o2]; simp⟩
  have hs := h.sub acc h1 (by rw [add_zero]; exact he.small)
  rw [add_zero] at hs
  refine ⟨?_, h.div acc hs (he.positive.trans_le (le_abs_self _)) he.bias⟩
  refine gt_iff.mpr ⟨h.fin.1, o1.1, ?_⟩
  rw [val_real h.fin, val_real o1, o2]
  have hp := he.positive
  have h2 : effError u tiny raw
      ≤ afterRounding u tiny (effError u tiny raw) (effCount (exactData raw) - 1) := by
    have := mul_nonneg acc.u_nonneg (add_nonneg (abs_nonneg (effCount (exactData raw) - 1)) h.nonneg)
    have := acc.tiny_nonneg
    unfold afterRounding
    linarith
  have h3 := (abs_le.mp h.err).1
  exact_mod_cast (by linarith : (1 : ℝ) < real raw.nEff)

/-- **C98** (accuracy).  If nothing overflows and the effective number of observations exceeds one by more
than its error, standardization succeeds.  The computed shift of a feature is within an explicit bound of
its exact weighted mean (zero without intercept), and the computed scale is within an explicit bound of
its exact standard deviation if the exact variance is larger than the error bound of the computed one. -/
theorem C98_accuracy (acc : Accurate fmt u tiny big) (hn : 2 ≤ n) (hw : WeightsFit u tiny big raw)
    (he : EffFits u tiny big raw) :
    ∃ s, Standardizer.fromDataset raw b = some s ∧ ∀ j, CenterFits u tiny big raw j →
      (s.shifts j).isFinite ∧
      |real (s.shifts j) - (if b then wMean (exactData raw) j else 0)|
        ≤ (if b then wMeanError u tiny raw j else 0) ∧
      (VarFits u tiny big raw j → (s.scales j).isFinite ∧
        |real (s.scales j) - Real.sqrt (sampleVar (exactData raw) j)| ≤ scaleError u tiny raw j) := by
  obtain ⟨hgt, hbias⟩ := bias_approx acc hw he
  have hex : ∃ s, Standardizer.fromDataset raw b = some s := by
    unfold Standardizer.fromDataset
    simp only [if_neg (by omega : ¬ n ≤ 1), if_pos hgt]
    exact ⟨_, rfl⟩
  obtain ⟨s, hs⟩ := hex
  refine ⟨s, hs, fun j hm => ?_⟩
  obtain ⟨m, v, hsh, hsc, hmean, -, hvar⟩ := fromDataset_parts hs
  have hmean := hmean (by omega)
  have hvar := (hvar (by omega)).2
  have am : Approx (m j) (wMean (exactData raw) j) (wMeanError u tiny raw j) := by
    rw [hmean]; exact mean_approx acc hw hm
  have hshift : (s.shifts j).isFinite ∧
      |real (s.shifts j) - (if b then wMean (exactData raw) j else 0)|
        ≤ (if b then wMeanError u tiny raw j else 0) := by
    rw [hsh]
    cases b
    · obtain ⟨z1, z2⟩ := real_zero (fmt := fmt)
      refine ⟨z1, ?_⟩
      change |real (0 : Fl fmt) - 0| ≤ 0
      rw [z2, sub_self, abs_zero]
    · exact ⟨am.fin, am.err⟩
  refine ⟨hshift.1, hshift.2, fun hv => ?_⟩
  have hd : ∀ i, Approx (raw.x i j - m j) (deviation raw j i) (deviationError u tiny raw j i) := fun i => by
    have := (Approx.self (hm.finite i)).sub acc am (by rw [zero_add]; exact hv.dev i)
    rwa [zero_add] at this
  have hq : ∀ i, Approx ((raw.x i j - m j) * (raw.x i j - m j)) (deviation raw j i ^ 2)
      (afterRounding u tiny (squareError u tiny raw j i) (deviation raw j i ^ 2)) := fun i => by
    have := (hd i).mul acc (hd i) (by rw [← sq, abs_of_nonneg (sq_nonneg _)]; exact hv.square i)
    rwa [← sq] at this
  have hS : Approx (vsum fun i => wts raw i * ((raw.x i j - m j) * (raw.x i j - m j)))
      (∑ i, totalWt (exactData raw) i * deviation raw j i ^ 2) (squareSumError u tiny raw j) :=
    Approx.vsum acc (fun i => (wts_approx acc hw i).mul acc (hq i) (hv.weighted i)) hv.sum
  have hQ := hS.div acc (sumWts_approx acc hw) (hw.positive.trans_le (le_abs_self _)) hv.quotient
  have hP : Approx (v j) (sampleVar (exactData raw) j) (sampleVarError u tiny raw j) := by
    rw [hvar]
    exact hQ.mul acc hbias hv.product
  have hpos : gt (v j) 0 = true := by
    obtain ⟨z1, z2⟩ := real_zero (fmt := fmt)
    refine gt_iff.mpr ⟨hP.fin.1, z1.1, ?_⟩
    rw [val_real hP.fin, val_real z1, z2]
    have h1 := (abs_le.mp hP.err).1
    have h2 := hv.positive
    exact_mod_cast (by linarith : (0 : ℝ) < real (v j))
  have hroot := hP.sqrt acc hv.positive hv.root
  rw [hsc]
  simp only [hpos, if_true]
  exact ⟨hroot.fin, hroot.err⟩

end

end GLM
