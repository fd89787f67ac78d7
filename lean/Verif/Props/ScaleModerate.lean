/-
  C98 in simple terms: data without weights whose features are neither huge nor tiny.
-/
import Verif.Props.ScaleAccuracy

namespace GLM
open Spec Scalar Fl

section
variable {fmt : FloatFormat} {n p : ℕ} {b : Bool} {u tiny big q : ℝ}

/-- One more rounding, in multiples of `q * s`. -/
theorem afterRounding_scaled (hu : 0 ≤ u) (huq : u ≤ q) (hq : q ≤ 1 / 1000) {e v c m d s : ℝ} (hs : 0 ≤ s)
    (hts : tiny ≤ q * s) (hc : 0 ≤ c) (he : e ≤ c * (q * s)) (hv : |v| ≤ m * s)
    (hd : c + m + c / 1000 + 1 ≤ d) : afterRounding u tiny e v ≤ d * (q * s) := by
  unfold afterRounding
  have hq0 : 0 ≤ q := hu.trans huq
  have h1 : e ≤ c / 1000 * s := by
    refine he.trans ?_
    have := mul_le_mul_of_nonneg_left hq (mul_nonneg hc hs)
    linarith
  have hms : 0 ≤ m * s + c / 1000 * s := add_nonneg ((abs_nonneg v).trans hv) (by positivity)
  have h2 : u * (|v| + e) ≤ q * (m * s + c / 1000 * s) :=
    (mul_le_mul_of_nonneg_left (by linarith) hu).trans (mul_le_mul_of_nonneg_right huq hms)
  have h3 := mul_le_mul_of_nonneg_right hd (mul_nonneg hq0 hs)
  linarith

/-- Powers of `1 + u`. -/
theorem pow_near {D : ℕ} (hu : 0 ≤ u) (hq : D * u ≤ 1 / 1000) :
    (1 + u) ^ D - 1 ≤ 1001 / 1000 * (D * u) ∧ (1 + u) ^ D ≤ 1002 / 1000 := by
  have h0 : (0 : ℝ) ≤ D * u := by positivity
  have h1 : (1 + u) ^ D ≤ Real.exp (D * u) := by
    have h : 1 + u ≤ Real.exp u := by linarith [Real.add_one_le_exp u]
    calc (1 + u) ^ D ≤ Real.exp u ^ D := pow_le_pow_left₀ (by linarith) h D
      _ = Real.exp (D * u) := by rw [← Real.exp_nat_mul]
  have h2 := Real.abs_exp_sub_one_sub_id_le (x := D * u) (by rw [abs_of_nonneg h0]; linarith)
  have h3 := (abs_le.mp h2).2
  have h4 : ((D : ℝ) * u) ^ 2 ≤ 1 / 1000 * (D * u) := by nlinarith
  constructor <;> linarith

/-- The error of a sum of `n` terms of size at most `m * s` and with errors of at most `c * q * s`. -/
theorem termsError_scaled {D : ℕ} (hu : 0 ≤ u) (ht : 0 ≤ tiny) (hn : 1 ≤ n)
    (hdep : (fmt.order .sum n).tree.depth 0 ≤ D) (hops : (fmt.order .sum n).tree.ops 0 ≤ D)
    (hq : D * u ≤ 1 / 1000) {t e : Fin n → ℝ} {c m d s : ℝ} (hs : 0 ≤ s) (hts : tiny ≤ u * s) (hc : 0 ≤ c)
    (he : ∀ i, e i ≤ c * (D * u * s)) (h0 : ∀ i, 0 ≤ e i) (hv : ∀ i, |t i| ≤ m * s)
    (hd : c + 1001 / 1000 * (m + c / 1000) + 1002 / 1000 ≤ d) :
    termsError fmt u tiny t e ≤ d * (n * (D * u * s)) ∧ ∑ i, |t i| ≤ n * (m * s) := by
  obtain ⟨p1, p2⟩ := pow_near hu hq
  have hS : ∑ i, |t i| ≤ n * (m * s) := by
    refine (Finset.sum_le_card_nsmul _ _ _ fun i _ => hv i).trans (le_of_eq ?_)
    simp
  refine ⟨?_, hS⟩
  have hE : ∑ i, e i ≤ n * (c * (D * u * s)) := by
    refine (Finset.sum_le_card_nsmul _ _ _ fun i _ => he i).trans (le_of_eq ?_)
    simp
  have hS0 : 0 ≤ ∑ i, |t i| := Finset.sum_nonneg fun i _ => abs_nonneg _
  have hE0 : 0 ≤ ∑ i, e i := Finset.sum_nonneg fun i _ => h0 i
  unfold termsError totalError sumError
  generalize (fmt.order .sum n).tree.depth 0 = d0 at *
  generalize (fmt.order .sum n).tree.ops 0 = k0 at *
  have hpow : (1 + u) ^ d0 ≤ (1 + u) ^ D := pow_le_pow_right₀ (by linarith) hdep
  have hn1 : (1 : ℝ) ≤ n := by exact_mod_cast hn
  have hqs : 0 ≤ D * u * s := by positivity
  have hE1 : ∑ i, e i ≤ n * (c / 1000 * s) := by
    refine hE.trans (mul_le_mul_of_nonneg_left ?_ (by positivity))
    have := mul_le_mul_of_nonneg_left hq (mul_nonneg hc hs)
    linarith
  have hA : ((1 + u) ^ d0 - 1) * (∑ i, |t i| + ∑ i, e i)
      ≤ 1001 / 1000 * (D * u) * (n * (m * s) + n * (c / 1000 * s)) :=
    mul_le_mul (by linarith) (add_le_add hS hE1) (add_nonneg hS0 hE0) (by positivity)
  have hB : (k0 : ℝ) * (1 + u) ^ d0 * tiny ≤ D * (1002 / 1000) * (u * s) := by
    have h1 : (k0 : ℝ) ≤ D := by exact_mod_cast hops
    refine mul_le_mul (mul_le_mul h1 (hpow.trans p2) (by positivity) (by positivity)) hts ht (by positivity)
  have hB' : (D : ℝ) * (1002 / 1000) * (u * s) ≤ 1002 / 1000 * (n * (D * u * s)) := by
    have := mul_le_mul_of_nonneg_right hn1 hqs
    linarith
  have h3 := mul_le_mul_of_nonneg_right hd (mul_nonneg (by positivity : (0 : ℝ) ≤ n) hqs)
  linarith

/-- The sum of numbers that are all equal to one. -/
theorem sum_ones : ∑ _i : Fin n, (1 : ℝ) = n := by simp

variable {raw : Dataset (Fl fmt) n p false} {M : ℝ} {D : ℕ}

namespace Spec.Plain

theorem wt (h : Plain u tiny big D raw) (i : Fin n) : freq (exactData raw) i = 1 ∧ varWt (exactData raw) i = 1 ∧
    totalWt (exactData raw) i = 1 := by
  have h1 : freq (exactData raw) i = 1 := by simp [freq, exactData, h.freqs]
  have h2 : varWt (exactData raw) i = 1 := by simp [varWt, exactData, h.weights]
  exact ⟨h1, h2, by rw [totalWt, h1, h2, one_mul]⟩

theorem u_le (h : Plain u tiny big D raw) (hu : 0 ≤ u) : u ≤ D * u := by
  have : (1 : ℝ) ≤ D := by exact_mod_cast h.pos
  nlinarith

theorem one_le (h : Plain u tiny big D raw) : (2 : ℝ) ≤ n := by exact_mod_cast h.two

theorem totalWtError_le (h : Plain u tiny big D raw) (acc : Accurate fmt u tiny big) (i : Fin n) :
    afterRounding u tiny 0 (varWt (exactData raw) i) ≤ 2 * (D * u * 1) ∧
    0 ≤ afterRounding u tiny 0 (varWt (exactData raw) i) ∧
    totalWtError u tiny raw i ≤ (5 + 2 / 1000) * (D * u * 1) ∧ 0 ≤ totalWtError u tiny raw i := by
  obtain ⟨h1, h2, h3⟩ := h.wt i
  have hu := acc.u_nonneg
  have ht := acc.tiny_nonneg
  have huq := h.u_le hu
  have htq : tiny ≤ D * u * 1 := by linarith [h.tiny_le]
  have a1 : afterRounding u tiny 0 (1 : ℝ) ≤ 2 * (D * u * 1) :=
    afterRounding_scaled hu huq h.small zero_le_one htq (c := 0) (m := 1) le_rfl (by simp) (by simp)
      (by norm_num)
  have a0 : 0 ≤ afterRounding u tiny 0 (1 : ℝ) := by unfold afterRounding; positivity
  unfold totalWtError freqError
  rw [h1, h2, abs_one, one_mul, one_mul]
  refine ⟨a1, a0, ?_, ?_⟩
  · exact afterRounding_scaled hu huq h.small zero_le_one htq (c := 2) (m := 1) (by norm_num) a1 (by simp)
      (by norm_num)
  · unfold afterRounding at a0 ⊢; positivity

theorem sumWt (h : Plain u tiny big D raw) (acc : Accurate fmt u tiny big) :
    sumWtError u tiny raw ≤ 8 * (n * (D * u * 1)) ∧ ∑ i, totalWt (exactData raw) i = n ∧
      ∑ i, |totalWt (exactData raw) i| = n := by
  have h3 : totalWt (exactData raw) = fun _ => 1 := funext fun i => (h.wt i).2.2
  refine ⟨?_, by rw [h3]; exact sum_ones, by simp only [h3, abs_one, sum_ones]⟩
  refine (termsError_scaled acc.u_nonneg acc.tiny_nonneg (by have := h.two; omega) h.depth h.ops h.small
    (c := 5 + 2 / 1000) (m := 1) zero_le_one (by linarith [h.tiny_le]) (by norm_num)
    (fun i => (h.totalWtError_le acc i).2.2.1) (fun i => (h.totalWtError_le acc i).2.2.2)
    (fun i => by rw [h3]; simp) (by norm_num)).1

theorem weightsFit (h : Plain u tiny big D raw) (acc : Accurate fmt u tiny big) :
    WeightsFit u tiny big raw := by
  obtain ⟨s1, s2, s3⟩ := h.sumWt acc
  have hn := h.one_le
  have hb := h.big_gt
  have hs := h.small
  have hS : sumWtError u tiny raw ≤ 8 / 1000 * n := by nlinarith
  refine ⟨fun w hw => ?_, fun f hf => ?_, fun i => ?_, ?_, ?_⟩
  · rw [h.weights] at hw; cases hw
  · rw [h.freqs] at hf; cases hf
  · obtain ⟨t1, t2, t3⟩ := h.wt i
    obtain ⟨e1, -, -, -⟩ := h.totalWtError_le acc i
    rw [t2] at e1
    rw [t1, t2, t3, abs_one, one_mul]
    constructor <;> linarith
  · rw [s3]; linarith
  · rw [s2]; linarith

theorem effFits (h : Plain u tiny big D raw) (acc : Accurate fmt u tiny big) :
    EffFits u tiny big raw ∧ effCount (exactData raw) = n ∧ biasError u tiny raw ≤ 21 * (D * u * 1) := by
  have h1 : freq (exactData raw) = fun _ => 1 := funext fun i => (h.wt i).1
  have h2 : varWt (exactData raw) = fun _ => 1 := funext fun i => (h.wt i).2.1
  have hn := h.one_le
  have hb := h.big_gt
  have hs := h.small
  have hu := acc.u_nonneg
  have ht := acc.tiny_nonneg
  have huq := h.u_le hu
  have htu := h.tiny_le
  have hE : effError u tiny raw = u * n + tiny := by unfold effError; rw [h.weights, h.freqs]
  have hcount : effCount (exactData raw) = n := by
    unfold effCount
    simp only [h1, h2, one_mul, one_pow, sum_ones]
    have : (n : ℝ) ≠ 0 := by linarith
    field_simp
  have hun : u * n ≤ n / 1000 := by nlinarith
  have htn : tiny ≤ u * n / 2 := by nlinarith
  have hE1 : effError u tiny raw ≤ 3 / 2 * (u * n) := by rw [hE]; linarith
  have hun0 : 0 ≤ u * n := by positivity
  have hE0 : 0 ≤ effError u tiny raw := by rw [hE]; positivity
  have habs : |(n : ℝ) - 1| = n - 1 := abs_of_nonneg (by linarith)
  have hA : afterRounding u tiny (effError u tiny raw) ((n : ℝ) - 1) ≤ 4 * (u * n) := by
    unfold afterRounding
    rw [habs]
    have : u * (n - 1 + effError u tiny raw) ≤ u * n + u * (2 / 1000 * n) := by
      have := mul_le_mul_of_nonneg_left (by linarith : n - 1 + effError u tiny raw ≤ n + 2 / 1000 * n) hu
      linarith
    linarith
  have hA0 : 0 ≤ afterRounding u tiny (effError u tiny raw) ((n : ℝ) - 1) := by
    unfold afterRounding; positivity
  have hquot : |(n : ℝ) / (n - 1)| ≤ 2 := by
    rw [abs_of_nonneg (div_nonneg (by linarith) (by linarith)), div_le_iff₀ (by linarith)]
    linarith
  have hbias : biasError u tiny raw ≤ 21 * (u * 1) := by
    unfold biasError quotientError
    rw [hcount, habs, div_le_iff₀ (by linarith)]
    have e1 := mul_le_mul hquot hA hA0 (by norm_num)
    have e2 : 21 * u * (n - 1 - afterRounding u tiny (effError u tiny raw) (n - 1))
        ≥ 21 * u * (n / 2 - 4 * (n / 1000)) := mul_le_mul_of_nonneg_left (by linarith) (by linarith)
    linarith
  refine ⟨⟨⟨fun _ => ?_, fun hw => absurd h.weights hw⟩, ?_, ?_, ?_⟩, hcount, by linarith⟩
  · rw [h1]; simp only [abs_one, sum_ones]; linarith
  · rw [hcount, habs]; linarith
  · rw [hcount]; linarith
  · rw [hcount]; linarith

end Spec.Plain

namespace Spec.Moderate
variable {j : Fin p}

theorem tiny_le' (hm : Moderate u tiny big M raw j) (acc : Accurate fmt u tiny big) : tiny ≤ u * M := by
  have := acc.tiny_nonneg
  have := hm.tiny_third
  linarith

theorem mean_le (hm : Moderate u tiny big M raw j) (h : Plain u tiny big D raw)
    (acc : Accurate fmt u tiny big) : |wMean (exactData raw) j| ≤ M := by
  have h3 : totalWt (exactData raw) = fun _ => 1 := funext fun i => (h.wt i).2.2
  have hn := h.one_le
  unfold wMean
  rw [(h.sumWt acc).2.1, abs_div, abs_of_nonneg (by linarith : (0 : ℝ) ≤ n), div_le_iff₀ (by linarith)]
  refine (Finset.abs_sum_le_sum_abs _ _).trans ?_
  refine (Finset.sum_le_card_nsmul _ _ M fun i _ => ?_).trans (le_of_eq (by simp [mul_comm]))
  rw [h3, one_mul]
  exact hm.size i

theorem centerFits (hm : Moderate u tiny big M raw j) (h : Plain u tiny big D raw)
    (acc : Accurate fmt u tiny big) :
    CenterFits u tiny big raw j ∧ 0 ≤ wMeanError u tiny raw j ∧
      wMeanError u tiny raw j ≤ 20 * (D * u * M) := by
  obtain ⟨s1, s2, -⟩ := h.sumWt acc
  have hM := hm.pos
  have hu := acc.u_nonneg
  have ht := acc.tiny_nonneg
  have huq := h.u_le hu
  have hs := h.small
  have hn := h.one_le
  have hn1 : 1 ≤ n := by have := h.two; omega
  have hq0 : 0 ≤ D * u := by positivity
  have htq : tiny ≤ D * u * M := (hm.tiny_le' acc).trans (mul_le_mul_of_nonneg_right huq hM.le)
  have hqM : D * u * M ≤ 1 / 1000 * M := mul_le_mul_of_nonneg_right hs hM.le
  have h3 : ∀ i, totalWt (exactData raw) i = 1 := fun i => (h.wt i).2.2
  have hwe : ∀ i, totalWtError u tiny raw i * |real (raw.x i j)| ≤ (5 + 2 / 1000) * (D * u * M) := fun i => by
    obtain ⟨-, -, e1, e2⟩ := h.totalWtError_le acc i
    have := mul_le_mul e1 (hm.size i) (abs_nonneg _) (by positivity)
    linarith
  have hwe0 : ∀ i, 0 ≤ totalWtError u tiny raw i * |real (raw.x i j)| := fun i =>
    mul_nonneg (h.totalWtError_le acc i).2.2.2 (abs_nonneg _)
  have hf : ∀ i, wtFeatureError u tiny raw j i ≤ (7 + 1 / 50) * (D * u * M) := fun i => by
    unfold wtFeatureError
    rw [h3, one_mul]
    exact afterRounding_scaled hu huq hs hM.le htq (c := 5 + 2 / 1000) (m := 1) (by norm_num) (hwe i)
      (by rw [one_mul]; exact hm.size i) (by norm_num)
  have hf0 : ∀ i, 0 ≤ wtFeatureError u tiny raw j i := fun i => by
    have := hwe0 i
    unfold wtFeatureError afterRounding; positivity
  obtain ⟨t1, t2⟩ := termsError_scaled (fmt := fmt) (n := n) hu ht hn1 h.depth h.ops hs
    (t := fun i => totalWt (exactData raw) i * real (raw.x i j)) (c := 7 + 1 / 50) (m := 1) (d := 9 + 1 / 10)
    hM.le (hm.tiny_le' acc) (by norm_num) hf hf0
    (fun i => by simp only [h3, one_mul]; exact hm.size i) (by norm_num)
  have hsum : featureSumError u tiny raw j ≤ (9 + 1 / 10) * (n * (D * u * M)) := t1
  have hmean := hm.mean_le h acc
  have hnM : (n : ℝ) * (D * u * M) ≤ n * (1 / 1000 * M) := mul_le_mul_of_nonneg_left hqM (by linarith)
  have hnq : (n : ℝ) * (D * u * 1) ≤ n * (1 / 1000) := mul_le_mul_of_nonneg_left (by linarith) (by linarith)
  have hq : meanQuotientError u tiny raw j ≤ (17 + 1 / 2) * (D * u * M) := by
    unfold meanQuotientError quotientError
    rw [s2, abs_of_nonneg (by linarith : (0 : ℝ) ≤ n)]
    have hden : (992 / 1000 : ℝ) * n ≤ n - sumWtError u tiny raw := by linarith
    rw [div_le_iff₀ (by linarith)]
    have hm' : |(∑ i, totalWt (exactData raw) i * real (raw.x i j)) / (n : ℝ)| ≤ M := by
      have := hmean
      unfold wMean at this
      rw [s2] at this
      exact this
    have hS0 : 0 ≤ sumWtError u tiny raw := (sumWts_approx acc (h.weightsFit acc)).nonneg
    have e1 := mul_le_mul hm' s1 hS0 hM.le
    have e2 := mul_le_mul_of_nonneg_left hden (by positivity : (0 : ℝ) ≤ (17 + 1 / 2) * (D * u * M))
    have e3 : 0 ≤ n * (D * u * M) := by positivity
    linarith
  have hcf : CenterFits u tiny big raw j := by
    have hnMM : 2 * M ≤ n * M := mul_le_mul_of_nonneg_right hn hM.le
    have hb := hm.big_gt
    refine ⟨hm.finite, fun i => ?_, ?_, ?_⟩
    · rw [h3, one_mul]
      have := hwe i
      have := hm.size i
      linarith
    · have : ∑ i, |totalWt (exactData raw) i * real (raw.x i j)| ≤ n * (1 * M) := t2
      linarith
    · linarith
  refine ⟨hcf, (mean_approx acc (h.weightsFit acc) hcf).nonneg, ?_⟩
  exact afterRounding_scaled hu huq hs hM.le htq (c := 17 + 1 / 2) (m := 1) (by norm_num) hq
    (by rw [one_mul]; exact hmean) (by norm_num)

/-- The error of the computed variance, and that nothing overflows. -/
theorem varFits (hm : Moderate u tiny big M raw j) (h : Plain u tiny big D raw)
    (acc : Accurate fmt u tiny big) (hv : 460 * (D * u * M ^ 2) < sampleVar (exactData raw) j) :
    VarFits u tiny big raw j ∧
      scaleError u tiny raw j ≤ 470 * (D * u * M ^ 2 / Real.sqrt (sampleVar (exactData raw) j)) := by
  obtain ⟨s1, s2, -⟩ := h.sumWt acc
  obtain ⟨-, m0, m1⟩ := hm.centerFits h acc
  obtain ⟨-, c1, c2⟩ := h.effFits acc
  have hM := hm.pos
  have hu := acc.u_nonneg
  have ht := acc.tiny_nonneg
  have huq := h.u_le hu
  have hs := h.small
  have hn := h.one_le
  have hn1 : 1 ≤ n := by have := h.two; omega
  have hq0 : 0 ≤ D * u := by positivity
  have hM2 : 0 < M ^ 2 := by positivity
  have htq : tiny ≤ D * u * M := (hm.tiny_le' acc).trans (mul_le_mul_of_nonneg_right huq hM.le)
  have htq2 : tiny ≤ D * u * M ^ 2 := hm.tiny_sq.trans (mul_le_mul_of_nonneg_right huq hM2.le)
  have htq1 : tiny ≤ D * u * 1 := by linarith [h.tiny_le]
  have hqM : D * u * M ≤ 1 / 1000 * M := mul_le_mul_of_nonneg_right hs hM.le
  have hqM2 : D * u * M ^ 2 ≤ 1 / 1000 * M ^ 2 := mul_le_mul_of_nonneg_right hs hM2.le
  have h3 : ∀ i, totalWt (exactData raw) i = 1 := fun i => (h.wt i).2.2
  have hmean := hm.mean_le h acc
  have hdev : ∀ i, |deviation raw j i| ≤ 2 * M := fun i => by
    refine (abs_sub _ _).trans ?_
    have := hm.size i
    linarith
  have hdev2 : ∀ i, deviation raw j i ^ 2 ≤ 4 * M ^ 2 := fun i => by
    have := pow_le_pow_left₀ (abs_nonneg _) (hdev i) 2
    rw [sq_abs] at this
    linarith
  have hde : ∀ i, deviationError u tiny raw j i ≤ (23 + 1 / 10) * (D * u * M) := fun i =>
    afterRounding_scaled hu huq hs hM.le htq (c := 20) (m := 2) (by norm_num) m1 (hdev i) (by norm_num)
  have hde0 : ∀ i, 0 ≤ deviationError u tiny raw j i := fun i => by
    unfold deviationError afterRounding; positivity
  have hsq : ∀ i, squareError u tiny raw j i ≤ 93 * (D * u * M ^ 2) := fun i => by
    have e1 := mul_le_mul (hde i) (hdev i) (abs_nonneg _) (by positivity)
    have e2 : deviationError u tiny raw j i * deviationError u tiny raw j i
        ≤ (23 + 1 / 10) * (D * u * M) * ((23 + 1 / 10) * (1 / 1000 * M)) :=
      mul_le_mul (hde i) ((hde i).trans (by linarith)) (hde0 i) (by positivity)
    unfold squareError productError
    have e3 : 0 ≤ D * u * M ^ 2 := by positivity
    nlinarith
  have hsq0 : ∀ i, 0 ≤ squareError u tiny raw j i := fun i => by
    have := hde0 i
    unfold squareError productError; positivity
  have hsr : ∀ i, afterRounding u tiny (squareError u tiny raw j i) (deviation raw j i ^ 2)
      ≤ (98 + 1 / 10) * (D * u * M ^ 2) := fun i =>
    afterRounding_scaled hu huq hs hM2.le htq2 (c := 93) (m := 4) (by norm_num) (hsq i)
      (by rw [abs_of_nonneg (sq_nonneg _)]; exact hdev2 i) (by norm_num)
  have hsr0 : ∀ i, 0 ≤ afterRounding u tiny (squareError u tiny raw j i) (deviation raw j i ^ 2) := fun i => by
    have := hsq0 i
    unfold afterRounding; positivity
  have hws : ∀ i, wtSquareError u tiny raw j i ≤ 119 * (D * u * M ^ 2) := fun i => by
    obtain ⟨-, -, e1, e2⟩ := h.totalWtError_le acc i
    unfold wtSquareError productError
    rw [h3, abs_one, one_mul, abs_of_nonneg (sq_nonneg _)]
    have k1 := mul_le_mul e1 (hdev2 i) (sq_nonneg _) (by positivity)
    have k2 : totalWtError u tiny raw i
        * afterRounding u tiny (squareError u tiny raw j i) (deviation raw j i ^ 2)
        ≤ (5 + 2 / 1000) * (1 / 1000) * ((98 + 1 / 10) * (D * u * M ^ 2)) :=
      mul_le_mul (e1.trans (by linarith)) (hsr i) (hsr0 i) (by positivity)
    have k3 := hsr i
    have e3 : 0 ≤ D * u * M ^ 2 := by positivity
    linarith
  have hws0 : ∀ i, 0 ≤ wtSquareError u tiny raw j i := fun i => by
    obtain ⟨-, -, -, e2⟩ := h.totalWtError_le acc i
    have := hsr0 i
    unfold wtSquareError productError; positivity
  have hterm : ∀ i, |totalWt (exactData raw) i * deviation raw j i ^ 2| ≤ 4 * M ^ 2 := fun i => by
    rw [h3, one_mul, abs_of_nonneg (sq_nonneg _)]; exact hdev2 i
  obtain ⟨t1, t2⟩ := termsError_scaled (fmt := fmt) (n := n) hu ht hn1 h.depth h.ops hs
    (t := fun i => totalWt (exactData raw) i * deviation raw j i ^ 2)
    (e := fun i => afterRounding u tiny (wtSquareError u tiny raw j i)
      (totalWt (exactData raw) i * deviation raw j i ^ 2))
    (c := 124 + 2 / 10) (m := 4) (d := 130) hM2.le hm.tiny_sq (by norm_num)
    (fun i => afterRounding_scaled hu huq hs hM2.le htq2 (c := 119) (m := 4) (by norm_num) (hws i) (hterm i)
      (by norm_num))
    (fun i => by have := hws0 i; unfold afterRounding; positivity) hterm (by norm_num)
  have hsum : squareSumError u tiny raw j ≤ 130 * (n * (D * u * M ^ 2)) := t1
  have hsize : ∑ i, |totalWt (exactData raw) i * deviation raw j i ^ 2| ≤ n * (4 * M ^ 2) := t2
  have hnM : (n : ℝ) * (D * u * M ^ 2) ≤ n * (1 / 1000 * M ^ 2) := mul_le_mul_of_nonneg_left hqM2 (by linarith)
  have hnq : (n : ℝ) * (D * u * 1) ≤ n * (1 / 1000) := mul_le_mul_of_nonneg_left (by linarith) (by linarith)
  have hrv : |rawVar raw j| ≤ 4 * M ^ 2 := by
    unfold rawVar
    rw [s2, abs_div, abs_of_nonneg (by linarith : (0 : ℝ) ≤ n), div_le_iff₀ (by linarith)]
    exact ((Finset.abs_sum_le_sum_abs _ _).trans hsize).trans (le_of_eq (by ring))
  have hS0 : 0 ≤ sumWtError u tiny raw := (sumWts_approx acc (h.weightsFit acc)).nonneg
  have hrq : rawVarError u tiny raw j ≤ 164 * (D * u * M ^ 2) := by
    have hrv' := hrv
    unfold rawVar at hrv'
    unfold rawVarError quotientError
    rw [s2] at hrv' ⊢
    rw [abs_of_nonneg (by linarith : (0 : ℝ) ≤ n)]
    have hden : (992 / 1000 : ℝ) * n ≤ n - sumWtError u tiny raw := by linarith
    rw [div_le_iff₀ (by linarith)]
    have e1 := mul_le_mul hrv' s1 hS0 (by positivity)
    have e2 := mul_le_mul_of_nonneg_left hden (by positivity : (0 : ℝ) ≤ 164 * (D * u * M ^ 2))
    have e3 : 0 ≤ n * (D * u * M ^ 2) := by positivity
    linarith
  have hrr : afterRounding u tiny (rawVarError u tiny raw j) (rawVar raw j) ≤ 170 * (D * u * M ^ 2) :=
    afterRounding_scaled hu huq hs hM2.le htq2 (c := 164) (m := 4) (by norm_num) hrq hrv (by norm_num)
  have hquot : |(n : ℝ) / (n - 1)| ≤ 2 := by
    rw [abs_of_nonneg (div_nonneg (by linarith) (by linarith)), div_le_iff₀ (by linarith)]
    linarith
  have hbr : afterRounding u tiny (biasError u tiny raw) ((n : ℝ) / (n - 1)) ≤ (24 + 1 / 10) * (D * u * 1) :=
    afterRounding_scaled hu huq hs zero_le_one htq1 (c := 21) (m := 2) (by norm_num) c2
      (by rw [mul_one]; exact hquot) (by norm_num)
  have hbr0 : 0 ≤ afterRounding u tiny (biasError u tiny raw) ((n : ℝ) / (n - 1)) := by
    have := (bias_approx acc (h.weightsFit acc) (h.effFits acc).1).2.nonneg
    rwa [c1] at this
  have hprod : varProductError u tiny raw j ≤ 442 * (D * u * M ^ 2) := by
    unfold varProductError productError
    rw [c1]
    have k1 := mul_le_mul hrr hquot (abs_nonneg _) (by positivity)
    have k2 := mul_le_mul hrv hbr hbr0 (by positivity)
    have k3 := mul_le_mul hrr (hbr.trans (by linarith : _ ≤ (24 + 1 / 10) * (1 / 1000 : ℝ))) hbr0 (by positivity)
    have e3 : 0 ≤ D * u * M ^ 2 := by positivity
    linarith
  have hwv : sampleVar (exactData raw) j = rawVar raw j * ((n : ℝ) / (n - 1)) := by
    unfold sampleVar rawVar
    rw [c1]
    rfl
  have hwv1 : |sampleVar (exactData raw) j| ≤ 8 * M ^ 2 := by
    rw [hwv, abs_mul]
    have := mul_le_mul hrv hquot (abs_nonneg _) (by positivity)
    linarith
  have hve : sampleVarError u tiny raw j ≤ (451 + 1 / 2) * (D * u * M ^ 2) :=
    afterRounding_scaled hu huq hs hM2.le htq2 (c := 442) (m := 8) (by norm_num) hprod hwv1 (by norm_num)
  have hv0 : 0 < sampleVar (exactData raw) j := lt_of_le_of_lt (by positivity) hv
  have hσ : 0 < Real.sqrt (sampleVar (exactData raw) j) := Real.sqrt_pos.mpr hv0
  have hσ2 : Real.sqrt (sampleVar (exactData raw) j) ^ 2 = sampleVar (exactData raw) j := Real.sq_sqrt hv0.le
  have hσM : Real.sqrt (sampleVar (exactData raw) j) ≤ 3 * M := by
    refine Real.sqrt_le_iff.mpr ⟨by positivity, ?_⟩
    have := (le_abs_self _).trans hwv1
    linarith
  have hpos : sampleVarError u tiny raw j < sampleVar (exactData raw) j := by
    have e3 : 0 ≤ D * u * M ^ 2 := by positivity
    linarith
  have hnMM : 2 * M ≤ n * M := mul_le_mul_of_nonneg_right hn hM.le
  have hnMM2 : 2 * M ^ 2 ≤ n * M ^ 2 := mul_le_mul_of_nonneg_right hn hM2.le
  have hb := hm.big_gt
  have hb2 := hm.big_sq
  refine ⟨⟨fun i => ?_, fun i => ?_, fun i => ?_, ?_, ?_, ?_, hpos, ?_⟩, ?_⟩
  · have := hdev i
    linarith
  · have := hdev2 i
    have := hsq i
    linarith
  · have := hterm i
    have := hws i
    linarith
  · linarith
  · linarith
  · linarith
  · have : sampleVarError u tiny raw j / Real.sqrt (sampleVar (exactData raw) j)
        < Real.sqrt (sampleVar (exactData raw) j) := by
      rw [div_lt_iff₀ hσ, ← sq, hσ2]
      exact hpos
    linarith
  · unfold scaleError
    generalize Real.sqrt (sampleVar (exactData raw) j) = σ at *
    have es : D * u * M ^ 2 / σ = D * u * (M ^ 2 / σ) := by ring
    rw [es]
    have hMσ : M ≤ 3 * (M ^ 2 / σ) := by
      rw [mul_div_assoc', le_div_iff₀ hσ]
      have := mul_le_mul_of_nonneg_left hσM hM.le
      linarith
    refine afterRounding_scaled hu huq hs (by positivity) ?_ (c := 452) (m := 8) (by norm_num) ?_ ?_
      (by norm_num)
    · have e1 := mul_le_mul_of_nonneg_left hMσ hu
      have e2 := mul_le_mul_of_nonneg_right huq (by positivity : 0 ≤ M ^ 2 / σ)
      have e3 := hm.tiny_third
      linarith
    · rw [← es, mul_div_assoc']
      refine div_le_div_of_nonneg_right ?_ hσ.le
      have e3 : 0 ≤ D * u * M ^ 2 := by positivity
      linarith
    · rw [abs_of_pos hσ, mul_div_assoc', le_div_iff₀ hσ, ← sq, hσ2]
      exact (le_abs_self _).trans hwv1

end Spec.Moderate

/-- **C98** (accuracy, in simple terms).  Without weights and frequencies, for features of size at most `M`
that are neither huge nor tiny, and sums of at most `D` roundings: standardization succeeds, the computed
mean of a feature is off by at most `20 D u M`, and unless the variance is below `460 D u M²`, the computed
standard deviation `σ` is off by at most `470 D u M² / σ`. -/
theorem C98_moderate (acc : Accurate fmt u tiny big) (h : Plain u tiny big D raw) :
    ∃ s, Standardizer.fromDataset raw b = some s ∧ ∀ j, Moderate u tiny big M raw j →
      (s.shifts j).isFinite ∧
      |real (s.shifts j) - (if b then wMean (exactData raw) j else 0)| ≤ 20 * (D * u * M) ∧
      (460 * (D * u * M ^ 2) < sampleVar (exactData raw) j → (s.scales j).isFinite ∧
        |real (s.scales j) - Real.sqrt (sampleVar (exactData raw) j)|
          ≤ 470 * (D * u * M ^ 2 / Real.sqrt (sampleVar (exactData raw) j))) := by
  obtain ⟨s, hs, hj⟩ := C98_accuracy (b := b) acc h.two (h.weightsFit acc) (h.effFits acc).1
  refine ⟨s, hs, fun j hm => ?_⟩
  obtain ⟨c1, -, c3⟩ := hm.centerFits h acc
  obtain ⟨k1, k2, k3⟩ := hj j c1
  refine ⟨k1, k2.trans ?_, fun hv => ?_⟩
  · cases b
    · have := hm.pos
      have := acc.u_nonneg
      simp only [Bool.false_eq_true, if_false]
      positivity
    · exact c3
  · obtain ⟨v1, v2⟩ := hm.varFits h acc hv
    obtain ⟨l1, l2⟩ := k3 v1
    exact ⟨l1, l2.trans v2⟩

end

/-- The depth of a sum from left to right. -/
theorem left_depth {n : ℕ} (l : List (Fin n)) (acc : SumTree n) :
    (SumTree.left l acc).depth 0 = acc.depth 0 + l.length ∧ (SumTree.left l acc).ops 0 = acc.ops 0 + l.length := by
  induction l generalizing acc with
  | nil => exact ⟨rfl, rfl⟩
  | cons i l ih =>
    obtain ⟨h1, h2⟩ := ih (.add acc (.term i))
    constructor
    · rw [SumTree.left, h1]; simp [SumTree.depth]; omega
    · rw [SumTree.left, h2]; simp [SumTree.ops]; omega

section
variable {order : SumSite → (n : ℕ) → SumOrder n} {n p : ℕ} {b : Bool}

/-- **C98** (f64).  Without weights and frequencies, for between 2 and 2^40 observations and features of
size at most `M`, where `M` is between 2^-400 and 2^400: standardization succeeds, means are off by at most
`20 D M / 2^53`, and a standard deviation `σ` of at least `22 M sqrt (D / 2^53)` by at most
`470 D M² / (σ 2^53)`; `D` is the number of additions of a sum (the number of observations from left to
right). -/
theorem C98_f64 {raw : Dataset (Fl (binary64 order)) n p false} (hw : raw.weights = none)
    (hf : raw.freqs = none) (hn : 2 ≤ n) (hn' : n ≤ 2 ^ 40) {D : ℕ} (hD : 1 ≤ D) (hD' : D ≤ 2 ^ 40)
    (hdep : (order .sum n).tree.depth 0 ≤ D) (hops : (order .sum n).tree.ops 0 ≤ D) :
    ∃ s, Standardizer.fromDataset raw b = some s ∧ ∀ (j : Fin p) (M : ℝ), (2 : ℝ) ^ (-400 : ℤ) ≤ M →
      M ≤ (2 : ℝ) ^ (400 : ℤ) → (∀ i, (raw.x i j).isFinite ∧ |real (raw.x i j)| ≤ M) →
      (s.shifts j).isFinite ∧
      |real (s.shifts j) - (if b then wMean (exactData raw) j else 0)| ≤ 20 * (D * M) / 2 ^ 53 ∧
      (460 * (D * M ^ 2) / 2 ^ 53 < sampleVar (exactData raw) j → (s.scales j).isFinite ∧
        |real (s.scales j) - Real.sqrt (sampleVar (exactData raw) j)|
          ≤ 470 * (D * M ^ 2) / (Real.sqrt (sampleVar (exactData raw) j) * 2 ^ 53)) := by
  have acc := accurate_binary64 order
  have hDr : (D : ℝ) ≤ 2 ^ 40 := by exact_mod_cast hD'
  have hnr : (n : ℝ) ≤ 2 ^ 40 := by exact_mod_cast hn'
  have hu : (2 : ℝ) ^ (-53 : ℤ) = 1 / 2 ^ 53 := by norm_num [_root_.zpow_neg]
  have hpl : Plain (2 ^ (-53 : ℤ)) (2 ^ (-1075 : ℤ)) (2 ^ (1023 : ℤ)) D raw := by
    refine ⟨hw, hf, hn, hdep, hops, hD, ?_, zpow_le_zpow_right₀ (by norm_num) (by norm_num), ?_⟩
    · rw [hu]; linarith
    · refine lt_of_le_of_lt (mul_le_mul_of_nonneg_left hnr (by norm_num)) ?_
      calc (2 : ℝ) * 2 ^ 40 = 2 ^ (41 : ℤ) := by norm_num
        _ < 2 ^ (1023 : ℤ) := zpow_lt_zpow_right₀ (by norm_num) (by norm_num)
  obtain ⟨s, hs, -⟩ := C98_moderate (M := 1) (b := b) acc hpl
  refine ⟨s, hs, fun j M h1 h2 hx => ?_⟩
  obtain ⟨s', hs', hj⟩ := C98_moderate (M := M) (b := b) acc hpl
  obtain rfl : s' = s := Option.some.inj (hs'.symm.trans hs)
  have hM0 : 0 < M := lt_of_lt_of_le (by positivity) h1
  have hm : Moderate (2 ^ (-53 : ℤ)) (2 ^ (-1075 : ℤ)) (2 ^ (1023 : ℤ)) M raw j := by
    have e1 : (2 : ℝ) ^ (-53 : ℤ) * 2 ^ (-400 : ℤ) = 2 ^ (-453 : ℤ) := by
      rw [← zpow_add₀ (by norm_num)]; norm_num
    have e2 : (2 : ℝ) ^ (-53 : ℤ) * (2 ^ (-400 : ℤ)) ^ 2 = 2 ^ (-853 : ℤ) := by
      rw [← zpow_natCast, ← _root_.zpow_mul, ← zpow_add₀ (by norm_num)]; norm_num
    have e3 : (3 : ℝ) * 2 ^ (-1075 : ℤ) ≤ 2 ^ (-1073 : ℤ) := by
      have : (2 : ℝ) ^ (-1073 : ℤ) = 4 * 2 ^ (-1075 : ℤ) := by
        rw [show (-1073 : ℤ) = 2 + -1075 by norm_num, zpow_add₀ (by norm_num)]; norm_num
      rw [this]
      exact mul_le_mul_of_nonneg_right (by norm_num) (by positivity)
    have hsq : ((2 : ℝ) ^ (-400 : ℤ)) ^ 2 ≤ M ^ 2 := pow_le_pow_left₀ (by positivity) h1 2
    have hsq' : M ^ 2 ≤ ((2 : ℝ) ^ (400 : ℤ)) ^ 2 := pow_le_pow_left₀ hM0.le h2 2
    refine ⟨fun i => (hx i).1, fun i => (hx i).2, hM0, ?_, ?_, ?_, ?_⟩
    · refine e3.trans (le_trans ?_ (mul_le_mul_of_nonneg_left h1 (by positivity)))
      rw [e1]
      exact zpow_le_zpow_right₀ (by norm_num) (by norm_num)
    · refine le_trans ?_ (mul_le_mul_of_nonneg_left hsq (by positivity))
      rw [e2]
      exact zpow_le_zpow_right₀ (by norm_num) (by norm_num)
    · refine lt_of_le_of_lt (mul_le_mul_of_nonneg_left (mul_le_mul hnr h2 hM0.le (by positivity)) (by norm_num)) ?_
      calc (4 : ℝ) * (2 ^ 40 * 2 ^ (400 : ℤ)) = 2 ^ (42 : ℤ) * 2 ^ (400 : ℤ) := by
            rw [← mul_assoc]; congr 1; norm_num
        _ = 2 ^ (442 : ℤ) := by rw [← zpow_add₀ (by norm_num)]; norm_num
        _ < 2 ^ (1023 : ℤ) := zpow_lt_zpow_right₀ (by norm_num) (by norm_num)
    · refine lt_of_le_of_lt (mul_le_mul_of_nonneg_left (mul_le_mul hnr hsq' (by positivity) (by positivity))
        (by norm_num)) ?_
      calc (6 : ℝ) * (2 ^ 40 * (2 ^ (400 : ℤ)) ^ 2) ≤ 2 ^ (43 : ℤ) * (2 ^ (400 : ℤ)) ^ 2 := by
            rw [← mul_assoc]; exact mul_le_mul_of_nonneg_right (by norm_num) (by positivity)
        _ = 2 ^ (843 : ℤ) := by
            rw [← zpow_natCast, ← _root_.zpow_mul, ← zpow_add₀ (by norm_num)]; norm_num
        _ < 2 ^ (1023 : ℤ) := zpow_lt_zpow_right₀ (by norm_num) (by norm_num)
  obtain ⟨k1, k2, k3⟩ := hj j hm
  rw [hu] at k2 k3
  refine ⟨k1, k2.trans (le_of_eq (by ring)), fun hv => ?_⟩
  obtain ⟨l1, l2⟩ := k3 (lt_of_le_of_lt (le_of_eq (by ring)) hv)
  exact ⟨l1, l2.trans (le_of_eq (by rw [div_mul_eq_div_div]; ring))⟩

end

/-- The feature `2, 5, 8`. -/
noncomputable def stepRaw : Dataset (Fl binary64) 3 1 false :=
  { y := fun _ => 1, x := fun i _ => num (((2 + 3 * i.val : ℕ) : ℝ) : EReal), linearOffset := none,
    weights := none, freqs := none, standardizer := none }

/-- C98 applies to `2, 5, 8`: the computed mean is 5 and the computed standard deviation is 3, up to tiny
errors. -/
theorem C98_example : ∃ s, Standardizer.fromDataset stepRaw true = some s ∧
    |real (s.shifts 0) - 5| ≤ 1 / 2 ^ 40 ∧ |real (s.scales 0) - 3| ≤ 1 / 2 ^ 35 := by
  obtain ⟨s, hs, hj⟩ := C98_f64 (raw := stepRaw) (b := true) rfl rfl (by norm_num) (by norm_num) (D := 3)
    (by norm_num) (by norm_num) (left_depth _ _).1.le (left_depth _ _).2.le
  have hx : ∀ i, real (stepRaw.x i 0) = 2 + 3 * i.val := fun i => by
    rw [show stepRaw.x i 0 = num (((2 + 3 * i.val : ℕ) : ℝ) : EReal) from rfl, (real_num _).2]
    push_cast; ring
  have hwt : ∀ i, totalWt (exactData stepRaw) i = 1 := fun i => by
    simp [totalWt, freq, varWt, exactData, stepRaw]
  have hmean : wMean (exactData stepRaw) 0 = 5 := by
    unfold wMean
    simp only [hwt, one_mul, sum_ones]
    change (∑ i, real (stepRaw.x i 0)) / ((3 : ℕ) : ℝ) = 5
    simp only [hx, Fin.sum_univ_three]
    norm_num
  have heff : effCount (exactData stepRaw) = 3 := by
    unfold effCount
    have h1 : ∀ i, freq (exactData stepRaw) i = 1 := fun i => by simp [freq, exactData, stepRaw]
    have h2 : ∀ i, varWt (exactData stepRaw) i = 1 := fun i => by simp [varWt, exactData, stepRaw]
    simp only [h1, h2, one_mul, one_pow, sum_ones]
    norm_num
  have hvar : sampleVar (exactData stepRaw) 0 = 9 := by
    unfold sampleVar
    rw [hmean, heff]
    simp only [hwt, one_mul, sum_ones]
    change (∑ i, (real (stepRaw.x i 0) - 5) ^ 2) / ((3 : ℕ) : ℝ) * _ = 9
    simp only [hx, Fin.sum_univ_three]
    norm_num
  have b1 : (2 : ℝ) ^ (-400 : ℤ) ≤ 8 :=
    (zpow_le_one_of_nonpos₀ (by norm_num) (by norm_num)).trans (by norm_num)
  have b2 : (8 : ℝ) ≤ 2 ^ (400 : ℤ) := by
    calc (8 : ℝ) = 2 ^ (3 : ℤ) := by norm_num
      _ ≤ 2 ^ (400 : ℤ) := zpow_le_zpow_right₀ (by norm_num) (by norm_num)
  have b3 : ∀ i, (stepRaw.x i 0).isFinite ∧ |real (stepRaw.x i 0)| ≤ 8 := by
    intro i
    refine ⟨(real_num _).1, ?_⟩
    rw [hx]
    fin_cases i <;> norm_num
  obtain ⟨-, k2, k3⟩ := hj 0 8 b1 b2 b3
  have h3 : Real.sqrt 9 = 3 := by
    rw [show (9 : ℝ) = 3 ^ 2 by norm_num]; exact Real.sqrt_sq (by norm_num)
  rw [if_pos rfl, hmean] at k2
  rw [hvar, h3] at k3
  refine ⟨s, hs, k2.trans (by norm_num), (k3 (by norm_num)).2.trans (by norm_num)⟩

/-- A column of two ones. -/
noncomputable def onesRaw : Dataset (Fl binary64) 2 1 false :=
  { y := fun _ => 1, x := fun _ _ => 1, linearOffset := none, weights := none, freqs := none,
    standardizer := none }

/-- The computed mean of a column of two ones is one, so that it is recognized as constant. -/
theorem C98_example_constant : ∃ s, Standardizer.fromDataset onesRaw true = some s ∧ s.scales 0 = 1 ∧
    ∀ i, real (s.transform onesRaw.x i 0) = 0 := by
  obtain ⟨s, hs, -⟩ := C98_f64 (raw := onesRaw) (b := true) rfl rfl le_rfl (by norm_num) (D := 2)
    (by norm_num) (by norm_num) (left_depth _ _).1.le (left_depth _ _).2.le
  have one : Is (1 : Fl binary64) 1 := real_one
  have hr1 : FloatFormat.rnd binary64 ((1 : ℝ) : EReal) = ((1 : ℝ) : EReal) := by
    exact_mod_cast FloatFormat.rnd_one binary64
  have hr2 : FloatFormat.rnd binary64 ((2 : ℝ) : EReal) = ((2 : ℝ) : EReal) :=
    (accurate_binary64 fun _ => SumOrder.left).rnd_two
  have two : Is (0 + 1 + 1 : Fl binary64) 2 :=
    Is.add (Is.add Is.zero one (r := 1) (by rw [zero_add]; exact hr1)) one
      (by rw [one_add_one_eq_two]; exact hr2)
  have mul : Is (1 * 1 : Fl binary64) 1 := Is.mul one one (by rw [one_mul]; exact hr1)
  have two' : Is (0 + 1 * 1 + 1 * 1 : Fl binary64) 2 :=
    Is.add (Is.add Is.zero mul (r := 1) (by rw [zero_add]; exact hr1)) mul
      (by rw [one_add_one_eq_two]; exact hr2)
  have hm : Is (s.shifts 0) 1 := by
    obtain ⟨m, v, hsh, -, hmean, -⟩ := fromDataset_parts hs
    rw [if_pos rfl] at hsh
    rw [hsh, hmean (by norm_num)]
    exact Is.div two' two (by norm_num) (by rw [div_self (by norm_num)]; exact hr1)
  obtain ⟨h1, h2⟩ := C98_constant hs (c := 1) hm (fun i => one)
  exact ⟨s, hs, h1, fun i => (h2 i).2⟩

end GLM
