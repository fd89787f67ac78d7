/-
  Means and variances of the response distributions.
-/
import Verif.Lemmas.RealDists
import Mathlib.RingTheory.Polynomial.Bernstein

open MeasureTheory ProbabilityTheory Set

namespace GLM

theorem HasMoments.of_second {μ : Measure ℝ} [IsProbabilityMeasure μ] {m s : ℝ}
    (h1 : Integrable (fun x => x) μ) (h2 : Integrable (fun x => x ^ 2) μ)
    (hm : ∫ x, x ∂μ = m) (hs : ∫ x, x ^ 2 ∂μ = s) : HasMoments μ m (s - m ^ 2) := by
  refine ⟨inferInstance, h2, hm, ?_⟩
  have : ∀ x : ℝ, (x - m) ^ 2 = x ^ 2 - (2 * m) * x + m ^ 2 := fun x => by ring
  simp only [this]
  have h3 : Integrable (fun x : ℝ => x ^ 2 - (2 * m) * x) μ := h2.sub (h1.const_mul _)
  rw [integral_add h3 (integrable_const _), integral_sub h2 (h1.const_mul _),
    integral_const_mul, hm, hs]
  simp
  ring

/-! ### Gamma -/

theorem gamma_integral {a r : ℝ} (ha : 0 < a) (hr : 0 < r) (k : ℕ) :
    Integrable (fun x => x ^ k) (gammaMeasure a r) ∧
    ∫ x, x ^ k ∂(gammaMeasure a r) = Real.Gamma (a + k) / Real.Gamma a / r ^ k := by
  have hmeas : Measurable (gammaPDF a r) := (measurable_gammaPDFReal a r).ennreal_ofReal
  have htop : ∀ᵐ x ∂(volume : Measure ℝ), gammaPDF a r x < ⊤ := ae_of_all _ fun _ =>
    ENNReal.ofReal_lt_top
  have hto : ∀ x, (gammaPDF a r x).toReal = gammaPDFReal a r x := fun x =>
    ENNReal.toReal_ofReal (gammaPDFReal_nonneg ha hr x)
  have hak : 0 < a + k := by positivity
  have hval : ∫ x, (gammaPDF a r x).toReal • x ^ k =
      Real.Gamma (a + k) / Real.Gamma a / r ^ k := by
    simp only [hto, smul_eq_mul]
    have h1 : ∫ x, gammaPDFReal a r x * x ^ k = ∫ x in Ioi 0, gammaPDFReal a r x * x ^ k := by
      rw [← integral_indicator measurableSet_Ioi]
      refine integral_congr_ae ?_
      have h0 : ∀ᵐ x ∂(volume : Measure ℝ), x ≠ 0 := by
        rw [ae_iff]; simp
      filter_upwards [h0] with x hx
      rcases lt_or_gt_of_ne hx with h | h
      · rw [indicator_of_notMem (by simpa using h.le), gammaPDFReal, if_neg (not_le.mpr h), zero_mul]
      · rw [indicator_of_mem (mem_Ioi.mpr h)]
    have h2 : ∀ x ∈ Ioi (0:ℝ), gammaPDFReal a r x * x ^ k =
        r ^ a / Real.Gamma a * (x ^ (a + k - 1) * Real.exp (-(r * x))) := by
      intro x hx
      have hx0 : (0:ℝ) < x := hx
      rw [gammaPDFReal, if_pos hx0.le, show a + k - 1 = (a - 1) + (k : ℝ) by ring,
        Real.rpow_add hx0, Real.rpow_natCast]
      ring
    rw [h1, setIntegral_congr_fun measurableSet_Ioi h2, integral_const_mul,
      Real.integral_rpow_mul_exp_neg_mul_Ioi hak hr, Real.div_rpow zero_le_one hr.le, Real.one_rpow,
      Real.rpow_add hr, Real.rpow_natCast]
    have := (Real.rpow_pos_of_pos hr a).ne'
    field_simp
  have hne : ∫ x, (gammaPDF a r x).toReal • x ^ k ≠ 0 := by
    rw [hval]
    have := Real.Gamma_pos_of_pos hak
    have := Real.Gamma_pos_of_pos ha
    positivity
  constructor
  · rw [gammaMeasure, integrable_withDensity_iff_integrable_smul' hmeas htop]
    by_contra hno
    exact hne (integral_undef hno)
  · rw [gammaMeasure, integral_withDensity_eq_integral_toReal_smul hmeas htop, hval]

theorem gamma_moments {a r : ℝ} (ha : 0 < a) (hr : 0 < r) :
    HasMoments (gammaMeasure a r) (a / r) (a / r ^ 2) := by
  have := isProbabilityMeasure_gammaMeasure ha hr
  obtain ⟨i1, e1⟩ := gamma_integral ha hr 1
  obtain ⟨i2, e2⟩ := gamma_integral ha hr 2
  simp only [pow_one, Nat.cast_one] at i1 e1
  have hG := (Real.Gamma_pos_of_pos ha).ne'
  rw [Real.Gamma_add_one ha.ne'] at e1
  rw [show a + ((2:ℕ):ℝ) = (a + 1) + 1 by push_cast; ring, Real.Gamma_add_one (by positivity),
    Real.Gamma_add_one ha.ne'] at e2
  have h := HasMoments.of_second i1 i2 e1 e2
  convert h using 1 <;> field_simp
  ring

/-! ### Poisson -/

theorem hasSum_shift {f : ℕ → ℝ} {a : ℝ} (h0 : f 0 = 0) (h : HasSum (fun n => f (n + 1)) a) :
    HasSum f a := by
  have := (hasSum_nat_add_iff 1).mp h
  simpa [h0] using this

theorem poisson_moments {r : ℝ} (hr : 0 < r) :
    HasMoments ((poissonMeasure r.toNNReal).map (Nat.cast : ℕ → ℝ)) r r := by
  set q : ℕ → ℝ := fun n => Real.exp (-r) * r ^ n / n.factorial with hq
  have hc : ((r.toNNReal : NNReal) : ℝ) = r := Real.coe_toNNReal r hr.le
  have s0 : HasSum q 1 := by
    have := hasSum_one_poissonMeasure r.toNNReal
    rwa [hc] at this
  have hq1 : ∀ n : ℕ, q (n + 1) * ((n + 1 : ℕ) : ℝ) = r * q n := by
    intro n
    simp only [hq]
    rw [Nat.factorial_succ, pow_succ]
    push_cast
    have : ((n.factorial : ℕ) : ℝ) ≠ 0 := by exact_mod_cast n.factorial_ne_zero
    field_simp
  have s1 : HasSum (fun n : ℕ => q n * (n : ℝ)) r := by
    refine hasSum_shift (by simp) ?_
    simp only [hq1]
    simpa using s0.mul_left r
  have s2 : HasSum (fun n : ℕ => q n * (n : ℝ) ^ 2) (r * (r + 1)) := by
    refine hasSum_shift (by simp) ?_
    have : ∀ n : ℕ, q (n + 1) * ((n + 1 : ℕ) : ℝ) ^ 2 = r * (q n * n + q n) := by
      intro n
      rw [pow_two, ← mul_assoc, hq1]; push_cast; ring
    simp only [this]
    exact (s1.add s0).mul_left r
  have hm : Measurable (Nat.cast : ℕ → ℝ) := measurable_of_countable _
  have : IsProbabilityMeasure ((poissonMeasure r.toNNReal).map (Nat.cast : ℕ → ℝ)) :=
    Measure.isProbabilityMeasure_map hm.aemeasurable
  have hint : ∀ k : ℕ, Summable (fun n : ℕ => q n * (n : ℝ) ^ k) →
      Integrable (fun x : ℝ => x ^ k) ((poissonMeasure r.toNNReal).map (Nat.cast : ℕ → ℝ)) ∧
      ∫ x, x ^ k ∂((poissonMeasure r.toNNReal).map (Nat.cast : ℕ → ℝ)) =
        ∑' n : ℕ, q n * (n : ℝ) ^ k := by
    intro k hs
    have hi : Integrable (fun n : ℕ => (n : ℝ) ^ k) (poissonMeasure r.toNNReal) := by
      rw [integrable_poissonMeasure_iff, hc]
      simpa [hq] using hs
    constructor
    · rw [integrable_map_measure (by fun_prop) hm.aemeasurable]
      exact hi
    · rw [integral_map hm.aemeasurable (by fun_prop), integral_poissonMeasure, hc]
      rfl
  obtain ⟨i1, e1⟩ := hint 1 (by simpa using s1.summable)
  obtain ⟨i2, e2⟩ := hint 2 s2.summable
  simp only [pow_one] at i1 e1
  rw [s1.tsum_eq] at e1
  rw [s2.tsum_eq] at e2
  have h := HasMoments.of_second i1 i2 e1 e2
  convert h using 1
  ring

/-! ### Finite laws -/

theorem finite_integral {k : ℕ} (w x : ℕ → ℝ) (hw : ∀ i ∈ Finset.range k, 0 ≤ w i) (f : ℝ → ℝ) :
    Integrable f (∑ i ∈ Finset.range k, ENNReal.ofReal (w i) • Measure.dirac (x i)) ∧
    ∫ t, f t ∂(∑ i ∈ Finset.range k, ENNReal.ofReal (w i) • Measure.dirac (x i)) =
      ∑ i ∈ Finset.range k, w i * f (x i) := by
  have hi : ∀ i ∈ Finset.range k, Integrable f (ENNReal.ofReal (w i) • Measure.dirac (x i)) := by
    intro i _
    exact (integrable_dirac (by simp)).smul_measure ENNReal.ofReal_ne_top
  constructor
  · exact integrable_finsetSum_measure.mpr hi
  · rw [integral_finsetSum_measure hi]
    refine Finset.sum_congr rfl fun i h => ?_
    rw [integral_smul_measure, integral_dirac, ENNReal.toReal_ofReal (hw i h), smul_eq_mul]

theorem binomial_weights (n : ℕ) (p : ℝ) :
    ∑ k ∈ Finset.range (n + 1), (n.choose k * p ^ k * (1 - p) ^ (n - k) : ℝ) = 1 ∧
    ∑ k ∈ Finset.range (n + 1), (n.choose k * p ^ k * (1 - p) ^ (n - k) : ℝ) * k = n * p ∧
    ∑ k ∈ Finset.range (n + 1), (n.choose k * p ^ k * (1 - p) ^ (n - k) : ℝ) * (k - n * p) ^ 2
      = n * p * (1 - p) := by
  refine ⟨?_, ?_, ?_⟩
  · have := congrArg (Polynomial.eval p) (bernsteinPolynomial.sum ℝ n)
    simpa [bernsteinPolynomial, Polynomial.eval_finsetSum] using this
  · have := congrArg (Polynomial.eval p) (bernsteinPolynomial.sum_smul ℝ n)
    simp [bernsteinPolynomial, Polynomial.eval_finsetSum] at this
    rw [← this]
    exact Finset.sum_congr rfl fun k _ => by ring
  · have := congrArg (Polynomial.eval p) (bernsteinPolynomial.variance ℝ n)
    simp [bernsteinPolynomial, Polynomial.eval_finsetSum] at this
    rw [← this]
    exact Finset.sum_congr rfl fun k _ => by ring

theorem binomial_moments {p : ℝ} (h0 : 0 ≤ p) (h1 : p ≤ 1) (n : ℕ) :
    HasMoments (Distribution.binomial p n).law (n * p) (n * p * (1 - p)) := by
  obtain ⟨s0, s1, s2⟩ := binomial_weights n p
  have hw : ∀ k ∈ Finset.range (n + 1), (0:ℝ) ≤ n.choose k * p ^ k * (1 - p) ^ (n - k) := by
    intro k _
    have : 0 ≤ 1 - p := by linarith
    positivity
  have hf := finite_integral _ (fun k => (k : ℝ)) hw
  refine ⟨⟨?_⟩, (hf _).1, ?_, ?_⟩
  · simp only [Distribution.law, Measure.finsetSum_apply, Measure.smul_apply, measure_univ,
      smul_eq_mul, mul_one]
    rw [← ENNReal.ofReal_sum_of_nonneg hw, s0, ENNReal.ofReal_one]
  · rw [Distribution.law, (hf _).2, s1]
  · rw [Distribution.law, (hf _).2, s2]

theorem bernoulli_eq_binomial (p : ℝ) :
    (Distribution.bernoulli p).law = (Distribution.binomial p 1).law := by
  simp [Distribution.law, Finset.sum_range_succ]

theorem normal_moments (m : ℝ) {s : ℝ} (hs : 0 < s) :
    HasMoments (Distribution.normal m s).law m (s ^ 2) := by
  have hL : MemLp id 2 (gaussianReal m (s ^ 2).toNNReal) := memLp_id_gaussianReal 2
  refine ⟨by unfold Distribution.law; infer_instance, ?_, ?_, ?_⟩
  · exact hL.integrable_sq
  · exact integral_id_gaussianReal
  · have h := variance_fun_id_gaussianReal (μ := m) (v := (s ^ 2).toNNReal)
    rw [variance_eq_integral (by fun_prop), Real.coe_toNNReal _ (by positivity)] at h
    simpa [Distribution.law] using h

/-- Every distribution the crate can construct has the textbook mean and variance. -/
theorem law_moments : ∀ D : Distribution ℝ, D.accepted = true →
    HasMoments D.law
      (match D with
        | .normal m _ => m
        | .exponential r => 1 / r
        | .gamma a r => a / r
        | .poisson r => r
        | .bernoulli p => p
        | .binomial p n => n * p)
      (match D with
        | .normal _ s => s ^ 2
        | .exponential r => 1 / r ^ 2
        | .gamma a r => a / r ^ 2
        | .poisson r => r
        | .bernoulli p => p * (1 - p)
        | .binomial p n => n * p * (1 - p)) := by
  intro D h
  cases D with
  | normal m s => exact normal_moments m (by simpa [Distribution.accepted] using h)
  | exponential r => exact gamma_moments one_pos (by simpa [Distribution.accepted] using h)
  | gamma a r =>
    have : 0 < a ∧ 0 < r := by simpa [Distribution.accepted] using h
    exact gamma_moments this.1 this.2
  | poisson r => exact poisson_moments (by simpa [Distribution.accepted] using h)
  | bernoulli p =>
    have : 0 ≤ p ∧ p ≤ 1 := by simpa [Distribution.accepted] using h
    rw [bernoulli_eq_binomial]
    simpa using binomial_moments this.1 this.2 1
  | binomial p n =>
    have : 0 ≤ p ∧ p ≤ 1 := by simpa [Distribution.accepted] using h
    exact binomial_moments this.1 this.2 n

end GLM
