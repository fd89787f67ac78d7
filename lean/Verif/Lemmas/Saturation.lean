/-
  Strict convexity of the cumulant and the saturated likelihood.
-/
import Verif.Lemmas.FamilyDeriv
import Mathlib.Analysis.Convex.Deriv

namespace GLM
open Set Spec Filter Topology

theorem meanOfNat_mem (fam : Family) (hv : ValidFamily fam) {η : ℝ} (h : η ∈ natDom fam) :
    meanOfNat fam η ∈ meanDom fam := by
  cases fam <;> simp only [natDom, mem_Iio, meanDom, mem_Ioo, mem_Ioi, meanOfNat, mem_univ, ValidFamily] at *
  case logisticLogit =>
    exact ⟨by positivity, by rw [div_lt_one (by positivity)]; linarith [Real.exp_pos (-η)]⟩
  case logisticCloglog =>
    exact ⟨by positivity, by rw [div_lt_one (by positivity)]; linarith [Real.exp_pos (-η)]⟩
  case binomial N =>
    have hN : (0 : ℝ) < N := by exact_mod_cast hv
    exact ⟨by positivity, by
      rw [div_lt_iff₀ (by positivity)]; nlinarith [Real.exp_pos (-η), mul_pos hN (Real.exp_pos (-η))]⟩
  case poisson => exact Real.exp_pos η
  case invGaussNegRecSq =>
    have : (0:ℝ) < -2 * η := by linarith
    positivity
  case invGaussLog =>
    have : (0:ℝ) < -2 * η := by linarith
    positivity
  all_goals exact div_pos_of_neg_of_neg (by norm_num) h

theorem meanOfNat_strictMonoOn (fam : Family) (hv : ValidFamily fam) :
    StrictMonoOn (meanOfNat fam) (natDom fam) := by
  apply strictMonoOn_of_deriv_pos (natDom_convex fam)
  · exact fun η h => (meanOfNat_hasDerivAt fam hv h).continuousAt.continuousWithinAt
  · intro η h
    rw [(natDom_isOpen fam).interior_eq] at h
    rw [(meanOfNat_hasDerivAt fam hv h).deriv]
    exact varianceFn_pos fam hv (meanOfNat_mem fam hv h)

theorem cumulant_strictConvexOn (fam : Family) (hv : ValidFamily fam) :
    StrictConvexOn ℝ (natDom fam) (cumulant fam) := by
  apply StrictMonoOn.strictConvexOn_of_deriv (natDom_convex fam)
  · exact fun η h => (cumulant_hasDerivAt fam h).continuousAt.continuousWithinAt
  · rw [(natDom_isOpen fam).interior_eq]
    intro a ha b hb hab
    rw [(cumulant_hasDerivAt fam ha).deriv, (cumulant_hasDerivAt fam hb).deriv]
    exact meanOfNat_strictMonoOn fam hv ha hb hab

/-- Tangent line inequality for the cumulant, strict away from the base point. -/
theorem cumulant_tangent_lt (fam : Family) (hv : ValidFamily fam) {η η₀ : ℝ}
    (h : η ∈ natDom fam) (h₀ : η₀ ∈ natDom fam) (hne : η ≠ η₀) :
    cumulant fam η₀ + meanOfNat fam η₀ * (η - η₀) < cumulant fam η := by
  have hc := cumulant_strictConvexOn fam hv
  have hd := cumulant_hasDerivAt fam h₀
  rcases lt_or_gt_of_ne hne with hlt | hgt
  · have := hc.slope_lt_of_hasDerivAt h h₀ hlt hd
    rw [slope_def_field, div_lt_iff₀ (by linarith)] at this
    linarith
  · have := hc.lt_slope_of_hasDerivAt h₀ h hgt hd
    rw [slope_def_field, lt_div_iff₀ (by linarith)] at this
    linarith

theorem cumulant_tangent_le (fam : Family) (hv : ValidFamily fam) {η η₀ : ℝ}
    (h : η ∈ natDom fam) (h₀ : η₀ ∈ natDom fam) :
    cumulant fam η₀ + meanOfNat fam η₀ * (η - η₀) ≤ cumulant fam η := by
  by_cases hne : η = η₀
  · subst hne; simp
  · exact (cumulant_tangent_lt fam hv h h₀ hne).le

/-- The canonical link maps means into the natural parameter space. -/
theorem canonicalLink_mem (fam : Family) {μ : ℝ} (h : μ ∈ meanDom fam) :
    canonicalLink fam μ ∈ natDom fam := by
  cases fam <;> simp only [natDom, mem_Iio, meanDom, mem_Ioo, mem_Ioi, canonicalLink, mem_univ] at *
  case invGaussNegRecSq => exact div_neg_of_neg_of_pos (by norm_num) (by positivity)
  case invGaussLog => exact div_neg_of_neg_of_pos (by norm_num) (by positivity)
  all_goals exact div_neg_of_neg_of_pos (by norm_num) h

theorem meanOfNat_canonicalLink (fam : Family) {μ : ℝ} (h : μ ∈ meanDom fam) :
    meanOfNat fam (canonicalLink fam μ) = μ := by
  cases fam <;> simp only [meanDom, mem_Ioo, mem_Ioi, canonicalLink, meanOfNat, mem_univ] at *
  case logisticLogit =>
    have h1 : 0 < 1 - μ := by linarith
    rw [← Real.log_inv, Real.exp_log (by have := h.1; positivity)]
    have := h.1
    field_simp
    ring
  case logisticCloglog =>
    have h1 : 0 < 1 - μ := by linarith
    rw [← Real.log_inv, Real.exp_log (by have := h.1; positivity)]
    have := h.1
    field_simp
    ring
  case binomial N =>
    have h1 : 0 < N - μ := by linarith
    have h2 := h.1
    have hN : (0 : ℝ) < N := by linarith
    rw [← Real.log_inv, Real.exp_log (by positivity)]
    field_simp
    ring
  case poisson => exact Real.exp_log h
  case invGaussNegRecSq =>
    have : -2 * (-1 / (2 * μ ^ 2)) = (1 / μ) ^ 2 := by field_simp
    rw [this, Real.sqrt_sq (by positivity)]; field_simp
  case invGaussLog =>
    have : -2 * (-1 / (2 * μ ^ 2)) = (1 / μ) ^ 2 := by field_simp
    rw [this, Real.sqrt_sq (by positivity)]; field_simp
  all_goals field_simp

/-- At an interior response the saturated likelihood is the likelihood at `g₀(y)`. -/
theorem logLikeSat_eq (fam : Family) {y : ℝ} (h : y ∈ meanDom fam) :
    (fam.glm (F := ℝ)).logLikeSat y
      = (fam.glm (F := ℝ)).logLikeNatural y (canonicalLink fam y) := by
  rw [logLikeSat_real, logLikeNatural_real]
  have logi : ∀ y : ℝ, 0 < y → y < 1 → y * Real.log y + (1 - y) * Real.log (1 - y)
      = y * Real.log (y / (1 - y)) - Real.log (1 + Real.exp (Real.log (y / (1 - y)))) := by
    intro y h0 h1
    have h1 : 0 < 1 - y := by linarith
    rw [Real.exp_log (by positivity)]
    have : 1 + y / (1 - y) = (1 - y)⁻¹ := by field_simp; ring
    rw [this, Real.log_inv, Real.log_div h0.ne' h1.ne']
    ring
  have gam : ∀ y : ℝ, 0 < y → -(1 + Real.log y) = y * (-1 / y) - -Real.log (-(-1 / y)) := by
    intro y h
    have : -(-1 / y) = y⁻¹ := by field_simp
    rw [this, Real.log_inv]; field_simp; ring
  have ig : ∀ y : ℝ, 0 < y → 1 / 2 * (1 / y) = y * (-1 / (2 * y ^ 2))
      - -Real.sqrt (-2 * (-1 / (2 * y ^ 2))) := by
    intro y h
    have : -2 * (-1 / (2 * y ^ 2)) = (1 / y) ^ 2 := by field_simp
    rw [this, Real.sqrt_sq (by positivity)]; field_simp; ring
  cases fam <;> simp only [meanDom, mem_Ioo, mem_Ioi, canonicalLink, cumulant, mem_univ] at *
  case linear => ring
  case logisticLogit => exact logi y h.1 h.2
  case logisticCloglog => exact logi y h.1 h.2
  case poisson => rw [Real.exp_log h]
  case binomial N =>
    have h0 := h.1
    have h1 : 0 < N - y := by linarith
    have hN : (0 : ℝ) < N := by linarith
    rw [Real.exp_log (by positivity)]
    have : 1 + y / (N - y) = N / (N - y) := by field_simp; ring
    rw [this, Real.log_div hN.ne' h1.ne', Real.log_div h0.ne' h1.ne']
    ring
  case invGaussNegRecSq => exact ig y h
  case invGaussLog => exact ig y h
  all_goals exact gam y h

theorem logLikeNatural_le_interior (fam : Family) (hv : ValidFamily fam) {y η : ℝ}
    (h : y ∈ meanDom fam) (hη : η ∈ natDom fam) :
    (fam.glm (F := ℝ)).logLikeNatural y η ≤ (fam.glm (F := ℝ)).logLikeSat y := by
  rw [logLikeSat_eq fam h, logLikeNatural_real, logLikeNatural_real]
  have := cumulant_tangent_le fam hv hη (canonicalLink_mem fam h)
  rw [meanOfNat_canonicalLink fam h] at this
  linarith

private theorem tendsto_log1p_atBot :
    Tendsto (fun η : ℝ => Real.log (1 + Real.exp η)) atBot (𝓝 0) := by
  have h1 : Tendsto (fun η : ℝ => 1 + Real.exp η) atBot (𝓝 (1 + 0)) :=
    Real.tendsto_exp_atBot.const_add 1
  rw [add_zero] at h1
  have := h1.log one_ne_zero
  simpa using this

private theorem lub_logistic {N : ℝ} (hN : 0 ≤ N) {y : ℝ} (hy : y = 0 ∨ y = N) :
    IsLUB ((fun η => y * η - N * Real.log (1 + Real.exp η)) '' univ) 0 := by
  apply isLUB_of_mem_closure
  · rintro _ ⟨η, -, rfl⟩
    rcases hy with rfl | rfl
    · have : 0 ≤ Real.log (1 + Real.exp η) := Real.log_nonneg (by linarith [Real.exp_pos η])
      have := mul_nonneg hN this
      simp only [zero_mul]; linarith
    · have h1 : η ≤ Real.log (1 + Real.exp η) := by
        rw [Real.le_log_iff_exp_le (by positivity)]; linarith
      have := mul_le_mul_of_nonneg_left h1 hN
      simp only; linarith
  · rcases hy with rfl | rfl
    · have h1 := (tendsto_log1p_atBot.const_mul N).const_sub 0
      have h2 : Tendsto (fun η => 0 * η - N * Real.log (1 + Real.exp η)) atBot (𝓝 0) := by
        simpa using h1
      exact mem_closure_of_tendsto h2 (Eventually.of_forall fun η => ⟨η, mem_univ _, rfl⟩)
    · have h1 := ((tendsto_log1p_atBot.comp tendsto_neg_atTop_atBot).const_mul y).const_sub 0
      have h2 : Tendsto (fun η => y * η - y * Real.log (1 + Real.exp η)) atTop (𝓝 0) := by
        have : (fun η => y * η - y * Real.log (1 + Real.exp η))
            = fun η => 0 - y * (((fun η => Real.log (1 + Real.exp η)) ∘ Neg.neg) η) := by
          funext η
          have h1 : 1 + Real.exp η = Real.exp η * (1 + Real.exp (-η)) := by
            rw [mul_add, ← Real.exp_add]; simp [add_comm]
          simp only [Function.comp]
          rw [h1, Real.log_mul (Real.exp_pos η).ne' (by positivity), Real.log_exp]
          ring
        rw [this]; simpa using h1
      exact mem_closure_of_tendsto h2 (Eventually.of_forall fun η => ⟨η, mem_univ _, rfl⟩)

/-- The saturated likelihood is the least upper bound of the attainable likelihoods. -/
theorem logLikeSat_isLUB (fam : Family) (hv : ValidFamily fam) {y : ℝ} (h : y ∈ yDom fam) :
    IsLUB ((fam.glm (F := ℝ)).logLikeNatural y '' natDom fam) ((fam.glm (F := ℝ)).logLikeSat y) := by
  by_cases hi : y ∈ meanDom fam
  · refine ⟨?_, ?_⟩
    · rintro _ ⟨η, hη, rfl⟩
      exact logLikeNatural_le_interior fam hv hi hη
    · intro b hb
      rw [logLikeSat_eq fam hi]
      exact hb ⟨_, canonicalLink_mem fam hi, rfl⟩
  · have himg : (fam.glm (F := ℝ)).logLikeNatural y = fun η => y * η - cumulant fam η := by
      funext η; exact logLikeNatural_real fam y η
    rw [himg, logLikeSat_real]
    cases fam <;> simp only [meanDom, yDom, natDom, mem_Ioo, mem_Ioi, mem_Icc, mem_Ici, mem_univ,
      not_true_eq_false, cumulant] at *
    case logisticLogit =>
      have hy : y = 0 ∨ y = 1 := by
        by_contra hc; push Not at hc
        exact hi ⟨lt_of_le_of_ne h.1 (Ne.symm hc.1), lt_of_le_of_ne h.2 hc.2⟩
      have := lub_logistic (N := 1) zero_le_one hy
      rcases hy with rfl | rfl <;> simpa using this
    case logisticCloglog =>
      have hy : y = 0 ∨ y = 1 := by
        by_contra hc; push Not at hc
        exact hi ⟨lt_of_le_of_ne h.1 (Ne.symm hc.1), lt_of_le_of_ne h.2 hc.2⟩
      have := lub_logistic (N := 1) zero_le_one hy
      rcases hy with rfl | rfl <;> simpa using this
    case binomial N =>
      have hN : (0 : ℝ) ≤ N := Nat.cast_nonneg N
      have hy : y = 0 ∨ y = N := by
        by_contra hc; push Not at hc
        exact hi ⟨lt_of_le_of_ne h.1 (Ne.symm hc.1), lt_of_le_of_ne h.2 hc.2⟩
      have := lub_logistic hN hy
      rcases hy with rfl | rfl <;> simpa using this
    case poisson =>
      have hy : y = 0 := le_antisymm (not_lt.mp hi) h
      subst hy
      apply isLUB_of_mem_closure
      · rintro _ ⟨η, -, rfl⟩
        have := Real.exp_pos η
        simp only [zero_mul]; linarith
      · have h1 := Real.tendsto_exp_atBot.const_sub 0
        have h2 : Tendsto (fun η => 0 * η - Real.exp η) atBot (𝓝 (0 * Real.log 0 - 0)) := by
          simpa using h1
        exact mem_closure_of_tendsto h2 (Eventually.of_forall fun η => ⟨η, mem_univ _, rfl⟩)
    all_goals exact absurd h hi

theorem logLikeNatural_le_sat (fam : Family) (hv : ValidFamily fam) {y η : ℝ}
    (h : y ∈ yDom fam) (hη : η ∈ natDom fam) :
    (fam.glm (F := ℝ)).logLikeNatural y η ≤ (fam.glm (F := ℝ)).logLikeSat y :=
  (logLikeSat_isLUB fam hv h).1 ⟨η, hη, rfl⟩

end GLM
