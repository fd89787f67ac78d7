/-
  The textbook distributions satisfy the assumptions of `Spec/Dists`.
-/
import Verif.Spec.RealDists
import Mathlib.MeasureTheory.Function.Jacobian

open MeasureTheory ProbabilityTheory Set

namespace GLM

theorem chi2Law_prob {ν : ℝ} (h : 0 < ν) : IsProbabilityMeasure (chi2Law ν) :=
  isProbabilityMeasure_gammaMeasure (by positivity) (by norm_num)

theorem chi2Law_Iic (ν : ℝ) : chi2Law ν (Iic 0) = 0 := by
  rw [chi2Law, gammaMeasure, withDensity_apply _ measurableSet_Iic,
    setLIntegral_congr Iio_ae_eq_Iic.symm]
  exact lintegral_gammaPDF_of_nonpos le_rfl

theorem chi2Law_ae_pos (ν : ℝ) : ∀ᵐ v ∂(chi2Law ν), 0 < v := by
  rw [ae_iff]
  convert chi2Law_Iic ν using 2
  ext; simp

theorem measurable_student (ν : ℝ) : Measurable fun q : ℝ × ℝ => q.1 / √(q.2 / ν) := by
  fun_prop

theorem measurable_fisher (d1 d2 : ℝ) :
    Measurable fun q : ℝ × ℝ => (q.1 / d1) / (q.2 / d2) := by fun_prop

theorem studentLaw_prob {ν : ℝ} (h : 0 < ν) : IsProbabilityMeasure (studentLaw ν) := by
  have := chi2Law_prob h
  exact Measure.isProbabilityMeasure_map (measurable_student ν).aemeasurable

theorem fisherLaw_prob {d1 d2 : ℝ} (h1 : 0 < d1) (h2 : 0 < d2) :
    IsProbabilityMeasure (fisherLaw d1 d2) := by
  have := chi2Law_prob h1
  have := chi2Law_prob h2
  exact Measure.isProbabilityMeasure_map (measurable_fisher d1 d2).aemeasurable

theorem sf_anti (μ : Measure ℝ) [IsFiniteMeasure μ] : Antitone fun x => μ.real (Ioi x) :=
  fun _ _ h => measureReal_mono (Ioi_subset_Ioi h)

theorem gauss_neg : (gaussianReal 0 1).map (fun x => -x) = gaussianReal 0 1 := by
  rw [gaussianReal_map_neg, neg_zero]

instance : NullSingletonClass (gaussianReal 0 1) := nullSingletonClass_gaussianReal one_ne_zero

theorem half_of_symm (μ : Measure ℝ) [IsProbabilityMeasure μ] (hs : μ.map (fun x => -x) = μ)
    (h0 : μ {0} = 0) : μ.real (Ioi 0) = 1 / 2 := by
  have h1 : μ (Iio 0) = μ (Ioi 0) := by
    conv_rhs => rw [← hs, Measure.map_apply measurable_neg measurableSet_Ioi]
    congr 1; ext; simp
  have h2 : μ.real (Iio 0 ∪ ({0} ∪ Ioi 0)) = 1 := by
    have : (Iio 0 ∪ ({0} ∪ Ioi 0) : Set ℝ) = univ := by
      ext x; simp
    rw [this, probReal_univ]
  rw [measureReal_union (by simp [Set.disjoint_left])
    (by measurability), measureReal_union (by simp) measurableSet_Ioi] at h2
  simp only [measureReal_def, h0, h1] at h2 ⊢
  simp at h2
  linarith

theorem gauss_half : (gaussianReal 0 1).real (Ioi 0) = 1 / 2 :=
  half_of_symm _ gauss_neg (measure_singleton 0)

theorem prod_ae_snd {ν : ℝ} (h : 0 < ν) (μ : Measure ℝ) [IsProbabilityMeasure μ] :
    ∀ᵐ q ∂(μ.prod (chi2Law ν)), 0 < q.2 := by
  have := chi2Law_prob h
  rw [ae_iff]
  have : {q : ℝ × ℝ | ¬ 0 < q.2} = univ ×ˢ Iic 0 := by ext; simp
  rw [this, Measure.prod_prod, chi2Law_Iic, mul_zero]

theorem prod_ae_fst {ν : ℝ} (μ : Measure ℝ) [IsProbabilityMeasure μ] :
    ∀ᵐ q ∂((chi2Law ν).prod μ), 0 < q.1 := by
  rw [ae_iff]
  have : {q : ℝ × ℝ | ¬ 0 < q.1} = Iic 0 ×ˢ univ := by ext; simp
  rw [this, Measure.prod_prod, chi2Law_Iic, zero_mul]

theorem gauss_prod_neg {ν : ℝ} (h : 0 < ν) :
    ((gaussianReal 0 1).prod (chi2Law ν)).map (Prod.map (fun x => -x) id) =
      (gaussianReal 0 1).prod (chi2Law ν) := by
  have := chi2Law_prob h
  rw [← Measure.map_prod_map _ _ measurable_neg measurable_id, gauss_neg, Measure.map_id]

theorem studentLaw_neg {ν : ℝ} (h : 0 < ν) : (studentLaw ν).map (fun x => -x) = studentLaw ν := by
  unfold studentLaw
  rw [Measure.map_map measurable_neg (measurable_student ν)]
  conv_rhs => rw [← gauss_prod_neg h, Measure.map_map (measurable_student ν)
    (measurable_neg.prodMap measurable_id)]
  congr 1
  ext q
  simp [neg_div]

theorem studentLaw_zero {ν : ℝ} (h : 0 < ν) : studentLaw ν {0} = 0 := by
  have := chi2Law_prob h
  unfold studentLaw
  rw [Measure.map_apply (measurable_student ν) (measurableSet_singleton 0)]
  have hsub : ∀ᵐ q ∂((gaussianReal 0 1).prod (chi2Law ν)),
      q ∈ ((fun q : ℝ × ℝ => q.1 / √(q.2 / ν)) ⁻¹' {0}) → q ∈ ({0} ×ˢ univ : Set (ℝ × ℝ)) := by
    filter_upwards [prod_ae_snd h (gaussianReal 0 1)] with q hq hz
    have h1 : √(q.2 / ν) ≠ 0 := by positivity
    simpa [h1] using hz
  have hle : (gaussianReal 0 1).prod (chi2Law ν) ((fun q : ℝ × ℝ => q.1 / √(q.2 / ν)) ⁻¹' {0}) ≤
      (gaussianReal 0 1).prod (chi2Law ν) ({0} ×ˢ univ) := measure_mono_ae hsub
  rw [Measure.prod_prod, measure_singleton, zero_mul] at hle
  exact le_antisymm hle zero_le

theorem student_half {ν : ℝ} (h : 0 < ν) : (studentLaw ν).real (Ioi 0) = 1 / 2 := by
  have := studentLaw_prob h
  exact half_of_symm _ (studentLaw_neg h) (studentLaw_zero h)

theorem real_Ioi_of_pos (μ : Measure ℝ) [IsProbabilityMeasure μ] (h : ∀ᵐ x ∂μ, 0 < x) {x : ℝ}
    (hx : x ≤ 0) : μ.real (Ioi x) = 1 := by
  have : μ (Ioi x) = 1 := by
    rw [← measure_univ (μ := μ)]
    refine measure_congr ?_
    filter_upwards [h] with y hy
    exact propext ⟨fun _ => mem_univ y, fun _ => hx.trans_lt hy⟩
  rw [measureReal_def, this, ENNReal.toReal_one]

theorem fisher_pos {d1 d2 : ℝ} (h1 : 0 < d1) (h2 : 0 < d2) : ∀ᵐ x ∂(fisherLaw d1 d2), 0 < x := by
  have := chi2Law_prob h1
  have := chi2Law_prob h2
  unfold fisherLaw
  rw [ae_map_iff (measurable_fisher d1 d2).aemeasurable measurableSet_Ioi]
  filter_upwards [prod_ae_snd h2 (chi2Law d1), prod_ae_fst (ν := d1) (chi2Law d2)] with q h3 h4
  positivity

theorem realDists_lawful : realDists.Lawful where
  chi2_some ν := by unfold realDists; by_cases h : 0 < ν <;> simp [h]
  chi2_sf := by
    intro ν c hc x
    unfold realDists at hc
    by_cases h : 0 < ν <;> simp [h] at hc
    subst hc
    have := chi2Law_prob h
    rw [← probReal_compl_eq_one_sub measurableSet_Iic, compl_Iic]
  chi2_anti := by
    intro ν c hc
    unfold realDists at hc
    by_cases h : 0 < ν <;> simp [h] at hc
    subst hc
    have := chi2Law_prob h
    exact sf_anti _
  chi2_nonneg := by
    intro ν c hc x
    unfold realDists at hc
    by_cases h : 0 < ν <;> simp [h] at hc
    subst hc
    exact measureReal_nonneg
  chi2_zero := by
    intro ν c hc x hx
    unfold realDists at hc
    by_cases h : 0 < ν <;> simp [h] at hc
    subst hc
    have := chi2Law_prob h
    exact real_Ioi_of_pos _ (chi2Law_ae_pos ν) hx
  t_some ν := by unfold realDists; by_cases h : 0 < ν <;> simp [h]
  t_anti := by
    intro ν c hc
    unfold realDists at hc
    by_cases h : 0 < ν <;> simp [h] at hc
    subst hc
    have := studentLaw_prob h
    exact sf_anti _
  t_nonneg := by
    intro ν c hc x
    unfold realDists at hc
    by_cases h : 0 < ν <;> simp [h] at hc
    subst hc
    exact measureReal_nonneg
  t_zero := by
    intro ν c hc
    unfold realDists at hc
    by_cases h : 0 < ν <;> simp [h] at hc
    subst hc
    simpa using student_half h
  f_some d1 d2 := by
    unfold realDists; by_cases h : 0 < d1 <;> by_cases h' : 0 < d2 <;> simp [h, h']
  f_anti := by
    intro d1 d2 c hc
    unfold realDists at hc
    by_cases h : 0 < d1 ∧ 0 < d2 <;> simp [h] at hc
    subst hc
    have := fisherLaw_prob h.1 h.2
    exact sf_anti _
  f_nonneg := by
    intro d1 d2 c hc x
    unfold realDists at hc
    by_cases h : 0 < d1 ∧ 0 < d2 <;> simp [h] at hc
    subst hc
    exact measureReal_nonneg
  f_zero := by
    intro d1 d2 c hc x hx
    unfold realDists at hc
    by_cases h : 0 < d1 ∧ 0 < d2 <;> simp [h] at hc
    subst hc
    have := fisherLaw_prob h.1 h.2
    exact real_Ioi_of_pos _ (fisher_pos h.1 h.2) hx
  normal_anti := sf_anti _
  normal_nonneg _ := measureReal_nonneg
  normal_zero := gauss_half

/-! ### The square of a Student variable -/

theorem gauss_sq : (gaussianReal 0 1).map (fun z => z ^ 2) = chi2Law 1 := by
  ext s hs
  have hsq : Measurable fun z : ℝ => z ^ 2 := by fun_prop
  rw [Measure.map_apply hsq hs]
  set A : Set ℝ := Ioi 0 ∩ (fun z : ℝ => z ^ 2) ⁻¹' s with hA
  have hAm : MeasurableSet A := measurableSet_Ioi.inter (hsq hs)
  -- the positive half carries half the mass
  have hhalf : (gaussianReal 0 1) ((fun z : ℝ => z ^ 2) ⁻¹' s) = 2 * (gaussianReal 0 1) A := by
    have hneg : (gaussianReal 0 1) (Iio 0 ∩ (fun z : ℝ => z ^ 2) ⁻¹' s) = (gaussianReal 0 1) A := by
      conv_rhs => rw [← gauss_neg, Measure.map_apply measurable_neg hAm]
      congr 1; ext; simp [hA]
    have hae : ((fun z : ℝ => z ^ 2) ⁻¹' s : Set ℝ) =ᵐ[gaussianReal 0 1]
        ((Iio 0 ∩ (fun z : ℝ => z ^ 2) ⁻¹' s) ∪ A : Set ℝ) := by
      have : ∀ᵐ z ∂(gaussianReal 0 1), z ≠ 0 := by
        rw [ae_iff]; simp
      filter_upwards [this] with z hz
      apply propext
      show z ∈ ((fun z : ℝ => z ^ 2) ⁻¹' s) ↔ z ∈ (Iio 0 ∩ (fun z : ℝ => z ^ 2) ⁻¹' s) ∪ A
      simp only [hA, mem_union, mem_inter_iff, mem_Iio, mem_Ioi]
      rcases lt_or_gt_of_ne hz with h | h <;> simp [h]
    rw [measure_congr hae, measure_union _ hAm, hneg, two_mul]
    rw [Set.disjoint_left]
    rintro z ⟨h1, _⟩ ⟨h2, _⟩
    exact lt_asymm (mem_Iio.mp h1) (mem_Ioi.mp h2)
  rw [hhalf, chi2Law, gammaMeasure, withDensity_apply _ hs]
  -- the chi-squared mass of `s` is on the positive half, the image of `A`
  have himg : (fun z : ℝ => z ^ 2) '' A = Ioi 0 ∩ s := by
    ext y
    simp only [hA, mem_image, mem_inter_iff, mem_Ioi, mem_preimage]
    constructor
    · rintro ⟨z, ⟨h1, h2⟩, rfl⟩; exact ⟨by positivity, h2⟩
    · rintro ⟨h1, h2⟩
      exact ⟨√y, ⟨Real.sqrt_pos.mpr h1, by rwa [Real.sq_sqrt h1.le]⟩, Real.sq_sqrt h1.le⟩
  have hpos : ∫⁻ y in s, gammaPDF (1 / 2) (1 / 2) y = ∫⁻ y in Ioi 0 ∩ s, gammaPDF (1 / 2) (1 / 2) y := by
    rw [← withDensity_apply _ hs, ← withDensity_apply _ (measurableSet_Ioi.inter hs)]
    refine measure_congr ?_
    have h0 : ∀ᵐ v ∂(volume.withDensity (gammaPDF (1 / 2) (1 / 2))), 0 < v := chi2Law_ae_pos 1
    filter_upwards [h0] with v hv
    apply propext
    show v ∈ s ↔ v ∈ Ioi 0 ∩ s
    simp [hv]
  rw [hpos, ← himg, lintegral_image_eq_lintegral_abs_deriv_mul hAm (f' := fun z => 2 * z)
    (fun z _ => by simpa using (hasDerivAt_pow 2 z).hasDerivWithinAt)
    (fun z hz w hw h => by
      have h1 : (0:ℝ) < z := hz.1
      have h2 : (0:ℝ) < w := hw.1
      exact (sq_eq_sq₀ h1.le h2.le).mp h), gaussianReal_apply _ one_ne_zero,
    ← lintegral_const_mul _ (measurable_gaussianPDF 0 1)]
  refine setLIntegral_congr_fun hAm fun z hz => ?_
  have hz0 : (0:ℝ) < z := hz.1
  rw [gaussianPDF, gammaPDF_of_nonneg (by positivity), ← ENNReal.ofReal_ofNat,
    ← ENNReal.ofReal_mul (by norm_num), ← ENNReal.ofReal_mul (by positivity)]
  congr 1
  rw [gaussianPDFReal, Real.Gamma_one_half_eq, abs_of_pos (by positivity)]
  have h1 : (z ^ 2) ^ ((1:ℝ) / 2 - 1) = z⁻¹ := by
    rw [← Real.rpow_natCast, ← Real.rpow_mul hz0.le, ← Real.rpow_neg_one]; norm_num
  have h2 : ((1:ℝ) / 2) ^ ((1:ℝ) / 2) = (√2)⁻¹ := by
    rw [← Real.sqrt_eq_rpow]; simp
  rw [h1, h2]
  simp only [NNReal.coe_one, mul_one, sub_zero]
  rw [Real.sqrt_mul (by norm_num), show -(1 / 2 * z ^ 2) = -z ^ 2 / 2 by ring]
  field_simp

theorem fisher_one {ν : ℝ} (h : 0 < ν) : fisherLaw 1 ν =
    ((gaussianReal 0 1).prod (chi2Law ν)).map fun q => q.1 ^ 2 / (q.2 / ν) := by
  have := chi2Law_prob h
  have hsq : Measurable fun z : ℝ => z ^ 2 := by fun_prop
  unfold fisherLaw
  rw [← gauss_sq]
  conv_lhs => rw [← Measure.map_id (μ := chi2Law ν),
    Measure.map_prod_map _ _ hsq measurable_id,
    Measure.map_map (measurable_fisher 1 ν) (hsq.prodMap measurable_id)]
  congr 1
  ext q
  simp

theorem realDists_square : realDists.SquareLaw := by
  intro ν sfT sfF hT hF t
  unfold realDists at hT hF
  by_cases h : 0 < ν <;> simp [h] at hT hF
  subst hT hF
  have := chi2Law_prob h
  set P := (gaussianReal 0 1).prod (chi2Law ν) with hP
  set g : ℝ × ℝ → ℝ := fun q => q.1 / √(q.2 / ν) with hg
  have hgm : Measurable g := measurable_student ν
  have h1 : (fisherLaw 1 ν).real (Ioi (t ^ 2)) = P.real (g ⁻¹' Iio (-|t|) ∪ g ⁻¹' Ioi |t|) := by
    rw [fisher_one h, measureReal_def, measureReal_def,
      Measure.map_apply (by fun_prop) measurableSet_Ioi]
    congr 1
    refine measure_congr ?_
    filter_upwards [prod_ae_snd h (gaussianReal 0 1)] with q hq
    apply propext
    show t ^ 2 < q.1 ^ 2 / (q.2 / ν) ↔ g q < -|t| ∨ |t| < g q
    have h2 : q.1 ^ 2 / (q.2 / ν) = g q ^ 2 := by
      simp only [hg]
      rw [div_pow, Real.sq_sqrt (by positivity)]
    rw [h2, sq_lt_sq, lt_abs]
    constructor
    · rintro (h | h)
      · exact Or.inr h
      · exact Or.inl (by linarith)
    · rintro (h | h)
      · exact Or.inr (by linarith)
      · exact Or.inl h
  have h3 : P.real (g ⁻¹' Iio (-|t|)) = P.real (g ⁻¹' Ioi |t|) := by
    rw [measureReal_def, measureReal_def]
    congr 1
    conv_rhs => rw [hP, ← gauss_prod_neg h, Measure.map_apply
      (measurable_neg.prodMap measurable_id) (hgm measurableSet_Ioi)]
    congr 1
    ext q
    show q.1 / √(q.2 / ν) < -|t| ↔ |t| < -q.1 / √(q.2 / ν)
    rw [neg_div]
    constructor <;> intro h <;> linarith
  have h4 : (studentLaw ν).real (Ioi |t|) = P.real (g ⁻¹' Ioi |t|) := by
    rw [measureReal_def, studentLaw, Measure.map_apply hgm measurableSet_Ioi]; rfl
  show (fisherLaw 1 ν).real (Ioi (t ^ 2)) = 2 * (studentLaw ν).real (Ioi |t|)
  rw [h1, h4, measureReal_union _ (hgm measurableSet_Ioi), h3]
  · ring
  · rw [Set.disjoint_left]
    intro q h1 h2
    simp only [mem_preimage, mem_Iio, mem_Ioi] at h1 h2
    have := abs_nonneg t
    linarith

end GLM
