/-
  The probability integral transform and the normal quantile function.
-/
import Verif.Lemmas.ResponseLaw
import Mathlib.Topology.Order.LeftRightLim

open MeasureTheory ProbabilityTheory Set Filter Topology

namespace GLM

section
variable (μ : Measure ℝ) [IsProbabilityMeasure μ]

theorem cdfReal_mono : Monotone fun x => μ.real (Iic x) :=
  fun _ _ h => measureReal_mono (Iic_subset_Iic.mpr h)

theorem cdfReal_eq : (fun x => μ.real (Iic x)) = cdf μ := by
  funext x; rw [cdf_eq_real]

theorem cdfReal_continuous (h : ∀ x, μ {x} = 0) : Continuous fun x => μ.real (Iic x) := by
  rw [cdfReal_eq, continuous_iff_continuousAt]
  intro x
  rw [(monotone_cdf μ).continuousAt_iff_leftLim_eq_rightLim, StieltjesFunction.rightLim_eq]
  have h1 : (cdf μ).measure {x} = 0 := by rw [measure_cdf]; exact h x
  rw [StieltjesFunction.measure_singleton, ENNReal.ofReal_eq_zero] at h1
  exact le_antisymm ((monotone_cdf μ).leftLim_le le_rfl) (by linarith)

theorem cdfReal_below {t : ℝ} (ht : 0 < t) : ∃ x, μ.real (Iic x) < t := by
  have := tendsto_cdf_atBot μ
  rw [← cdfReal_eq] at this
  exact (this.eventually (gt_mem_nhds ht)).exists

theorem cdfReal_above {t : ℝ} (ht : t < 1) : ∃ x, t < μ.real (Iic x) := by
  have := tendsto_cdf_atTop μ
  rw [← cdfReal_eq] at this
  exact (this.eventually (lt_mem_nhds ht)).exists

/-- The probability integral transform: `F(Y)` is uniformly distributed. -/
theorem integral_transform (h : ∀ x, μ {x} = 0) {t : ℝ} (h0 : 0 < t) (h1 : t < 1) :
    μ.real {y | μ.real (Iic y) ≤ t} = t := by
  set F : ℝ → ℝ := fun x => μ.real (Iic x) with hF
  have hc : Continuous F := cdfReal_continuous μ h
  have hm : Monotone F := cdfReal_mono μ
  obtain ⟨lo, hlo⟩ := cdfReal_below μ h0
  obtain ⟨hi, hhi⟩ := cdfReal_above μ h1
  set A : Set ℝ := {y | F y ≤ t} with hA
  have hne : A.Nonempty := ⟨lo, hlo.le⟩
  have hbdd : BddAbove A := ⟨hi, fun y hy => by
    by_contra hlt
    exact absurd (hm (not_le.mp hlt).le) (not_le.mpr (lt_of_le_of_lt hy hhi))⟩
  have hcl : IsClosed A := isClosed_le hc continuous_const
  have hsA : sSup A ∈ A := hcl.csSup_mem hne hbdd
  have hAeq : A = Iic (sSup A) := by
    ext y
    exact ⟨fun hy => le_csSup hbdd hy, fun hy => (hm hy).trans hsA⟩
  obtain ⟨y, hy⟩ := mem_range_of_exists_le_of_exists_ge hc ⟨lo, hlo.le⟩ ⟨hi, hhi.le⟩
  have hst : F (sSup A) = t := by
    refine le_antisymm hsA ?_
    rw [← hy]
    exact hm (le_csSup hbdd hy.le)
  change μ.real A = t
  rw [hAeq]
  exact hst

theorem transform_pos (h : ∀ x, μ {x} = 0) : ∀ᵐ y ∂μ, 0 < μ.real (Iic y) := by
  rw [ae_iff]
  have hle : ∀ t : ℝ, 0 < t → t < 1 → μ.real {y | ¬ 0 < μ.real (Iic y)} ≤ t := by
    intro t h0 h1
    rw [← integral_transform μ h h0 h1]
    refine measureReal_mono fun y hy => ?_
    simp only [mem_ofPred_eq, not_lt] at hy ⊢
    exact hy.trans h0.le
  have hz : μ.real {y | ¬ 0 < μ.real (Iic y)} = 0 := by
    by_contra hne
    have hpos : 0 < μ.real {y | ¬ 0 < μ.real (Iic y)} := lt_of_le_of_ne measureReal_nonneg (Ne.symm hne)
    have h1 : μ.real {y | ¬ 0 < μ.real (Iic y)} ≤ 1 := measureReal_le_one
    have := hle (μ.real {y | ¬ 0 < μ.real (Iic y)} / 2) (by linarith) (by linarith)
    linarith
  exact (measureReal_eq_zero_iff).mp hz

theorem transform_lt_one (h : ∀ x, μ {x} = 0) : ∀ᵐ y ∂μ, μ.real (Iic y) < 1 := by
  rw [ae_iff]
  have hmeas : ∀ t, MeasurableSet {y | μ.real (Iic y) ≤ t} := fun t =>
    (isClosed_le (cdfReal_continuous μ h) continuous_const).measurableSet
  have hle : ∀ t : ℝ, 0 < t → t < 1 → μ.real {y | ¬ μ.real (Iic y) < 1} ≤ 1 - t := by
    intro t h0 h1
    rw [← integral_transform μ h h0 h1, ← probReal_compl_eq_one_sub (hmeas _)]
    refine measureReal_mono fun y hy => ?_
    simp only [mem_ofPred_eq, not_lt, mem_compl_iff, not_le] at hy ⊢
    linarith
  have hz : μ.real {y | ¬ μ.real (Iic y) < 1} = 0 := by
    by_contra hne
    have hpos : 0 < μ.real {y | ¬ μ.real (Iic y) < 1} :=
      lt_of_le_of_ne measureReal_nonneg (Ne.symm hne)
    have h1 : μ.real {y | ¬ μ.real (Iic y) < 1} ≤ 1 := measureReal_le_one
    have := hle (1 - μ.real {y | ¬ μ.real (Iic y) < 1} / 2) (by linarith) (by linarith)
    linarith
  exact (measureReal_eq_zero_iff).mp hz
end

/-! ### The standard normal quantile function -/

theorem gauss_Ioc {a b : ℝ} (h : a < b) : 0 < (gaussianReal 0 1).real (Ioc a b) := by
  rw [measureReal_def, ENNReal.toReal_pos_iff]
  refine ⟨?_, measure_lt_top _ _⟩
  rw [pos_iff_ne_zero]
  intro h0
  have := gaussianReal_absolutelyContinuous' 0 (v := 1) one_ne_zero h0
  rw [Real.volume_Ioc, ENNReal.ofReal_eq_zero] at this
  linarith

theorem gauss_strict : StrictMono fun x => (gaussianReal 0 1).real (Iic x) := by
  intro a b h
  have h1 : (gaussianReal 0 1).real (Iic b) =
      (gaussianReal 0 1).real (Iic a) + (gaussianReal 0 1).real (Ioc a b) := by
    rw [← measureReal_union (Iic_disjoint_Ioc le_rfl) measurableSet_Ioc, Iic_union_Ioc_eq_Iic h.le]
  have := gauss_Ioc h
  change (gaussianReal 0 1).real (Iic a) < (gaussianReal 0 1).real (Iic b)
  linarith

theorem gauss_Iic_pos (z : ℝ) : 0 < (gaussianReal 0 1).real (Iic z) :=
  lt_of_le_of_lt measureReal_nonneg (gauss_strict (show z - 1 < z by linarith))

theorem gauss_Iic_lt_one (z : ℝ) : (gaussianReal 0 1).real (Iic z) < 1 :=
  lt_of_lt_of_le (gauss_strict (show z < z + 1 by linarith)) measureReal_le_one

/-- The quantile function inverts the distribution function. -/
theorem invCdf_cdf (z : ℝ) : realDists.normalInvCdf ((gaussianReal 0 1).real (Iic z)) = z := by
  change sInf {x | _} = z
  have : {x | (gaussianReal 0 1).real (Iic z) ≤ (gaussianReal 0 1).real (Iic x)} = Ici z := by
    ext x; exact gauss_strict.le_iff_le
  rw [this, csInf_Ici]

theorem invCdf_le_iff {u : ℝ} (h0 : 0 < u) (h1 : u < 1) (z : ℝ) :
    realDists.normalInvCdf u ≤ z ↔ u ≤ (gaussianReal 0 1).real (Iic z) := by
  obtain ⟨lo, hlo⟩ := cdfReal_below (gaussianReal 0 1) h0
  obtain ⟨hi, hhi⟩ := cdfReal_above (gaussianReal 0 1) h1
  obtain ⟨w, hw⟩ := mem_range_of_exists_le_of_exists_ge
    (cdfReal_continuous (gaussianReal 0 1) fun x => measure_singleton x) ⟨lo, hlo.le⟩ ⟨hi, hhi.le⟩
  rw [← hw]
  dsimp only
  rw [invCdf_cdf]
  exact gauss_strict.le_iff_le.symm

theorem cdf_invCdf {u : ℝ} (h0 : 0 < u) (h1 : u < 1) :
    (gaussianReal 0 1).real (Iic (realDists.normalInvCdf u)) = u := by
  obtain ⟨lo, hlo⟩ := cdfReal_below (gaussianReal 0 1) h0
  obtain ⟨hi, hhi⟩ := cdfReal_above (gaussianReal 0 1) h1
  obtain ⟨w, hw⟩ := mem_range_of_exists_le_of_exists_ge
    (cdfReal_continuous (gaussianReal 0 1) fun x => measure_singleton x) ⟨lo, hlo.le⟩ ⟨hi, hhi.le⟩
  rw [← hw]
  dsimp only
  rw [invCdf_cdf]

/-- If `Y` has the continuous law `μ` with distribution function `F`, then `Φ⁻¹(F(Y))` is standard
normal. -/
theorem quantile_transform (μ : Measure ℝ) [IsProbabilityMeasure μ] (h : ∀ x, μ {x} = 0) (z : ℝ) :
    μ.real {y | realDists.normalInvCdf (μ.real (Iic y)) ≤ z} = (gaussianReal 0 1).real (Iic z) := by
  rw [← integral_transform μ h (gauss_Iic_pos z) (gauss_Iic_lt_one z)]
  rw [measureReal_def, measureReal_def]
  congr 1
  refine measure_congr ?_
  filter_upwards [transform_pos μ h, transform_lt_one μ h] with y h0 h1
  apply propext
  exact invCdf_le_iff h0 h1 z

/-! ### The continuous response distributions -/

theorem gammaMeasure_singleton (a r x : ℝ) : gammaMeasure a r {x} = 0 := by
  rw [gammaMeasure, withDensity_apply _ (measurableSet_singleton x)]
  simp

theorem normal_standardize (m : ℝ) {s : ℝ} (hs : 0 < s) (x : ℝ) :
    (Distribution.normal m s).law.real (Iic x) = (gaussianReal 0 1).real (Iic ((x - m) / s)) := by
  have h1 : (Distribution.normal m s).law =
      ((gaussianReal 0 1).map (s * ·)).map (· + m) := by
    rw [gaussianReal_map_const_mul, gaussianReal_map_add_const]
    simp only [Distribution.law, mul_zero, zero_add, mul_one]
    congr 1
    ext
    simp [Real.coe_toNNReal _ (sq_nonneg s)]
  rw [h1, Measure.map_map (by fun_prop) (by fun_prop), measureReal_def,
    Measure.map_apply (by fun_prop) measurableSet_Iic, measureReal_def]
  congr 2
  ext z
  simp only [mem_preimage, mem_Iic, Function.comp]
  rw [le_div_iff₀ hs]
  constructor <;> intro h <;> linarith

end GLM
