/-
  Sums of squares of independent standard normal variables are chi-squared.
-/
import Verif.Lemmas.RealDists
import Mathlib.Probability.Moments.ComplexMGF
import Mathlib.MeasureTheory.Measure.CharacteristicFunction.Basic
import Mathlib.Analysis.SpecialFunctions.ImproperIntegrals

open MeasureTheory ProbabilityTheory Set

namespace GLM

theorem gamma_mgf_integral {a r : ℝ} (ha : 0 < a) (hr : 0 < r) (t : ℝ) : mgf id (gammaMeasure a r) t
    = ∫ x in Ioi 0, r ^ a / Real.Gamma a * (x ^ (a - 1) * Real.exp (-((r - t) * x))) := by
  have hm : Measurable (gammaPDF a r) := (measurable_gammaPDFReal a r).ennreal_ofReal
  rw [mgf, gammaMeasure, integral_withDensity_eq_integral_toReal_smul hm
    (Filter.Eventually.of_forall fun x => ENNReal.ofReal_lt_top), ← integral_Ici_eq_integral_Ioi,
    ← setIntegral_eq_integral_of_forall_compl_eq_zero (s := Ici 0)]
  · refine setIntegral_congr_fun measurableSet_Ici fun x hx => ?_
    have hx : 0 ≤ x := hx
    simp only [gammaPDF_of_nonneg hx, id_eq, smul_eq_mul]
    have hpos : 0 ≤ r ^ a / Real.Gamma a * x ^ (a - 1) * Real.exp (-(r * x)) := by positivity
    rw [ENNReal.toReal_ofReal hpos, show -((r - t) * x) = -(r * x) + t * x by ring, Real.exp_add]
    ring
  · intro x hx
    rw [gammaPDF_of_neg (not_le.mp hx)]
    simp

theorem chi2_mgf {ν : ℝ} (h : 0 < ν) (t : ℝ) :
    mgf id (chi2Law ν) t = if t < 1 / 2 then (1 - 2 * t) ^ (-(ν / 2)) else 0 := by
  have ha : 0 < ν / 2 := by positivity
  have hG := Real.Gamma_pos_of_pos ha
  rw [chi2Law, gamma_mgf_integral ha (by norm_num), integral_const_mul]
  split_ifs with ht
  · have hr : 0 < 1 / 2 - t := by linarith
    rw [Real.integral_rpow_mul_exp_neg_mul_Ioi ha hr]
    have e : (1 - 2 * t) = 2 * (1 / 2 - t) := by ring
    rw [e, Real.rpow_neg (by positivity), Real.mul_rpow (by norm_num) hr.le, Real.div_rpow (by norm_num) hr.le,
      Real.div_rpow (by norm_num) (by norm_num), Real.one_rpow]
    have h2 : (0 : ℝ) < 2 ^ (ν / 2) := by positivity
    have h3 : (0 : ℝ) < (1 / 2 - t) ^ (ν / 2) := by positivity
    field_simp
  · rw [integral_undef, mul_zero]
    intro hi
    have hm : IntegrableOn (fun x : ℝ => x ^ (ν / 2 - 1)) (Ioi 0) := by
      refine Integrable.mono hi (by fun_prop) ?_
      refine (ae_restrict_iff' measurableSet_Ioi).mpr (Filter.Eventually.of_forall fun x hx => ?_)
      have hx : 0 < x := hx
      rw [Real.norm_of_nonneg (by positivity), Real.norm_of_nonneg (by positivity)]
      refine le_mul_of_one_le_right (by positivity) (Real.one_le_exp ?_)
      nlinarith
    exact not_integrableOn_Ioi_rpow _ hm

theorem chi2_mgf_pow {k : ℕ} (hk : 0 < k) (t : ℝ) : mgf id (chi2Law 1) t ^ k = mgf id (chi2Law k) t := by
  rw [chi2_mgf one_pos, chi2_mgf (by exact_mod_cast hk)]
  split_ifs with h
  · rw [← Real.rpow_natCast, ← Real.rpow_mul (by linarith)]
    congr 1
    ring
  · exact zero_pow hk.ne'

/-- Sums of squares of independent standard normal variables. -/
theorem chi2_sum {Ω ι : Type*} [MeasurableSpace Ω] {P : Measure Ω} {X : ι → Ω → ℝ} (hX : iIndepFun X P)
    (hm : ∀ i, AEMeasurable (X i) P) {s : Finset ι} (hs : s.Nonempty)
    (hl : ∀ i ∈ s, P.map (X i) = gaussianReal 0 1) :
    P.map (fun ω => ∑ i ∈ s, X i ω ^ 2) = chi2Law s.card := by
  have := hX.isProbabilityMeasure
  have hk : 0 < s.card := hs.card_pos
  have hmS : AEMeasurable (fun ω => ∑ i ∈ s, X i ω ^ 2) P := by
    refine Finset.aemeasurable_fun_sum _ fun i _ => (hm i).pow_const 2
  have hp : IsProbabilityMeasure (P.map fun ω => ∑ i ∈ s, X i ω ^ 2) :=
    Measure.isProbabilityMeasure_map hmS
  have hp' : IsProbabilityMeasure (chi2Law s.card) := chi2Law_prob (by exact_mod_cast hk)
  have hsq : iIndepFun (fun i ω => X i ω ^ 2) P := hX.comp (fun _ x => x ^ 2) fun _ => by fun_prop
  have hmgf : mgf id (P.map fun ω => ∑ i ∈ s, X i ω ^ 2) = mgf id (chi2Law s.card) := by
    funext t
    rw [mgf_id_map hmS]
    have h1 := hsq.mgf_sum₀ (t := t) (fun i => (hm i).pow_const 2) s
    have e : (∑ i ∈ s, fun ω => X i ω ^ 2) = fun ω => ∑ i ∈ s, X i ω ^ 2 := by
      funext ω; simp
    rw [e] at h1
    rw [h1, ← chi2_mgf_pow hk, ← Finset.prod_const]
    refine Finset.prod_congr rfl fun i hi => ?_
    rw [← gauss_sq, ← hl i hi, AEMeasurable.map_map_of_aemeasurable (by fun_prop) (hm i)]
    exact congrFun (mgf_id_map (X := fun ω => X i ω ^ 2) ((hm i).pow_const 2)).symm t
  refine Measure.ext_of_charFun (funext fun t => ?_)
  have h0 : (0 : ℝ) ∈ interior (integrableExpSet id (P.map fun ω => ∑ i ∈ s, X i ω ^ 2)) := by
    rw [mem_interior_iff_mem_nhds]
    refine Filter.mem_of_superset (Iio_mem_nhds (show (0 : ℝ) < 1 / 2 by norm_num)) fun t ht => ?_
    have ht : t < 1 / 2 := ht
    change Integrable _ _
    rw [← mgf_pos_iff, hmgf, chi2_mgf (by exact_mod_cast hk), if_pos ht]
    have : 0 < 1 - 2 * t := by linarith
    positivity
  rw [← complexMGF_id_mul_I, ← complexMGF_id_mul_I]
  exact eqOn_complexMGF_of_mgf hmgf (by simpa using h0)

end GLM
