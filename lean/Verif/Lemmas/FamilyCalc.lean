/-
  Domains, inverses and derivatives for the families.
-/
import Verif.Lemmas.Family
import Mathlib.Analysis.SpecialFunctions.Sqrt
import Mathlib.Analysis.SpecialFunctions.ExpDeriv
import Mathlib.Analysis.Calculus.Deriv.Inv

namespace GLM
open Set Spec

theorem funcInv_mem (fam : Family) (hv : ValidFamily fam) {w : ℝ} (hw : w ∈ predDom fam) :
    (fam.glm (F := ℝ)).link.funcInv w ∈ meanDom fam := by
  rw [funcInv_real]
  have he := Real.exp_pos w
  have he' := Real.exp_pos (-w)
  cases fam <;> simp only [meanDom, predDom, ValidFamily, mem_univ, mem_Ioo, mem_Ioi, mem_Iio] at *
  case logisticLogit =>
    refine ⟨by positivity, ?_⟩
    rw [div_lt_one (by positivity)]; linarith
  case logisticCloglog =>
    refine ⟨?_, ?_⟩
    · have : Real.exp (-Real.exp w) < 1 := by rw [Real.exp_lt_one_iff]; linarith
      linarith
    · have := Real.exp_pos (-Real.exp w); linarith
  case poisson => positivity
  case binomial N =>
    have hN : (0 : ℝ) < N := by exact_mod_cast hv
    refine ⟨by positivity, ?_⟩
    rw [div_lt_iff₀ (by positivity)]
    nlinarith
  case exponentialNegRec => rw [neg_pos]; exact one_div_neg.mpr hw
  case gammaNegRec => rw [neg_pos]; exact one_div_neg.mpr hw
  case exponentialLog => positivity
  case gammaLog => positivity
  case invGaussLog => positivity
  case invGaussNegRecSq =>
    have : 0 < Real.sqrt (-2 * w) := Real.sqrt_pos.mpr (by linarith)
    positivity

theorem func_mem (fam : Family) {μ : ℝ} (hμ : μ ∈ meanDom fam) :
    (fam.glm (F := ℝ)).link.func μ ∈ predDom fam := by
  rw [func_real]
  cases fam <;> simp only [meanDom, predDom, mem_univ, mem_Ioo, mem_Ioi, mem_Iio] at *
  case exponentialNegRec => have := one_div_pos.mpr hμ; linarith
  case gammaNegRec => have := one_div_pos.mpr hμ; linarith
  case invGaussNegRecSq =>
    have : 0 < 1 / (2 * μ * μ) := by positivity
    linarith

theorem funcInv_func (fam : Family) {μ : ℝ} (hμ : μ ∈ meanDom fam) :
    (fam.glm (F := ℝ)).link.funcInv ((fam.glm (F := ℝ)).link.func μ) = μ := by
  rw [funcInv_real, func_real]
  cases fam <;> simp only [meanDom, mem_univ, mem_Ioo, mem_Ioi] at *
  case logisticLogit =>
    have h1 : 0 < 1 - μ := by linarith
    rw [← Real.log_inv, Real.exp_log (by have := hμ.1; positivity)]
    have := hμ.1.ne'
    field_simp
    ring
  case logisticCloglog =>
    have h1 : 0 < 1 - μ := by linarith
    have h2 : Real.log (1 - μ) < 0 := Real.log_neg h1 (by linarith)
    rw [Real.exp_log (by linarith), neg_neg, Real.exp_log h1]; ring
  case poisson => exact Real.exp_log hμ
  case binomial N =>
    have h1 : 0 < (N : ℝ) - μ := by linarith
    rw [← Real.log_inv, Real.exp_log (by have := hμ.1; positivity)]
    have := hμ.1.ne'
    have : (N : ℝ) ≠ 0 := by linarith
    field_simp
    ring_nf
    field_simp
  case exponentialNegRec => field_simp
  case gammaNegRec => field_simp
  case exponentialLog => exact Real.exp_log hμ
  case gammaLog => exact Real.exp_log hμ
  case invGaussLog => exact Real.exp_log hμ
  case invGaussNegRecSq =>
    have : -2 * -(1 / (2 * μ * μ)) = (1 / μ) ^ 2 := by field_simp
    rw [this, Real.sqrt_sq (by positivity)]
    simp

theorem func_funcInv (fam : Family) (hv : ValidFamily fam) {w : ℝ} (hw : w ∈ predDom fam) :
    (fam.glm (F := ℝ)).link.func ((fam.glm (F := ℝ)).link.funcInv w) = w := by
  rw [funcInv_real, func_real]
  have he := Real.exp_pos w
  have he' := Real.exp_pos (-w)
  cases fam <;> simp only [predDom, ValidFamily, mem_univ, mem_Iio] at *
  case logisticLogit =>
    have : 1 / (1 + Real.exp (-w)) / (1 - 1 / (1 + Real.exp (-w))) = Real.exp w := by
      rw [Real.exp_neg]; field_simp; ring_nf
    rw [this, Real.log_exp]
  case logisticCloglog => simp
  case poisson => exact Real.log_exp _
  case binomial N =>
    have hN : (0 : ℝ) < N := by exact_mod_cast hv
    have : N / (1 + Real.exp (-w)) / (N - N / (1 + Real.exp (-w))) = Real.exp w := by
      rw [Real.exp_neg]; field_simp; ring_nf
    rw [this, Real.log_exp]
  case exponentialNegRec => have := hw.ne; field_simp
  case gammaNegRec => have := hw.ne; field_simp
  case exponentialLog => exact Real.log_exp _
  case gammaLog => exact Real.log_exp _
  case invGaussLog => exact Real.log_exp _
  case invGaussNegRecSq =>
    have h0 : (0 : ℝ) < -2 * w := by linarith
    have h1 := Real.sq_sqrt h0.le
    have h2 : 0 < Real.sqrt (-2 * w) := Real.sqrt_pos.mpr h0
    have : 2 * (1 / Real.sqrt (-2 * w)) * (1 / Real.sqrt (-2 * w)) = -1 / w := by
      have : 2 * (1 / Real.sqrt (-2 * w)) * (1 / Real.sqrt (-2 * w))
          = 2 / (Real.sqrt (-2 * w)) ^ 2 := by field_simp
      rw [this, h1]
      have := hw.ne
      field_simp
    rw [this]
    have := hw.ne
    field_simp

theorem natParam_mem (fam : Family) {w : ℝ} (hw : w ∈ predDom fam) :
    (fam.glm (F := ℝ)).link.natParam w ∈ natDom fam := by
  rw [natParam_real]
  have he' := Real.exp_pos (-w)
  have he2 := Real.exp_pos (-2 * w)
  cases fam <;> simp only [natDom, predDom, mem_univ, mem_Iio] at * <;> linarith

theorem func_eq_linkFn (fam : Family) (μ : ℝ) :
    (fam.glm (F := ℝ)).link.func μ = linkFn fam μ := by
  rw [func_real]
  cases fam <;> simp only [linkFn, canonicalLink]
  case exponentialNegRec => ring
  case gammaNegRec => ring
  case invGaussNegRecSq => ring

theorem natParam_eq (fam : Family) (hv : ValidFamily fam) {w : ℝ} (hw : w ∈ predDom fam) :
    (fam.glm (F := ℝ)).link.natParam w = canonicalLink fam ((fam.glm (F := ℝ)).link.funcInv w) := by
  have hk := func_funcInv fam hv hw
  rw [func_eq_linkFn] at hk
  cases fam
  case logisticCloglog =>
    rw [natParam_real, funcInv_real]
    simp only [canonicalLink]
    congr 1
    have : 0 < Real.exp (-Real.exp w) := Real.exp_pos _
    have h2 : Real.exp (Real.exp w) = (Real.exp (-Real.exp w))⁻¹ := by rw [Real.exp_neg, inv_inv]
    rw [h2]
    field_simp
    ring
  case exponentialLog => rw [natParam_real, funcInv_real]; simp [canonicalLink, Real.exp_neg, neg_div]
  case gammaLog => rw [natParam_real, funcInv_real]; simp [canonicalLink, Real.exp_neg, neg_div]
  case invGaussLog =>
    rw [natParam_real, funcInv_real]
    have : Real.exp w ^ 2 = Real.exp (2 * w) := by rw [← Real.exp_nat_mul]; norm_num
    simp only [canonicalLink]
    rw [this, neg_mul 2 w, Real.exp_neg]
    field_simp
  all_goals
    rw [natParam_real]
    exact hk.symm

end GLM
