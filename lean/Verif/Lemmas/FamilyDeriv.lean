/-
  Derivatives of the family functions.
-/
import Verif.Lemmas.FamilyCalc

namespace GLM
open Set Spec Filter Topology

theorem natDom_isOpen (fam : Family) : IsOpen (natDom fam) := by
  cases fam <;> simp only [natDom] <;> first | exact isOpen_univ | exact isOpen_Iio

theorem predDom_isOpen (fam : Family) : IsOpen (predDom fam) := by
  cases fam <;> simp only [predDom] <;> first | exact isOpen_univ | exact isOpen_Iio

theorem meanDom_isOpen (fam : Family) : IsOpen (meanDom fam) := by
  cases fam <;> simp only [meanDom] <;> first | exact isOpen_univ | exact isOpen_Ioo | exact isOpen_Ioi

theorem natDom_convex (fam : Family) : Convex ℝ (natDom fam) := by
  cases fam <;> simp only [natDom] <;> first | exact convex_univ | exact convex_Iio _

/-- `A' = μ`. -/
theorem cumulant_hasDerivAt (fam : Family) {η : ℝ} (h : η ∈ natDom fam) :
    HasDerivAt (cumulant fam) (meanOfNat fam η) η := by
  have logi : HasDerivAt (fun η => Real.log (1 + Real.exp η)) (1 / (1 + Real.exp (-η))) η := by
    have h0 : (1 : ℝ) + Real.exp η ≠ 0 := by positivity
    have := ((Real.hasDerivAt_exp η).const_add 1).log h0
    refine HasDerivAt.congr_deriv this ?_
    rw [Real.exp_neg]; field_simp; ring
  have neglog : η < 0 → HasDerivAt (fun η => -Real.log (-η)) (-1 / η) η := by
    intro h
    have := (((hasDerivAt_id η).neg).log (by simpa using h.ne)).neg
    refine HasDerivAt.congr_deriv this ?_
    simp only [id, Pi.neg_apply]
    have := h.ne
    field_simp
  have ig : η < 0 → HasDerivAt (fun η => -Real.sqrt (-2 * η)) (1 / Real.sqrt (-2 * η)) η := by
    intro h
    have h0 : (0:ℝ) < -2 * η := by linarith
    have := (((hasDerivAt_id η).const_mul (-2)).sqrt (by simpa using h.ne)).neg
    refine HasDerivAt.congr_deriv this ?_
    have := (Real.sqrt_pos.mpr h0).ne'
    simp only [id]
    field_simp
  cases fam <;> simp only [cumulant, meanOfNat, natDom, mem_Iio] at *
  case linear =>
    have := ((hasDerivAt_id η).pow 2).div_const 2
    refine HasDerivAt.congr_deriv this ?_
    simp
  case logisticLogit => exact logi
  case logisticCloglog => exact logi
  case poisson => exact Real.hasDerivAt_exp η
  case binomial N =>
    have := logi.const_mul (N : ℝ)
    refine HasDerivAt.congr_deriv this ?_
    ring
  case exponentialNegRec => exact neglog h
  case exponentialLog => exact neglog h
  case gammaNegRec => exact neglog h
  case gammaLog => exact neglog h
  case invGaussNegRecSq => exact ig h
  case invGaussLog => exact ig h

/-- `A'' = V(μ)`. -/
theorem meanOfNat_hasDerivAt (fam : Family) (hv : ValidFamily fam) {η : ℝ} (h : η ∈ natDom fam) :
    HasDerivAt (meanOfNat fam) (varianceFn fam (meanOfNat fam η)) η := by
  have e1 : HasDerivAt (fun η => 1 + Real.exp (-η)) (-Real.exp (-η)) η := by
    have := ((hasDerivAt_id η).neg.exp).const_add 1
    refine HasDerivAt.congr_deriv this ?_
    simp
  have h0 : (1 : ℝ) + Real.exp (-η) ≠ 0 := by positivity
  have logi : ∀ N : ℝ, HasDerivAt (fun η => N / (1 + Real.exp (-η)))
      (N * Real.exp (-η) / (1 + Real.exp (-η)) ^ 2) η := by
    intro N
    have := (hasDerivAt_const η N).div e1 h0
    refine HasDerivAt.congr_deriv this ?_
    ring
  have nr : η < 0 → HasDerivAt (fun η => -1 / η) ((-1 / η) ^ 2) η := by
    intro h
    have := (hasDerivAt_const η (-1 : ℝ)).div (hasDerivAt_id η) h.ne
    refine HasDerivAt.congr_deriv this ?_
    simp only [id]; field_simp; ring
  have ig : η < 0 → HasDerivAt (fun η => 1 / Real.sqrt (-2 * η)) ((1 / Real.sqrt (-2 * η)) ^ 3) η := by
    intro h
    have hp : (0:ℝ) < -2 * η := by linarith
    have hs := (Real.sqrt_pos.mpr hp).ne'
    have h1 := (((hasDerivAt_id η).const_mul (-2)).sqrt (by simpa using h.ne))
    have := (hasDerivAt_const η (1 : ℝ)).div h1 (by simpa using hs)
    refine HasDerivAt.congr_deriv this ?_
    simp only [id]
    field_simp
    ring
  cases fam <;> simp only [varianceFn, meanOfNat, natDom, mem_Iio, ValidFamily] at *
  case linear => exact hasDerivAt_id η
  case logisticLogit => convert logi 1 using 1; field_simp; ring
  case logisticCloglog => convert logi 1 using 1; field_simp; ring
  case poisson => exact Real.hasDerivAt_exp η
  case binomial N =>
    have hN : (N : ℝ) ≠ 0 := by exact_mod_cast hv.ne'
    convert logi N using 1; field_simp; ring
  case exponentialNegRec => exact nr h
  case exponentialLog => exact nr h
  case gammaNegRec => exact nr h
  case gammaLog => exact nr h
  case invGaussNegRecSq => exact ig h
  case invGaussLog => exact ig h

/-- `η'` is the derivative of `η(ω)`. -/
theorem natParam_hasDerivAt (fam : Family) (w : ℝ) :
    HasDerivAt (fam.glm (F := ℝ)).link.natParam ((fam.glm (F := ℝ)).link.dNatParam w) w := by
  have hfun : (fam.glm (F := ℝ)).link.natParam = fun w => (fam.glm (F := ℝ)).link.natParam w := rfl
  rw [hfun]
  simp only [natParam_real, dNatParam_real]
  have expneg : HasDerivAt (fun w => -Real.exp (-w)) (Real.exp (-w)) w := by
    have := ((hasDerivAt_id w).neg.exp).neg
    refine HasDerivAt.congr_deriv this ?_; simp
  cases fam <;> dsimp only
  case logisticCloglog =>
    have hp := Real.exp_pos w
    have h1 : Real.exp (Real.exp w) - 1 ≠ 0 := by
      have := Real.add_one_lt_exp hp.ne'
      linarith
    have := (((Real.hasDerivAt_exp w).exp).sub_const 1).log h1
    refine HasDerivAt.congr_deriv this ?_
    have hq := Real.exp_pos (Real.exp w)
    have h3 : 1 - Real.exp (Real.exp w) ≠ 0 := fun h => h1 (by linarith)
    rw [Real.exp_neg (Real.exp w)]
    have h2 : (Real.exp (Real.exp w))⁻¹ - 1 = (1 - Real.exp (Real.exp w)) / Real.exp (Real.exp w) := by
      field_simp
    rw [h2, ← neg_sub (Real.exp (Real.exp w)) 1]
    field_simp
  case exponentialLog => exact expneg
  case gammaLog => exact expneg
  case invGaussLog =>
    have := (((hasDerivAt_id w).const_mul (-2)).exp).const_mul (-(1 / 2) : ℝ)
    refine HasDerivAt.congr_deriv this ?_
    simp only [id]; ring
  all_goals exact hasDerivAt_id w

theorem dNatParam_pos (fam : Family) (w : ℝ) : 0 < (fam.glm (F := ℝ)).link.dNatParam w := by
  rw [dNatParam_real]
  cases fam <;> dsimp only
  case logisticCloglog =>
    have hp := Real.exp_pos w
    apply div_pos_of_neg_of_neg (by linarith)
    have : Real.exp (-Real.exp w) < 1 := by rw [Real.exp_lt_one_iff]; linarith
    linarith
  all_goals positivity

theorem varianceFn_pos (fam : Family) (hv : ValidFamily fam) {μ : ℝ} (h : μ ∈ meanDom fam) :
    0 < varianceFn fam μ := by
  cases fam <;> simp only [varianceFn, meanDom, mem_Ioo, mem_Ioi, ValidFamily] at *
  case logisticLogit => exact mul_pos h.1 (by linarith)
  case logisticCloglog => exact mul_pos h.1 (by linarith)
  case binomial N =>
    have hN : (0 : ℝ) < N := by exact_mod_cast hv
    exact div_pos (mul_pos h.1 (by linarith)) hN
  case poisson => exact h
  all_goals positivity

/-- The mean as a function of the natural parameter, along the link. -/
theorem meanOfNat_natParam (fam : Family) (hv : ValidFamily fam) {w : ℝ} (hw : w ∈ predDom fam) :
    meanOfNat fam ((fam.glm (F := ℝ)).link.natParam w) = (fam.glm (F := ℝ)).link.funcInv w := by
  rw [natParam_real, funcInv_real]
  cases fam <;> simp only [meanOfNat, predDom, mem_Iio] at *
  case logisticCloglog =>
    have hp := Real.exp_pos w
    have h1 : 0 < Real.exp (Real.exp w) - 1 := by
      have := Real.add_one_lt_exp hp.ne'
      linarith
    rw [← Real.log_inv, Real.exp_log (by positivity), Real.exp_neg]
    have := Real.exp_pos (Real.exp w)
    field_simp
    ring
  case exponentialNegRec => ring
  case gammaNegRec => ring
  case exponentialLog => rw [Real.exp_neg]; field_simp
  case gammaLog => rw [Real.exp_neg]; field_simp
  case invGaussLog =>
    have : -2 * (-(1 / 2) * Real.exp (-2 * w)) = Real.exp (-w) ^ 2 := by
      rw [← Real.exp_nat_mul]; ring_nf
    rw [this, Real.sqrt_sq (Real.exp_pos _).le, Real.exp_neg]; simp

/-- `dμ/dω = V(μ) η'(ω)`. -/
theorem funcInv_hasDerivAt (fam : Family) (hv : ValidFamily fam) {w : ℝ} (hw : w ∈ predDom fam) :
    HasDerivAt (fam.glm (F := ℝ)).link.funcInv
      ((fam.glm (F := ℝ)).variance ((fam.glm (F := ℝ)).link.funcInv w)
        * (fam.glm (F := ℝ)).link.dNatParam w) w := by
  have h1 := meanOfNat_hasDerivAt fam hv (natParam_mem fam hw)
  rw [meanOfNat_natParam fam hv hw, ← variance_real] at h1
  have h2 := h1.comp w (natParam_hasDerivAt fam w)
  refine h2.congr_of_eventuallyEq ?_
  filter_upwards [(predDom_isOpen fam).mem_nhds hw] with v hv'
  exact (meanOfNat_natParam fam hv hv').symm

theorem func_continuousAt (fam : Family) {μ : ℝ} (h : μ ∈ meanDom fam) :
    ContinuousAt (fam.glm (F := ℝ)).link.func μ := by
  have hfun : (fam.glm (F := ℝ)).link.func = fun w => (fam.glm (F := ℝ)).link.func w := rfl
  rw [hfun]
  simp only [func_real]
  cases fam <;> simp only [meanDom, mem_Ioo, mem_Ioi] at *
  case linear => exact continuousAt_id
  case logisticLogit =>
    have h1 : 1 - μ ≠ 0 := by linarith
    exact (continuousAt_id.div (continuousAt_const.sub continuousAt_id) h1).log
      (div_ne_zero h.1.ne' h1)
  case logisticCloglog =>
    have h1 : 0 < 1 - μ := by linarith
    have h2 : Real.log (1 - μ) < 0 := Real.log_neg h1 (by linarith)
    exact (((continuousAt_const.sub continuousAt_id).log h1.ne').neg).log
      (by simpa using ⟨h1.ne', by linarith, by linarith [h.1]⟩)
  case binomial N =>
    have h1 : (N : ℝ) - μ ≠ 0 := by linarith
    exact (continuousAt_id.div (continuousAt_const.sub continuousAt_id) h1).log
      (div_ne_zero h.1.ne' h1)
  case exponentialNegRec => exact (continuousAt_const.div continuousAt_id h.ne').neg
  case gammaNegRec => exact (continuousAt_const.div continuousAt_id h.ne').neg
  case invGaussNegRecSq =>
    exact (continuousAt_const.div ((continuousAt_const.mul continuousAt_id).mul continuousAt_id)
      (by simpa using h.ne')).neg
  all_goals exact Real.continuousAt_log h.ne'

/-- `g'(μ) = 1/(V(μ) η'(ω))`. -/
theorem func_hasDerivAt (fam : Family) (hv : ValidFamily fam) {μ : ℝ} (h : μ ∈ meanDom fam) :
    HasDerivAt (fam.glm (F := ℝ)).link.func
      ((fam.glm (F := ℝ)).variance μ
        * (fam.glm (F := ℝ)).link.dNatParam ((fam.glm (F := ℝ)).link.func μ))⁻¹ μ := by
  have hd := funcInv_hasDerivAt fam hv (func_mem fam h)
  rw [funcInv_func fam h] at hd
  refine HasDerivAt.of_local_left_inverse (func_continuousAt fam h) hd ?_ ?_
  · rw [variance_real]
    exact (mul_pos (varianceFn_pos fam hv h) (dNatParam_pos fam _)).ne'
  · filter_upwards [(meanDom_isOpen fam).mem_nhds h] with y hy
    exact funcInv_func fam hy

end GLM
