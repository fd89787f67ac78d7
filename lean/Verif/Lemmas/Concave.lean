/-
  The log-likelihood of one observation is strictly concave in the linear predictor, for every pair
  except the inverse Gaussian with log link.
-/
import Verif.Lemmas.Saturation
import Mathlib.Analysis.Convex.SpecificFunctions.Basic

namespace GLM
open Spec Set

namespace Spec

/-- Pairs with log-likelihood concave in the linear predictor. -/
def ConcavePair : Family → Prop
  | .invGaussLog => False
  | _ => True

end Spec

theorem predDom_convex (fam : Family) : Convex ℝ (predDom fam) := by
  cases fam <;> first | exact convex_univ | exact convex_Iio 0

/-- The derivative of the log-likelihood of one observation in the linear predictor. -/
theorem logLikeAt_hasDerivAt (fam : Family) (hv : ValidFamily fam) (y : ℝ) {w : ℝ}
    (hw : w ∈ predDom fam) :
    HasDerivAt (fun w => (fam.glm (F := ℝ)).logLikeNatural y ((fam.glm (F := ℝ)).link.natParam w))
      ((fam.glm (F := ℝ)).link.dNatParam w * (y - (fam.glm (F := ℝ)).link.funcInv w)) w := by
  simp only [logLikeNatural_real]
  have h1 := natParam_hasDerivAt fam w
  have h2 := (cumulant_hasDerivAt fam (natParam_mem fam hw)).comp w h1
  rw [meanOfNat_natParam fam hv hw] at h2
  refine HasDerivAt.congr_deriv ((h1.const_mul y).sub h2) ?_
  ring

theorem strictAntiOn_div_exp : StrictAntiOn (fun t : ℝ => t / (Real.exp t - 1)) (Ioi 0) := by
  intro a ha c hc hac
  rw [mem_Ioi] at ha hc
  have h := strictConvexOn_exp.secant_strict_mono (mem_univ 0) (mem_univ a) (mem_univ c) ha.ne'
    hc.ne' hac
  simp only [Real.exp_zero, sub_zero] at h
  have ha' : 0 < Real.exp a - 1 := by have := Real.add_one_lt_exp ha.ne'; linarith
  have hc' : 0 < Real.exp c - 1 := by have := Real.add_one_lt_exp hc.ne'; linarith
  rw [div_lt_div_iff₀ ha hc] at h
  dsimp only
  rw [div_lt_div_iff₀ hc' ha']
  linarith

/-- The score of one observation decreases with the linear predictor. -/
theorem scoreAt_strictAntiOn (fam : Family) (hv : ValidFamily fam) (hc : ConcavePair fam) {y : ℝ}
    (hy : IsCanonical fam ∨ y ∈ yDom fam) :
    StrictAntiOn (fun w => (fam.glm (F := ℝ)).link.dNatParam w
      * (y - (fam.glm (F := ℝ)).link.funcInv w)) (predDom fam) := by
  have canon : IsCanonical fam → StrictAntiOn (fun w => (fam.glm (F := ℝ)).link.dNatParam w
      * (y - (fam.glm (F := ℝ)).link.funcInv w)) (predDom fam) := by
    intro hcan a ha c hc' hac
    have hd : ∀ w, (fam.glm (F := ℝ)).link.dNatParam w = 1 := by
      intro w; rw [dNatParam_real]; cases fam <;> first | rfl | exact hcan.elim
    have hn : ∀ w, (fam.glm (F := ℝ)).link.natParam w = w := by
      intro w; rw [natParam_real]; cases fam <;> first | rfl | exact hcan.elim
    have h1 := meanOfNat_natParam fam hv ha
    have h2 := meanOfNat_natParam fam hv hc'
    have h3 := natParam_mem fam ha
    have h4 := natParam_mem fam hc'
    rw [hn] at h1 h2 h3 h4
    have := meanOfNat_strictMonoOn fam hv h3 h4 hac
    rw [h1, h2] at this
    simp only [hd, one_mul]
    linarith
  have explog : ∀ y : ℝ, 0 < y →
      StrictAntiOn (fun w => Real.exp (-w) * (y - Real.exp w)) univ := by
    intro y hy a _ c _ hac
    have h1 : ∀ w : ℝ, Real.exp (-w) * (y - Real.exp w) = y * Real.exp (-w) - 1 := by
      intro w; rw [mul_sub, ← Real.exp_add]; simp; ring
    simp only [h1]
    have : Real.exp (-c) < Real.exp (-a) := Real.exp_lt_exp.mpr (by linarith)
    have := mul_lt_mul_of_pos_left this hy
    linarith
  cases fam
  case invGaussLog => exact hc.elim
  case logisticCloglog =>
    have hy' : y ∈ Icc (0 : ℝ) 1 := hy.elim (fun h => h.elim) id
    simp only [dNatParam_real, funcInv_real]
    have h1 : ∀ w : ℝ, -Real.exp w / (Real.exp (-Real.exp w) - 1)
        * (y - (1 - Real.exp (-Real.exp w)))
        = y * (Real.exp w / (Real.exp (Real.exp w) - 1)) - (1 - y) * Real.exp w := by
      intro w
      have hp := Real.exp_pos w
      have h1 : Real.exp (Real.exp w) - 1 ≠ 0 := by
        have := Real.add_one_lt_exp hp.ne'
        linarith
      have hq := Real.exp_pos (Real.exp w)
      rw [Real.exp_neg (Real.exp w)]
      have h2 : (Real.exp (Real.exp w))⁻¹ - 1
          = -(Real.exp (Real.exp w) - 1) / Real.exp (Real.exp w) := by
        field_simp; ring
      rw [h2]
      field_simp
      ring
    intro a _ c _ hac
    simp only [h1]
    have hlt := Real.exp_lt_exp.mpr hac
    have h2 := strictAntiOn_div_exp (mem_Ioi.mpr (Real.exp_pos a)) (mem_Ioi.mpr (Real.exp_pos c)) hlt
    dsimp only at h2
    rcases eq_or_lt_of_le hy'.1 with h0 | h0
    · rw [← h0]; linarith
    · have h3 := mul_lt_mul_of_pos_left h2 h0
      have h4 := mul_le_mul_of_nonneg_left hlt.le (sub_nonneg.mpr hy'.2)
      linarith
  case exponentialLog =>
    simp only [dNatParam_real, funcInv_real]
    exact explog y (hy.elim (fun h => h.elim) id)
  case gammaLog =>
    simp only [dNatParam_real, funcInv_real]
    exact explog y (hy.elim (fun h => h.elim) id)
  all_goals exact canon trivial

/-- Tangent-line inequality of one observation's log-likelihood. -/
theorem logLikeAt_tangent_lt (fam : Family) (hv : ValidFamily fam) (hc : ConcavePair fam) {y : ℝ}
    (hy : IsCanonical fam ∨ y ∈ yDom fam) {w w₀ : ℝ} (hw : w ∈ predDom fam) (h₀ : w₀ ∈ predDom fam)
    (hne : w ≠ w₀) :
    (fam.glm (F := ℝ)).logLikeNatural y ((fam.glm (F := ℝ)).link.natParam w)
      < (fam.glm (F := ℝ)).logLikeNatural y ((fam.glm (F := ℝ)).link.natParam w₀)
        + (fam.glm (F := ℝ)).link.dNatParam w₀ * (y - (fam.glm (F := ℝ)).link.funcInv w₀)
          * (w - w₀) := by
  have hd := fun {w : ℝ} hw => logLikeAt_hasDerivAt fam hv y (w := w) hw
  have hcc : StrictConcaveOn ℝ (predDom fam) fun w => (fam.glm (F := ℝ)).logLikeNatural y
      ((fam.glm (F := ℝ)).link.natParam w) := by
    apply StrictAntiOn.strictConcaveOn_of_deriv (predDom_convex fam)
    · exact fun η h => (hd h).continuousAt.continuousWithinAt
    · rw [(predDom_isOpen fam).interior_eq]
      intro a ha c hc' hac
      rw [(hd ha).deriv, (hd hc').deriv]
      exact scoreAt_strictAntiOn fam hv hc hy ha hc' hac
  rcases lt_or_gt_of_ne hne with hlt | hgt
  · have := hcc.lt_slope_of_hasDerivAt hw h₀ hlt (hd h₀)
    rw [slope_def_field, lt_div_iff₀ (by linarith)] at this
    linarith
  · have := hcc.slope_lt_of_hasDerivAt h₀ hw hgt (hd h₀)
    rw [slope_def_field, div_lt_iff₀ (by linarith)] at this
    linarith

theorem logLikeAt_tangent_le (fam : Family) (hv : ValidFamily fam) (hc : ConcavePair fam) {y : ℝ}
    (hy : IsCanonical fam ∨ y ∈ yDom fam) {w w₀ : ℝ} (hw : w ∈ predDom fam)
    (h₀ : w₀ ∈ predDom fam) :
    (fam.glm (F := ℝ)).logLikeNatural y ((fam.glm (F := ℝ)).link.natParam w)
      ≤ (fam.glm (F := ℝ)).logLikeNatural y ((fam.glm (F := ℝ)).link.natParam w₀)
        + (fam.glm (F := ℝ)).link.dNatParam w₀ * (y - (fam.glm (F := ℝ)).link.funcInv w₀)
          * (w - w₀) := by
  by_cases hne : w = w₀
  · subst hne; simp
  · exact (logLikeAt_tangent_lt fam hv hc hy hw h₀ hne).le

end GLM
