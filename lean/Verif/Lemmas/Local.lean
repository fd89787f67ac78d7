/-
  Newton-like iterations near a stationary point: if the matrix of the iteration is close enough to
  the curvature, one step brings the iterate closer and increases the objective.
-/
import Mathlib.Analysis.Calculus.FDeriv.Add
import Mathlib.Analysis.Calculus.FDeriv.Pi
import Mathlib.Analysis.Calculus.FDeriv.Comp
import Mathlib.Analysis.Calculus.MeanValue
import Mathlib.Analysis.Calculus.Deriv.Pow
import Mathlib.LinearAlgebra.Matrix.NonsingularInverse
import Mathlib.Topology.Instances.Matrix
import Mathlib.Analysis.Normed.Module.FiniteDimension
import Mathlib.Topology.Algebra.Module.FiniteDimension
import Mathlib.Algebra.QuadraticDiscriminant

namespace GLM
open Matrix Filter Topology Asymptotics
variable {k : ℕ}

/-- The quadratic form of a matrix. -/
def qform (J : Matrix (Fin k) (Fin k) ℝ) (x : Fin k → ℝ) : ℝ := x ⬝ᵥ (J *ᵥ x)

/-- A matrix as a continuous linear map. -/
noncomputable def matCLM (A : Matrix (Fin k) (Fin k) ℝ) : (Fin k → ℝ) →L[ℝ] (Fin k → ℝ) :=
  LinearMap.toContinuousLinearMap (Matrix.mulVecLin A)

theorem matCLM_apply (A : Matrix (Fin k) (Fin k) ℝ) (x : Fin k → ℝ) : matCLM A x = A *ᵥ x := rfl

theorem qform_continuous (J : Matrix (Fin k) (Fin k) ℝ) : Continuous (qform J) :=
  continuous_id.dotProduct (continuous_const.matrix_mulVec continuous_id)

theorem qform_smul (J : Matrix (Fin k) (Fin k) ℝ) (t : ℝ) (x : Fin k → ℝ) :
    qform J (t • x) = t ^ 2 * qform J x := by
  simp only [qform, mulVec_smul, smul_dotProduct, dotProduct_smul, smul_eq_mul]; ring

theorem qform_zero (J : Matrix (Fin k) (Fin k) ℝ) : qform J 0 = 0 := by simp [qform]

theorem abs_dot_le (x y : Fin k → ℝ) : |x ⬝ᵥ y| ≤ k * (‖x‖ * ‖y‖) := by
  refine (Finset.abs_sum_le_sum_abs _ _).trans ?_
  refine (Finset.sum_le_sum fun j _ => ?_).trans_eq (by simp : ∑ _j : Fin k, ‖x‖ * ‖y‖ = _)
  rw [abs_mul]
  exact mul_le_mul (norm_le_pi_norm x j) (norm_le_pi_norm y j) (abs_nonneg _) (norm_nonneg _)

theorem exists_form_le (J : Matrix (Fin k) (Fin k) ℝ) :
    ∃ C, 0 < C ∧ ∀ x y : Fin k → ℝ, |x ⬝ᵥ (J *ᵥ y)| ≤ C * (‖x‖ * ‖y‖) := by
  refine ⟨k * ‖matCLM J‖ + 1, by positivity, fun x y => (abs_dot_le _ _).trans ?_⟩
  have h1 : ‖J *ᵥ y‖ ≤ ‖matCLM J‖ * ‖y‖ := (matCLM J).le_opNorm y
  have h2 : (k : ℝ) * (‖x‖ * ‖J *ᵥ y‖) ≤ k * (‖x‖ * (‖matCLM J‖ * ‖y‖)) := by gcongr
  have h3 : 0 ≤ ‖x‖ * ‖y‖ := by positivity
  nlinarith

/-- A continuous function that is homogeneous of degree two and positive away from zero dominates the
square of the norm. -/
theorem exists_norm_le {q : (Fin k → ℝ) → ℝ} (hc : Continuous q)
    (hh : ∀ (t : ℝ) x, q (t • x) = t ^ 2 * q x) (hp : ∀ x, x ≠ 0 → 0 < q x) :
    ∃ c, 0 < c ∧ ∀ x, c * ‖x‖ ^ 2 ≤ q x := by
  have h0 : q 0 = 0 := by have := hh 0 0; simpa using this
  by_cases hne : (Metric.sphere (0 : Fin k → ℝ) 1).Nonempty
  · obtain ⟨z, hz, hmin⟩ := (isCompact_sphere (0 : Fin k → ℝ) 1).exists_isMinOn hne hc.continuousOn
    have hz1 : ‖z‖ = 1 := by simpa using hz
    have hz0 : z ≠ 0 := by rintro rfl; simp at hz1
    refine ⟨q z, hp z hz0, fun x => ?_⟩
    rcases eq_or_ne x 0 with rfl | hx
    · simp [h0]
    · have hn : 0 < ‖x‖ := norm_pos_iff.mpr hx
      have h1 : ‖x‖⁻¹ • x ∈ Metric.sphere (0 : Fin k → ℝ) 1 := by
        simp [norm_smul, hn.ne']
      have h2 := hmin h1
      rw [Set.mem_ofPred_eq, hh] at h2
      have h3 : q x = ‖x‖ ^ 2 * (‖x‖⁻¹ ^ 2 * q x) := by field_simp
      rw [h3, mul_comm]
      exact mul_le_mul_of_nonneg_left h2 (sq_nonneg _)
  · refine ⟨1, one_pos, fun x => ?_⟩
    have hx : x = 0 := by
      by_contra hx
      have hn : 0 < ‖x‖ := norm_pos_iff.mpr hx
      exact hne ⟨‖x‖⁻¹ • x, by simp [norm_smul, hn.ne']⟩
    simp [hx, h0]

theorem qform_norm_le {J : Matrix (Fin k) (Fin k) ℝ} (hp : ∀ x, x ≠ 0 → 0 < qform J x) :
    ∃ c, 0 < c ∧ ∀ x, c * ‖x‖ ^ 2 ≤ qform J x :=
  exists_norm_le (qform_continuous J) (qform_smul J) hp

theorem dot_symm {J : Matrix (Fin k) (Fin k) ℝ} (h : J.IsSymm) (x y : Fin k → ℝ) :
    x ⬝ᵥ (J *ᵥ y) = y ⬝ᵥ (J *ᵥ x) := by
  rw [dotProduct_mulVec, ← mulVec_transpose, h, dotProduct_comm]

theorem qform_add {J : Matrix (Fin k) (Fin k) ℝ} (h : J.IsSymm) (x y : Fin k → ℝ) :
    qform J (x + y) = qform J x + 2 * (x ⬝ᵥ (J *ᵥ y)) + qform J y := by
  simp only [qform, mulVec_add, dotProduct_add, add_dotProduct]
  rw [dot_symm h y x]; ring

theorem qform_sub {J : Matrix (Fin k) (Fin k) ℝ} (h : J.IsSymm) (x y : Fin k → ℝ) :
    qform J (x - y) = qform J x - 2 * (x ⬝ᵥ (J *ᵥ y)) + qform J y := by
  simp only [qform, mulVec_sub, dotProduct_sub, sub_dotProduct]
  rw [dot_symm h y x]; ring

/-! ### The derivative of the iteration at a stationary point -/

section deriv
variable {E : Type*} [NormedAddCommGroup E] [NormedSpace ℝ E]

theorem hasFDerivAt_mul_vanish {h g : E → ℝ} {g' : E →L[ℝ] ℝ} {x : E} (hh : ContinuousAt h x)
    (hg : HasFDerivAt g g' x) (h0 : g x = 0) :
    HasFDerivAt (fun y => h y * g y) (h x • g') x := by
  have h1 : HasFDerivAt (fun y => h x * g y) (h x • g') x := hg.const_mul (h x)
  rw [hasFDerivAt_iff_isLittleO] at h1 ⊢
  have h2 : (fun y => (h y - h x) * g y) =o[𝓝 x] fun y => y - x := by
    have hb : g =O[𝓝 x] fun y => y - x := by
      have := hg.isBigO_sub
      simpa [h0] using this
    have ho : (fun y => h y - h x) =o[𝓝 x] fun _ => (1 : ℝ) := by
      rw [isLittleO_one_iff]
      have : Tendsto (fun y => h y - h x) (𝓝 x) (𝓝 (h x - h x)) :=
        Tendsto.sub hh tendsto_const_nhds
      simpa using this
    have := ho.mul_isBigO hb.norm_right
    refine this.trans_isBigO ?_
    simp only [one_mul]
    exact (isBigO_refl _ _).norm_left
  refine (h1.add h2).congr_left fun y => ?_
  simp only [h0]
  ring

end deriv

theorem continuousAt_inv_matrix {E : Type*} [TopologicalSpace E] {M : E → Matrix (Fin k) (Fin k) ℝ}
    {x : E} (hM : ContinuousAt M x) (hu : IsUnit (M x).det) : ContinuousAt (fun y => (M y)⁻¹) x := by
  have h1 : ContinuousAt (fun y => (M y).det) x :=
    (continuous_id.matrix_det).continuousAt.comp hM
  have h2 : ContinuousAt (fun y => (M y).adjugate) x :=
    (continuous_id.matrix_adjugate).continuousAt.comp hM
  have h3 : ContinuousAt (fun y => ((M y).det)⁻¹ • (M y).adjugate) x :=
    (h1.inv₀ hu.ne_zero).smul h2
  refine h3.congr (Eventually.of_forall fun y => ?_)
  simp only [Matrix.inv_def, Ring.inverse_eq_inv']

/-- The iteration `β ↦ β + M(β)⁻¹ s(β)`. -/
noncomputable def newtonMap (M : (Fin k → ℝ) → Matrix (Fin k) (Fin k) ℝ) (s : (Fin k → ℝ) → Fin k → ℝ)
    (β : Fin k → ℝ) : Fin k → ℝ := β + (M β)⁻¹ *ᵥ s β

theorem newtonMap_hasFDerivAt {M : (Fin k → ℝ) → Matrix (Fin k) (Fin k) ℝ}
    {s : (Fin k → ℝ) → Fin k → ℝ} {βs : Fin k → ℝ} {J : Matrix (Fin k) (Fin k) ℝ}
    (hM : ContinuousAt M βs) (hu : IsUnit (M βs).det) (hs : HasFDerivAt s (matCLM (-J)) βs)
    (h0 : s βs = 0) :
    HasFDerivAt (newtonMap M s) (matCLM (1 - (M βs)⁻¹ * J)) βs := by
  have hinv := continuousAt_inv_matrix hM hu
  rw [hasFDerivAt_pi'] at hs ⊢
  intro i
  have hsum : HasFDerivAt (fun β => ∑ j, (M β)⁻¹ i j * s β j)
      (∑ j, (M βs)⁻¹ i j • (ContinuousLinearMap.proj (R := ℝ) (φ := fun _ : Fin k => ℝ) j).comp
        (matCLM (-J))) βs := by
    refine HasFDerivAt.fun_sum fun j _ => hasFDerivAt_mul_vanish ?_ (hs j) (congrFun h0 j)
    exact ((continuous_apply_apply i j).continuousAt).comp hinv
  have := (hasFDerivAt_apply (𝕜 := ℝ) i βs).add hsum
  refine this.congr_fderiv ?_
  refine ContinuousLinearMap.ext fun x => ?_
  simp only [_root_.add_apply, ContinuousLinearMap.proj_apply,
    _root_.sum_apply, _root_.smul_apply, ContinuousLinearMap.comp_apply,
    matCLM_apply, smul_eq_mul, neg_mulVec, Pi.neg_apply, mul_neg, Finset.sum_neg_distrib, sub_mulVec,
    one_mulVec, Pi.sub_apply]
  rw [← sub_eq_add_neg]
  congr 1
  rw [← mulVec_mulVec]
  rfl

/-- Second-order expansion at a stationary point. -/
theorem second_order {f : (Fin k → ℝ) → ℝ} {s : (Fin k → ℝ) → Fin k → ℝ} {βs : Fin k → ℝ}
    {J : Matrix (Fin k) (Fin k) ℝ}
    (hf : ∀ᶠ β in 𝓝 βs, HasFDerivAt f (∑ j, s β j • ContinuousLinearMap.proj (R := ℝ)
      (φ := fun _ : Fin k => ℝ) j) β)
    (hs : HasFDerivAt s (matCLM (-J)) βs) (h0 : s βs = 0) {δ : ℝ} (hδ : 0 < δ) :
    ∀ᶠ β in 𝓝 βs, |f βs - f β - qform J (β - βs) / 2| ≤ δ * ‖β - βs‖ ^ 2 := by
  set δ' : ℝ := δ / (k + 1) with hδ'
  have hδ'0 : 0 < δ' := by positivity
  rw [hasFDerivAt_iff_isLittleO] at hs
  have h1 := hf.and (hs.def hδ'0)
  rw [Metric.eventually_nhds_iff] at h1
  obtain ⟨r, hr, h1⟩ := h1
  rw [Metric.eventually_nhds_iff]
  refine ⟨r, hr, fun {β} hβ => ?_⟩
  set x := β - βs with hx
  have hxr : ‖x‖ < r := by rwa [dist_eq_norm] at hβ
  set φ : ℝ → ℝ := fun t => f (βs + t • x) + t ^ 2 / 2 * qform J x with hφ
  have hin : ∀ t ∈ Set.Icc (0 : ℝ) 1, dist (βs + t • x) βs < r := by
    intro t ht
    rw [dist_eq_norm, add_sub_cancel_left, norm_smul, Real.norm_of_nonneg ht.1]
    nlinarith [ht.2, norm_nonneg x]
  have hderiv : ∀ t ∈ Set.Icc (0 : ℝ) 1, HasDerivWithinAt φ
      (s (βs + t • x) ⬝ᵥ x + t * qform J x) (Set.Icc 0 1) t := by
    intro t ht
    have hl : HasDerivAt (fun t : ℝ => βs + t • x) x t := by
      simpa using ((hasDerivAt_id t).smul_const x).const_add βs
    have h2 := (h1 (hin t ht)).1.comp_hasDerivAt t hl
    have h3 : HasDerivAt (fun t : ℝ => t ^ 2 / 2 * qform J x) (t * qform J x) t := by
      have := ((hasDerivAt_pow 2 t).div_const 2).mul_const (qform J x)
      refine this.congr_deriv ?_
      simp
    have := h2.add h3
    refine (this.congr_deriv ?_).hasDerivWithinAt
    simp [dotProduct]
  have hbound : ∀ t ∈ Set.Ico (0 : ℝ) 1,
      ‖s (βs + t • x) ⬝ᵥ x + t * qform J x‖ ≤ δ * ‖x‖ ^ 2 := by
    intro t ht
    have ht' : t ∈ Set.Icc (0 : ℝ) 1 := ⟨ht.1, ht.2.le⟩
    have h2 := (h1 (hin t ht')).2
    rw [h0, sub_zero, add_sub_cancel_left, matCLM_apply, neg_mulVec, sub_neg_eq_add,
      mulVec_smul, norm_smul, Real.norm_of_nonneg ht.1] at h2
    have e : s (βs + t • x) ⬝ᵥ x + t * qform J x = (s (βs + t • x) + t • (J *ᵥ x)) ⬝ᵥ x := by
      rw [add_dotProduct, smul_dotProduct, qform, dotProduct_comm (J *ᵥ x), smul_eq_mul]
    rw [e, Real.norm_eq_abs]
    refine (abs_dot_le _ _).trans ?_
    have hx0 := norm_nonneg x
    have h3 : ‖s (βs + t • x) + t • (J *ᵥ x)‖ ≤ δ' * ‖x‖ := h2.trans (by
      refine mul_le_mul_of_nonneg_left ?_ hδ'0.le
      nlinarith [ht.2])
    have h4 : (k : ℝ) * (‖s (βs + t • x) + t • (J *ᵥ x)‖ * ‖x‖) ≤ k * (δ' * ‖x‖ * ‖x‖) := by gcongr
    refine h4.trans ?_
    have h5 : (k : ℝ) * δ' ≤ δ := by
      rw [hδ', mul_div_assoc', div_le_iff₀ (by positivity)]
      nlinarith
    nlinarith [mul_nonneg hx0 hx0]
  have := norm_image_sub_le_of_norm_deriv_le_segment_01' hderiv hbound
  have e1 : βs + (1 : ℝ) • x = β := by rw [one_smul, hx]; abel
  simp only [hφ, e1, zero_smul, add_zero] at this
  rw [Real.norm_eq_abs] at this
  refine le_of_eq_of_le ?_ this
  rw [← abs_neg]
  congr 1
  ring

/-- One step near a stationary point: the squared distance, in the norm of the curvature, and the
deficiency of the objective are multiplied by at most `ρ`, for any `ρ` larger than the factor `ρ₀` of
the linearized iteration. -/
theorem local_step {M : (Fin k → ℝ) → Matrix (Fin k) (Fin k) ℝ} {f : (Fin k → ℝ) → ℝ}
    {s : (Fin k → ℝ) → Fin k → ℝ} {βs : Fin k → ℝ} {J : Matrix (Fin k) (Fin k) ℝ}
    (hM : ContinuousAt M βs) (hu : IsUnit (M βs).det)
    (hf : ∀ᶠ β in 𝓝 βs, HasFDerivAt f (∑ j, s β j • ContinuousLinearMap.proj (R := ℝ)
      (φ := fun _ : Fin k => ℝ) j) β)
    (hs : HasFDerivAt s (matCLM (-J)) βs) (h0 : s βs = 0) (hJ : J.IsSymm)
    (hp : ∀ x, x ≠ 0 → 0 < qform J x) {ρ₀ ρ : ℝ} (hρ₀ : 0 ≤ ρ₀) (hρ : ρ₀ < ρ)
    (hc : ∀ x y, M βs *ᵥ y = J *ᵥ x → qform J (x - y) ≤ ρ₀ * qform J x) :
    ∀ᶠ β in 𝓝 βs, IsUnit (M β).det ∧
      qform J (newtonMap M s β - βs) ≤ ρ * qform J (β - βs) ∧
      f βs - f (newtonMap M s β) ≤ ρ * (f βs - f β) ∧
      f βs - f β ≤ qform J (β - βs) ∧ (β ≠ βs → f β < f βs) := by
  obtain ⟨c, hc0, hcn⟩ := qform_norm_le hp
  obtain ⟨C, hC0, hC⟩ := exists_form_le J
  have hN := newtonMap_hasFDerivAt hM hu hs h0
  have hN0 : newtonMap M s βs = βs := by simp [newtonMap, h0]
  set D := 1 - (M βs)⁻¹ * J with hD
  set ρ₁ := (ρ₀ + ρ) / 2 with hρ₁
  have hρ₁0 : 0 < ρ₁ := by linarith
  have hρ₁ρ : ρ₁ < ρ := by linarith
  have hρ₀₁ : ρ₀ < ρ₁ := by linarith
  -- the norm of the linear part
  have hDx : ∀ x, qform J (D *ᵥ x) ≤ ρ₀ * qform J x := fun x => by
    have := hc x ((M βs)⁻¹ *ᵥ (J *ᵥ x)) (by rw [mulVec_mulVec, mul_nonsing_inv _ hu, one_mulVec])
    rwa [hD, sub_mulVec, one_mulVec, ← mulVec_mulVec]
  -- step one: contraction of the squared distance
  have hcon : ∀ᶠ β in 𝓝 βs, qform J (newtonMap M s β - βs) ≤ ρ₁ * qform J (β - βs) := by
    set L := ‖matCLM D‖ + 1 with hL
    have hL0 : 0 < L := by positivity
    set δ := min 1 ((ρ₁ - ρ₀) * c / (C * (2 * L + 1))) with hδ
    have hδ0 : 0 < δ := lt_min one_pos (by
      have := sub_pos.mpr hρ₀₁
      positivity)
    filter_upwards [(hasFDerivAt_iff_isLittleO.mp hN).def hδ0] with β hβ
    rw [hN0, matCLM_apply] at hβ
    set x := β - βs with hx
    set r := newtonMap M s β - βs - D *ᵥ x with hr
    have e : newtonMap M s β - βs = D *ᵥ x + r := by rw [hr]; abel
    rw [e, qform_add hJ]
    have h1 := hDx x
    have hxn := norm_nonneg x
    have hDn : ‖D *ᵥ x‖ ≤ L * ‖x‖ := by
      have := (matCLM D).le_opNorm x
      rw [matCLM_apply] at this
      nlinarith
    have hδ1 : δ ≤ 1 := min_le_left _ _
    have h2 : D *ᵥ x ⬝ᵥ (J *ᵥ r) ≤ C * (L * ‖x‖ * (δ * ‖x‖)) := by
      refine (le_abs_self _).trans ((hC _ _).trans ?_)
      gcongr
    have h3 : qform J r ≤ C * (1 * ‖x‖ * (δ * ‖x‖)) := by
      refine (le_abs_self _).trans ((hC _ _).trans ?_)
      have : ‖r‖ ≤ 1 * ‖x‖ := hβ.trans (by nlinarith)
      gcongr
    have h4 : C * (2 * L + 1) * δ ≤ (ρ₁ - ρ₀) * c := by
      have := min_le_right 1 ((ρ₁ - ρ₀) * c / (C * (2 * L + 1)))
      rw [← hδ, le_div_iff₀ (by positivity)] at this
      linarith
    have h5 := hcn x
    have h6 : (ρ₁ - ρ₀) * (c * ‖x‖ ^ 2) ≤ (ρ₁ - ρ₀) * qform J x :=
      mul_le_mul_of_nonneg_left h5 (by linarith)
    have h7 : C * (2 * L + 1) * δ * ‖x‖ ^ 2 ≤ (ρ₁ - ρ₀) * c * ‖x‖ ^ 2 :=
      mul_le_mul_of_nonneg_right h4 (sq_nonneg _)
    nlinarith
  -- step two: the objective
  set η := min (1 / 4) ((ρ - ρ₁) / (2 * (ρ + ρ₁))) with hη
  have hη0 : 0 < η := lt_min (by norm_num) (by
    have := sub_pos.mpr hρ₁ρ
    have : 0 < ρ := hρ₁0.trans hρ₁ρ
    positivity)
  have hη4 : η ≤ 1 / 4 := min_le_left _ _
  have hηr : (1 / 2 + η) * ρ₁ ≤ ρ * (1 / 2 - η) := by
    have h1 := min_le_right (1 / 4) ((ρ - ρ₁) / (2 * (ρ + ρ₁)))
    rw [← hη, le_div_iff₀ (by linarith)] at h1
    nlinarith
  have hexp : ∀ᶠ β in 𝓝 βs, |f βs - f β - qform J (β - βs) / 2| ≤ η * qform J (β - βs) := by
    filter_upwards [second_order hf hs h0 (mul_pos hη0 hc0)] with β hβ
    refine hβ.trans ?_
    rw [mul_assoc]
    exact mul_le_mul_of_nonneg_left (hcn _) hη0.le
  have hcont : Tendsto (newtonMap M s) (𝓝 βs) (𝓝 βs) := by
    have := hN.continuousAt
    rwa [ContinuousAt, hN0] at this
  have hdet : ∀ᶠ β in 𝓝 βs, IsUnit (M β).det := by
    have h1 : ContinuousAt (fun y => (M y).det) βs := (continuous_id.matrix_det).continuousAt.comp hM
    filter_upwards [h1.eventually_ne hu.ne_zero] with β hβ
    exact isUnit_iff_ne_zero.mpr hβ
  filter_upwards [hdet, hcon, hexp, hcont.eventually hexp] with β h1 h2 h3 h4
  have hV : 0 ≤ qform J (β - βs) := by
    have := hcn (β - βs)
    have h5 : 0 ≤ c * ‖β - βs‖ ^ 2 := by positivity
    linarith
  have hV' : 0 ≤ qform J (newtonMap M s β - βs) := by
    have := hcn (newtonMap M s β - βs)
    have h5 : 0 ≤ c * ‖newtonMap M s β - βs‖ ^ 2 := by positivity
    linarith
  rw [abs_le] at h3 h4
  refine ⟨h1, h2.trans (mul_le_mul_of_nonneg_right hρ₁ρ.le hV), ?_, by nlinarith, fun hne => ?_⟩
  · have e1 : f βs - f (newtonMap M s β) ≤ (1 / 2 + η) * (ρ₁ * qform J (β - βs)) := by
      have : (1 / 2 + η) * qform J (newtonMap M s β - βs) ≤ (1 / 2 + η) * (ρ₁ * qform J (β - βs)) :=
        mul_le_mul_of_nonneg_left h2 (by linarith)
      linarith
    have e2 : (1 / 2 - η) * qform J (β - βs) ≤ f βs - f β := by linarith
    have e3 : ρ * ((1 / 2 - η) * qform J (β - βs)) ≤ ρ * (f βs - f β) :=
      mul_le_mul_of_nonneg_left e2 (by linarith)
    have e4 : (1 / 2 + η) * ρ₁ * qform J (β - βs) ≤ ρ * (1 / 2 - η) * qform J (β - βs) :=
      mul_le_mul_of_nonneg_right hηr hV
    linarith
  · have := hp (β - βs) (sub_ne_zero.mpr hne)
    nlinarith

/-- If the curvature is positive and less than twice the matrix of the iteration, the linearized
iteration is a contraction. -/
theorem exists_factor {M J : Matrix (Fin k) (Fin k) ℝ} (hu : IsUnit M.det) (hJ : J.IsSymm)
    (hp : ∀ x, x ≠ 0 → 0 < qform J x) (hM : ∀ x, x ≠ 0 → qform J x < 2 * qform M x) :
    ∃ ρ₀, 0 ≤ ρ₀ ∧ ρ₀ < 1 ∧ ∀ x y, M *ᵥ y = J *ᵥ x → qform J (x - y) ≤ ρ₀ * qform J x := by
  -- the gain of one step
  let q : (Fin k → ℝ) → ℝ := fun x => qform J x - qform J (x - M⁻¹ *ᵥ (J *ᵥ x))
  have hq : ∀ x y, M *ᵥ y = J *ᵥ x → q x = qform J x - qform J (x - y) := by
    intro x y h
    have : M⁻¹ *ᵥ (J *ᵥ x) = y := by rw [← h, mulVec_mulVec, nonsing_inv_mul _ hu, one_mulVec]
    simp only [q, this]
  have hpos : ∀ x, x ≠ 0 → 0 < q x := by
    intro x hx
    set y := M⁻¹ *ᵥ (J *ᵥ x) with hy
    have hMy : M *ᵥ y = J *ᵥ x := by rw [hy, mulVec_mulVec, mul_nonsing_inv _ hu, one_mulVec]
    have hy0 : y ≠ 0 := by
      intro h
      rw [h, mulVec_zero] at hMy
      have := hp x hx
      rw [qform, ← hMy, dotProduct_zero] at this
      exact lt_irrefl _ this
    rw [hq x y hMy, qform_sub hJ, dot_symm hJ x y, ← hMy]
    have := hM y hy0
    rw [qform, qform] at this
    rw [qform, qform]
    linarith
  have hcont : Continuous q := by
    have h1 : Continuous fun x : Fin k → ℝ => x - M⁻¹ *ᵥ (J *ᵥ x) :=
      continuous_id.sub (continuous_const.matrix_mulVec (continuous_const.matrix_mulVec continuous_id))
    exact (qform_continuous J).sub ((qform_continuous J).comp h1)
  have hhom : ∀ (t : ℝ) x, q (t • x) = t ^ 2 * q x := by
    intro t x
    have : t • x - M⁻¹ *ᵥ (J *ᵥ (t • x)) = t • (x - M⁻¹ *ᵥ (J *ᵥ x)) := by
      rw [mulVec_smul, mulVec_smul, smul_sub]
    simp only [q, this, qform_smul]
    ring
  obtain ⟨c, hc0, hc⟩ := exists_norm_le hcont hhom hpos
  obtain ⟨C, hC0, hC⟩ := exists_form_le J
  set t := min (c / C) (1 / 2) with ht
  have ht0 : 0 < t := lt_min (by positivity) (by norm_num)
  have ht1 : t ≤ 1 / 2 := min_le_right _ _
  refine ⟨1 - t, by linarith, by linarith, fun x y h => ?_⟩
  have h1 := hc x
  rw [hq x y h] at h1
  have h2 : qform J x ≤ C * (‖x‖ * ‖x‖) := (le_abs_self _).trans (hC x x)
  have h3 : t * C ≤ c := by
    have := min_le_left (c / C) (1 / 2)
    rwa [← ht, le_div_iff₀ hC0] at this
  have h4 : t * qform J x ≤ c * ‖x‖ ^ 2 := by
    have e1 := mul_le_mul_of_nonneg_left h2 ht0.le
    have e2 := mul_le_mul_of_nonneg_right h3 (sq_nonneg ‖x‖)
    nlinarith
  linarith

/-- The factor of the linearized iteration if `M = J + ε G` with `w G ≤ J`. -/
theorem factor_of_eps {J G : Matrix (Fin k) (Fin k) ℝ} (hJ : J.IsSymm) (hG : G.IsSymm)
    (pG : ∀ x, 0 ≤ qform G x) {e w : ℝ} (he : 0 ≤ e) (hw : 0 < w) (hwG : ∀ x, w * qform G x ≤ qform J x)
    {x y : Fin k → ℝ} (h : (J + e • G) *ᵥ y = J *ᵥ x) :
    qform J (x - y) ≤ (e / (w + e)) ^ 2 * qform J x := by
  set z := x - y with hz
  have hJz : J *ᵥ z = e • (G *ᵥ y) := by
    rw [add_mulVec, smul_mulVec] at h
    rw [hz, mulVec_sub, ← h]
    abel
  have hx : x = z + y := by rw [hz]; abel
  have h1 : qform J z = e * (z ⬝ᵥ (G *ᵥ y)) := by
    rw [qform, hJz, dotProduct_smul, smul_eq_mul]
  have h2 : y ⬝ᵥ (J *ᵥ z) = e * qform G y := by rw [hJz, dotProduct_smul, smul_eq_mul, qform]
  have h3 : qform J x = qform J z + 2 * (e * qform G y) + qform J y := by
    rw [hx, qform_add hJ, dot_symm hJ z y, h2]
  -- Cauchy-Schwarz for `G`
  have h4 : (z ⬝ᵥ (G *ᵥ y)) ^ 2 ≤ qform G z * qform G y := by
    have hd := discrim_le_zero (a := qform G y) (b := -2 * (z ⬝ᵥ (G *ᵥ y))) (c := qform G z) fun t => by
      have := pG (z - t • y)
      rw [qform_sub hG, mulVec_smul, dotProduct_smul, smul_eq_mul, qform_smul] at this
      linarith
    rw [discrim] at hd
    nlinarith
  have hGy := pG y
  have hwy := hwG y
  have hwz := hwG z
  have hzz : 0 ≤ qform J z := le_trans (mul_nonneg hw.le (pG z)) hwz
  have h5 : w * qform J z ≤ e ^ 2 * qform G y := by
    have e1 : w * qform J z ^ 2 ≤ e ^ 2 * qform G y * qform J z := by
      have : w * (e ^ 2 * (z ⬝ᵥ (G *ᵥ y)) ^ 2) ≤ e ^ 2 * (qform J z * qform G y) := by
        have a1 : w * (z ⬝ᵥ (G *ᵥ y)) ^ 2 ≤ qform J z * qform G y := by
          have := mul_le_mul_of_nonneg_left h4 hw.le
          have := mul_le_mul_of_nonneg_right hwz hGy
          linarith
        have := mul_le_mul_of_nonneg_left a1 (sq_nonneg e)
        linarith
      have e2 : qform J z ^ 2 = e ^ 2 * (z ⬝ᵥ (G *ᵥ y)) ^ 2 := by rw [h1]; ring
      rw [e2]
      linarith
    rcases hzz.eq_or_lt with h0 | h0
    · rw [← h0, mul_zero]
      positivity
    · refine le_of_mul_le_mul_right ?_ h0
      linarith
  rw [div_pow, div_mul_eq_mul_div, le_div_iff₀ (by positivity), h3]
  nlinarith [mul_nonneg (sq_nonneg e) (by linarith : 0 ≤ qform J y - w * qform G y)]

end GLM
