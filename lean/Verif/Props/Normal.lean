/-
  C117: the distribution of a Linear fit of normal responses.
-/
import Verif.Spec.Normal
import Verif.Props.GaussMarkov
import Verif.Lemmas.Quantile
import Verif.Lemmas.RealDists
import Mathlib.Probability.Distributions.Gaussian.HasGaussianLaw.Independence

open MeasureTheory ProbabilityTheory

namespace GLM
open Spec
open Matrix hiding gram
variable {n p : ℕ} {b : Bool} {env : Env ℝ} {raw : Dataset ℝ n p false} {std : Bool}
  {Ω : Type*} [MeasurableSpace Ω] {P : Measure Ω} {Y : Ω → Vec ℝ n} {m v : Fin n → ℝ}

namespace Spec.NormalResponses
variable (hN : NormalResponses P Y m v)
include hN

theorem gaussian (i : Fin n) : HasGaussianLaw (fun ω => Y ω i) P :=
  ⟨by rw [hN.law]; infer_instance⟩

/-- Normal responses have the moments assumed elsewhere. -/
theorem random : RandomResponses P Y m v := by
  have := hN.prob
  have hsq : ∀ i, MemLp (fun ω => Y ω i) 2 P := fun i => (hN.gaussian i).memLp_two
  refine ⟨hN.prob, hsq, fun i => ?_, fun i => ?_, fun i j hij => ?_⟩
  · have h1 := integral_map (hN.measurable i) (f := fun x : ℝ => x) aestronglyMeasurable_id
    rw [hN.law, integral_id_gaussianReal] at h1
    exact h1.symm
  · have h1 := variance_map (X := fun x : ℝ => x) (μ := P) (Y := fun ω => Y ω i)
      aemeasurable_id (hN.measurable i)
    rw [hN.law, variance_fun_id_gaussianReal, Real.coe_toNNReal _ (hN.nonneg i)] at h1
    exact h1.symm
  · exact (hN.indep.indepFun hij).covariance_eq_zero (hsq i) (hsq j)

theorem joint : HasGaussianLaw (fun ω => Y ω) P := hN.indep.hasGaussianLaw hN.gaussian

/-- Affine functions of normal responses are normal. -/
theorem affine_law (a₀ : ℝ) (a : Fin n → ℝ) :
    P.map (fun ω => a₀ + ∑ i, a i * Y ω i)
      = gaussianReal (a₀ + ∑ i, a i * m i) (∑ i, a i * a i * v i).toNNReal := by
  have hR := hN.random
  have := hN.prob
  have hlin : HasGaussianLaw (fun ω => ∑ i, a i * Y ω i) P := by
    have h1 := hN.joint.map (LinearMap.toContinuousLinearMap (∑ i, a i • LinearMap.proj (R := ℝ) i))
    refine h1.congr (Filter.Eventually.of_forall fun ω => ?_)
    simp
  have h2 := hlin.map_eq_gaussianReal
  have h3 : P.map (fun ω => a₀ + ∑ i, a i * Y ω i)
      = (P.map fun ω => ∑ i, a i * Y ω i).map (a₀ + ·) := by
    rw [AEMeasurable.map_map_of_aemeasurable (by fun_prop) hlin.aemeasurable]
    rfl
  have h4 : Var[fun ω => ∑ i, a i * Y ω i; P] = ∑ i, a i * a i * v i := by
    rw [← covariance_self hlin.aemeasurable]
    have := hR.cov_affine 0 0 a a
    simpa using this
  rw [h3, h2, gaussianReal_map_const_add, hR.mean_lin, h4, add_comm]

end Spec.NormalResponses

/-- The probability that a normal variable is within `z` standard deviations of its mean. -/
theorem gauss_within (m : ℝ) {s : ℝ} (hs : 0 < s) {z : ℝ} (hz : 0 ≤ z) :
    (gaussianReal m (s ^ 2).toNNReal).real {x | |x - m| ≤ z * s}
      = 1 - 2 * (gaussianReal 0 1).real (Set.Ioi z) := by
  have h1 : gaussianReal m (s ^ 2).toNNReal = ((gaussianReal 0 1).map (s * ·)).map (· + m) := by
    rw [gaussianReal_map_const_mul, gaussianReal_map_add_const]
    simp only [mul_zero, zero_add, mul_one]
    congr 1
    ext
    simp [Real.coe_toNNReal _ (sq_nonneg s)]
  have hset : MeasurableSet {x : ℝ | |x - m| ≤ z * s} := by
    refine measurableSet_le ?_ ?_ <;> fun_prop
  have h2 : (gaussianReal m (s ^ 2).toNNReal).real {x | |x - m| ≤ z * s}
      = (gaussianReal 0 1).real (Set.Ioi z ∪ Set.Iio (-z))ᶜ := by
    rw [h1, Measure.map_map (by fun_prop) (by fun_prop), measureReal_def,
      Measure.map_apply (by fun_prop) hset, measureReal_def]
    congr 2
    ext x
    simp only [Set.mem_preimage, Function.comp, Set.mem_ofPred_eq, Set.mem_compl_iff, Set.mem_union,
      Set.mem_Ioi, Set.mem_Iio, not_or, not_lt]
    rw [add_sub_cancel_right, abs_mul, abs_of_pos hs, mul_comm, mul_le_mul_iff_left₀ hs, abs_le]
    exact and_comm
  have h3 : (gaussianReal 0 1).real (Set.Iio (-z)) = (gaussianReal 0 1).real (Set.Ioi z) := by
    have h4 : (gaussianReal 0 1).map (fun x => -x) = gaussianReal 0 1 := by
      rw [gaussianReal_map_neg, neg_zero]
    conv_lhs => rw [← h4]
    rw [measureReal_def, Measure.map_apply (by fun_prop) measurableSet_Iio, measureReal_def]
    congr 2
    ext x
    simp
  rw [h2, probReal_compl_eq_one_sub (measurableSet_Ioi.union measurableSet_Iio),
    measureReal_union (Set.disjoint_left.mpr fun x h1 h2 => by
      simp only [Set.mem_Ioi, Set.mem_Iio] at h1 h2; linarith) measurableSet_Iio, h3]
  ring

section
variable {d : Ω → Dataset ℝ n p b} {o : FitOptions ℝ (ncols b p)} {f : Ω → Fit ℝ n p b}
  {φ : ℝ} {β : Vec ℝ (ncols b p)}
  (hfr : raw.freqs = none) (hw : ∀ i, 0 < varWt raw i) (hr : IsUnit (gram raw b).det)
  (hN : NormalResponses P Y (linPred raw b β) fun i => φ / varWt raw i)
  (hd : ∀ ω, (withResponses raw (Y ω)).finalize std b = some (d ω))
  (h : ∀ ω, regression env Family.linear.glm (d ω) o = .ok (f ω))
  (hl1 : o.l1 ≤ 0) (hl2 : o.l2 ≤ 0) (hs : ∀ ω, (f ω).score (f ω).result = 0)
include hfr hw hr hN hd h hl1 hl2 hs

/-- **C117**.  Each combination of the coefficients of an unpenalized Linear fit of normal responses is normal,
with the true value as mean and the variance `φ cᵀ F⁻¹ c`, where `F` is the reported information. -/
theorem C117_coef (c : Vec ℝ (ncols b p)) (ω₀ : Ω) :
    P.map (fun ω => c ⬝ᵥ (f ω).result) = gaussianReal (c ⬝ᵥ β)
      (φ * (c ⬝ᵥ ((Matrix.of ((f ω₀).fisher (f ω₀).result))⁻¹ *ᵥ c))).toNNReal := by
  have hwt : ∀ i, totalWt raw i = varWt raw i := fun i => by simp [totalWt, freq, hfr]
  set u := (gram raw b)⁻¹ *ᵥ c with hudef
  have hGu : gram raw b *ᵥ u = c := by rw [hudef, mulVec_mulVec, mul_nonsing_inv _ hr, one_mulVec]
  have hz : ∀ σ : Fin p → ℝ, ridgeMat o.l2 σ b = 0 := fun σ => by
    rw [ridgeMat, max_eq_right hl2]
    simp only [zero_mul, onSlopes_zero]
    exact diagonal_zero
  have hcurv : ∀ σ, ridgeCurv raw b o.l2 σ = gram raw b := fun σ => by rw [ridgeCurv, hz, add_zero]
  have hfish : Matrix.of ((f ω₀).fisher (f ω₀).result) = gram raw b := by
    obtain ⟨-, -, h3, -⟩ := C10_external (Family.lawfulAdj .linear) (hd ω₀) hl1 (h ω₀)
    rw [h3, lin_fisher, hz, add_zero]
    rfl
  have hu : ∀ ω, ridgeCurv raw b o.l2 (scale (d ω)) *ᵥ u = c := fun ω => by rw [hcurv, hGu]
  obtain ⟨hm, hv⟩ := ridge_moments hfr hw hN.random hd h hl1 hs hu
  have e : ∀ ω, c ⬝ᵥ (f ω).result = _ := fun ω => ridge_combination (hd ω) (h ω) hl1 (hs ω) (hu ω)
  have hR := hN.random
  have := hN.prob
  rw [hfish, ← hudef, dotProduct_comm c u]
  rw [hGu] at hm hv
  rw [← hm, ← hv]
  simp only [e]
  rw [hN.affine_law, hR.mean_affine,
    ← covariance_self (hR.memLp_affine _ _).aestronglyMeasurable.aemeasurable, hR.cov_affine]

/-- **C117**.  The interval of `z` standard errors around such a combination, with the standard error
`√(φ cᵀ F⁻¹ c)`, covers the true value with the probability that a standard normal variable is within `z`. -/
theorem C117_coverage (c : Vec ℝ (ncols b p)) (ω₀ : Ω) {s : ℝ} (hs0 : 0 < s)
    (hse : s ^ 2 = φ * (c ⬝ᵥ ((Matrix.of ((f ω₀).fisher (f ω₀).result))⁻¹ *ᵥ c))) {z : ℝ} (hz : 0 ≤ z) :
    P.real {ω | |c ⬝ᵥ (f ω).result - c ⬝ᵥ β| ≤ z * s} = 1 - 2 * realDists.normalSf z := by
  have hlaw := C117_coef hfr hw hr hN hd h hl1 hl2 hs c ω₀
  rw [← hse] at hlaw
  have hmeas : AEMeasurable (fun ω => c ⬝ᵥ (f ω).result) P := by
    refine AEMeasurable.of_map_ne_zero ?_
    rw [hlaw]
    exact (inferInstance : IsProbabilityMeasure (gaussianReal _ _)).ne_zero
  have hset : MeasurableSet {x : ℝ | |x - c ⬝ᵥ β| ≤ z * s} := by
    refine measurableSet_le ?_ ?_ <;> fun_prop
  have h1 : P.real {ω | |c ⬝ᵥ (f ω).result - c ⬝ᵥ β| ≤ z * s}
      = (gaussianReal (c ⬝ᵥ β) (s ^ 2).toNNReal).real {x | |x - c ⬝ᵥ β| ≤ z * s} := by
    rw [← hlaw, measureReal_def, measureReal_def, Measure.map_apply_of_aemeasurable hmeas hset]
    rfl
  rw [h1, gauss_within _ hs0 hz]
  rfl

/-- **C117**.  The coefficients and the residuals of such a fit are independent; so are the coefficients and the
deviance, and the coefficients and the estimated dispersion. -/
theorem C117_independent :
    IndepFun (fun ω => (f ω).result) (fun ω => (f ω).residResp) P ∧
    IndepFun (fun ω => (f ω).result) (fun ω => (f ω).deviance) P ∧
    ((ncols b p : ℝ) < effCount raw →
      IndepFun (fun ω => (f ω).result) (fun ω => (f ω).dispersion) P) := by
  have hwt : ∀ i, totalWt raw i = varWt raw i := fun i => by simp [totalWt, freq, hfr]
  have hw0 : ∀ i, totalWt raw i ≠ 0 := fun i => by rw [hwt]; exact (hw i).ne'
  set X := design b raw.x with hX
  set A := lsMat raw b with hA
  set M : Matrix (Fin n) (Fin n) ℝ := 1 - X * A with hM
  have hres : ∀ ω, (f ω).result = A *ᵥ Y ω - A *ᵥ offset raw := fun ω => by
    rw [result_eq_lsMat hr hd h hl1 hl2 hs, ← mulVec_sub]; rfl
  have hresid : ∀ ω, (f ω).residResp = M *ᵥ Y ω - M *ᵥ offset raw := fun ω => by
    funext i
    have h1 := (C51_linear (hd ω) (h ω) (fun i => (hw i).le) i).1
    rw [← mulVec_sub, hM, sub_mulVec, one_mulVec, ← mulVec_mulVec, mulVec_sub A, ← hres, h1]
    change Y ω i - (∑ j, design b raw.x i j * (f ω).result j + offset raw i)
      = Y ω i - offset raw i - ∑ j, X i j * (f ω).result j
    ring
  have hcov : A * diagonal (fun i => (totalWt raw i)⁻¹) * Mᵀ = 0 := by
    have hD : A * diagonal (fun i => (totalWt raw i)⁻¹) = (gram raw b)⁻¹ * Xᵀ := by
      have h1 : diagonal (totalWt raw) * diagonal (fun i => (totalWt raw i)⁻¹) = 1 := by
        rw [diagonal_mul_diagonal, ← diagonal_one]
        congr 1; funext i; exact mul_inv_cancel₀ (hw0 i)
      rw [hA, lsMat, Matrix.mul_assoc, h1, Matrix.mul_one]
    rw [hM, transpose_sub, transpose_one, Matrix.mul_sub, Matrix.mul_one, transpose_mul, ← Matrix.mul_assoc,
      lsMat_cov hr hw0, hD, sub_self]
  have hR := hN.random
  have hind : IndepFun (fun ω => A *ᵥ Y ω) (fun ω => M *ᵥ Y ω) P := by
    have hG := hN.joint.map (LinearMap.toContinuousLinearMap (A.mulVecLin.prod M.mulVecLin))
    have hG' : HasGaussianLaw (fun ω => (fun i => (A *ᵥ Y ω) i, fun j => (M *ᵥ Y ω) j)) P :=
      hG.congr (Filter.Eventually.of_forall fun ω => by simp)
    refine hG'.indepFun_of_covariance_eval fun k l => ?_
    have := hR.cov_affine 0 0 (A k) (M l)
    simp only [zero_add] at this
    change cov[fun ω => ∑ i, A k i * Y ω i, fun ω => ∑ i, M l i * Y ω i; P] = 0
    rw [this]
    have h2 := congrFun (congrFun hcov k) l
    rw [Matrix.mul_apply] at h2
    simp only [mul_diagonal, transpose_apply, Matrix.zero_apply] at h2
    have h3 : ∀ i, A k i * M l i * (φ / varWt raw i) = φ * (A k i * (totalWt raw i)⁻¹ * M l i) := fun i => by
      rw [hwt]; ring
    simp only [h3, ← Finset.mul_sum, h2, mul_zero]
  have h1 : IndepFun (fun ω => (f ω).result) (fun ω => (f ω).residResp) P := by
    have := hind.comp (φ := fun x => x - A *ᵥ offset raw) (ψ := fun x => x - M *ᵥ offset raw)
      (by fun_prop) (by fun_prop)
    simp only [hres, hresid]
    exact this
  refine ⟨h1, ?_⟩
  have hdev : ∀ ω, (f ω).deviance = ∑ i, varWt raw i * (f ω).residResp i ^ 2 := by
    intro ω
    obtain ⟨h1, h2⟩ := C36_linear (hd ω) (h ω)
    rw [h1, h2]
    refine Finset.sum_congr rfl fun i _ => ?_
    rw [(C51_linear (hd ω) (h ω) (fun i => (hw i).le) i).1, ← hwt]
    rfl
  have h2 : IndepFun (fun ω => (f ω).result) (fun ω => (f ω).deviance) P := by
    have := h1.comp (φ := id) (ψ := fun x : Vec ℝ n => ∑ i, varWt raw i * x i ^ 2) measurable_id (by fun_prop)
    simp only [hdev]
    exact this
  refine ⟨h2, fun hK => ?_⟩
  have hdisp : ∀ ω, (f ω).dispersion
      = (f ω).deviance / ((1 - ncols b p / effCount raw) * weightSum raw) := fun ω => by
    have := C42_free (hd ω) (h ω) rfl hK
    rw [this, C36_deviance (hd ω) (h ω)]
    rfl
  have := h2.comp (φ := id) (ψ := fun x : ℝ => x / ((1 - ncols b p / effCount raw) * weightSum raw))
    measurable_id (by fun_prop)
  simp only [hdisp]
  exact this

end

/-- Independent normal coordinates are normal responses. -/
theorem normal_responses (m : Fin n → ℝ) (v : Fin n → NNReal) :
    NormalResponses (Measure.pi fun i => gaussianReal (m i) (v i)) (fun ω => ω) m fun i => (v i : ℝ) := by
  have hmp : ∀ i, MeasurePreserving (Function.eval i)
      (Measure.pi fun i => gaussianReal (m i) (v i)) (gaussianReal (m i) (v i)) :=
    fun i => measurePreserving_eval _ i
  refine ⟨fun i => (v i).2, inferInstance, fun i => (hmp i).measurable.aemeasurable, fun i => ?_,
    iIndepFun_pi (X := fun _ x => x) fun i => aemeasurable_id⟩
  rw [Real.toNNReal_coe]
  exact (hmp i).map_eq

/-- Normal responses of variance 1 around the line `5 + x`, observed at 0, 1 and 2: the fitted slope is normal with
mean 1 and variance 1/2, and independent of the estimated dispersion. -/
example : ∃ (P : Measure (Fin 3 → ℝ)) (f : (Fin 3 → ℝ) → Fit ℝ 3 1 true),
    (∀ ω, ∃ d, (withResponses (smRaw none) ω).finalize false true = some d ∧
      regression (exactEnv 0 0) Family.linear.glm d (exOpts 0 0 none 1) = .ok (f ω)) ∧
    P.map (fun ω => ![0, 1] ⬝ᵥ (f ω).result) = gaussianReal 1 (1 / 2) ∧
    IndepFun (fun ω => (f ω).result) (fun ω => (f ω).dispersion) P := by
  have hw : ∀ i, 0 < varWt (smRaw none) i := fun i => by norm_num [varWt, smRaw]
  have hdet : (gram (smRaw none) true).det = 6 := by
    rw [Matrix.det_fin_two]
    simp [gram, totalWt, freq, varWt, smRaw, Fin.sum_univ_three, design]
    norm_num
  have hr : IsUnit (gram (smRaw none) true).det := by
    rw [isUnit_iff_ne_zero, hdet]; norm_num
  obtain ⟨d, f, h1, h2, h3⟩ := smRaw_fits _ hw hr
  have hG := normal_responses (linPred (smRaw none) true (![5, 1] : Vec ℝ (ncols true 1))) fun _ => 1
  have hv : (fun i : Fin 3 => ((1 : NNReal) : ℝ)) = fun i => (1 : ℝ) / varWt (smRaw none) i := by
    funext i; simp [varWt, smRaw]
  rw [hv] at hG
  obtain ⟨P, hP⟩ : ∃ P, P = Measure.pi fun i => gaussianReal
    (linPred (smRaw none) true (![5, 1] : Vec ℝ (ncols true 1)) i) 1 := ⟨_, rfl⟩
  rw [← hP] at hG
  refine ⟨P, f, fun ω => ⟨d ω, h1 ω, h2 ω⟩, ?_, ?_⟩
  · have hc := C117_coef rfl hw hr hG h1 h2 le_rfl le_rfl h3 ![0, 1] 0
    have hfish : Matrix.of ((f 0).fisher (f 0).result) = gram (smRaw none) true := by
      obtain ⟨-, -, h4, -⟩ := C10_external (Family.lawfulAdj .linear) (h1 0) le_rfl (h2 0)
      rw [h4, lin_fisher, ridgeMat]
      simp only [exOpts, max_self, zero_mul, onSlopes_zero]
      rw [show diagonal (fun _ : Fin (ncols true 1) => (0 : ℝ)) = 0 from diagonal_zero, add_zero]
      rfl
    rw [hfish] at hc
    have hq : (![0, 1] : Fin 2 → ℝ) ⬝ᵥ ((gram (smRaw none) true)⁻¹ *ᵥ ![0, 1]) = 1 / 2 := by
      rw [Matrix.inv_def, hdet]
      have := Matrix.adjugate_fin_two (gram (smRaw none) true)
      refine Eq.trans (congrArg (fun M : Matrix (Fin 2) (Fin 2) ℝ =>
        (![0, 1] : Fin 2 → ℝ) ⬝ᵥ ((Ring.inverse (6 : ℝ) • M) *ᵥ ![0, 1])) this) ?_
      simp [Matrix.mulVec, dotProduct, Fin.sum_univ_two, gram, totalWt, freq, varWt, smRaw,
        Fin.sum_univ_three, design]
      norm_num
    refine hc.trans ?_
    congr 1
    · simp [dotProduct, Fin.sum_univ_two, ncols]
    · rw [one_mul]
      refine Eq.trans (congrArg Real.toNNReal hq) ?_
      ext; norm_num
  · refine (C117_independent rfl hw hr hG h1 h2 le_rfl le_rfl h3).2.2 ?_
    norm_num [effCount, freq, varWt, smRaw, ncols]

end GLM
