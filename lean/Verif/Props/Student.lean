/-
  C118: the exact laws of the deviance, of `wald_z` and of `pvalue_wald` for Linear fits of normal responses.
-/
import Verif.Lemmas.Cochran
import Verif.Props.PValues
import Verif.Props.ExactWald

open MeasureTheory ProbabilityTheory

namespace GLM
open Spec
open Matrix hiding gram
variable {n p : ℕ} {b : Bool} {env env' : Env ℝ} {raw : Dataset ℝ n p false} {std : Bool}
  {Ω : Type*} [MeasurableSpace Ω] {P : Measure Ω} {Y : Ω → Vec ℝ n}

theorem studentLaw_singleton {ν : ℝ} (h : 0 < ν) (x : ℝ) : studentLaw ν {x} = 0 := by
  have := chi2Law_prob h
  unfold studentLaw
  have hm : MeasurableSet ((fun q : ℝ × ℝ => q.1 / √(q.2 / ν)) ⁻¹' {x}) :=
    measurable_student ν (measurableSet_singleton x)
  rw [Measure.map_apply (measurable_student ν) (measurableSet_singleton x),
    Measure.prod_apply_symm hm, lintegral_eq_zero_iff (measurable_measure_prodMk_right hm)]
  filter_upwards [chi2Law_ae_pos ν] with v hv
  have hv' : √(v / ν) ≠ 0 := by positivity
  have e : (fun u : ℝ => (u, v)) ⁻¹' ((fun q : ℝ × ℝ => q.1 / √(q.2 / ν)) ⁻¹' {x}) = {x * √(v / ν)} := by
    ext u
    simp only [Set.mem_preimage, Set.mem_singleton_iff]
    rw [div_eq_iff hv']
  rw [e]
  simp

/-- The two-sided tail probability of a symmetric variable without atoms is uniform. -/
theorem two_sided_uniform (μ : Measure ℝ) [IsProbabilityMeasure μ] (hs : μ.map (fun x => -x) = μ)
    (ha : ∀ x, μ {x} = 0) {α : ℝ} (h0 : 0 < α) (h1 : α < 1) :
    μ.real {t | 2 * μ.real (Set.Ioi |t|) ≤ α} = α := by
  have hm : Measurable fun t : ℝ => -|t| := by fun_prop
  have hprob : IsProbabilityMeasure (μ.map fun t => -|t|) := Measure.isProbabilityMeasure_map hm.aemeasurable
  have hcdf : ∀ x : ℝ, (μ.map fun t => -|t|).real (Set.Iic (-|x|)) = 2 * μ.real (Set.Ioi |x|) := by
    intro x
    rw [measureReal_def, Measure.map_apply hm measurableSet_Iic, ← measureReal_def]
    have hneg : μ.real (Set.Iio (-|x|)) = μ.real (Set.Ioi |x|) := by
      conv_lhs => rw [← hs]
      rw [measureReal_def, Measure.map_apply (by fun_prop) measurableSet_Iio, measureReal_def]
      congr 2
      ext y; simp
    rw [two_mul]
    nth_rewrite 2 [← hneg]
    rw [← measureReal_union (Set.disjoint_left.mpr fun y h1 h2 => by
      simp only [Set.mem_Ioi, Set.mem_Iio] at h1 h2; linarith [abs_nonneg x]) measurableSet_Iio]
    rw [measureReal_def, measureReal_def]
    congr 1
    refine measure_congr ?_
    have hne : ∀ c : ℝ, ∀ᵐ y ∂μ, y ≠ c := fun c => by
      rw [ae_iff]; simpa using ha c
    filter_upwards [hne |x|, hne (-|x|)] with y hy1 hy2
    apply propext
    change -|y| ≤ -|x| ↔ |x| < y ∨ y < -|x|
    rw [neg_le_neg_iff, le_abs]
    constructor
    · rintro (h | h)
      · exact Or.inl (lt_of_le_of_ne h hy1.symm)
      · exact Or.inr (lt_of_le_of_ne (by linarith) hy2)
    · rintro (h | h)
      · exact Or.inl h.le
      · exact Or.inr (by linarith)
  have hatom : ∀ x, (μ.map fun t => -|t|) {x} = 0 := by
    intro x
    rw [Measure.map_apply hm (measurableSet_singleton x)]
    refine measure_mono_null (t := {x} ∪ {-x}) (fun y hy => ?_) (measure_union_null (ha _) (ha _))
    have hy : -|y| = x := hy
    rcases abs_cases y with ⟨h, -⟩ | ⟨h, -⟩ <;> rw [h] at hy
    · exact Or.inr (by rw [Set.mem_singleton_iff]; linarith)
    · exact Or.inl (by rw [Set.mem_singleton_iff]; linarith)
  have hint := integral_transform (μ.map fun t => -|t|) hatom h0 h1
  have hset : MeasurableSet {y | (μ.map fun t => -|t|).real (Set.Iic y) ≤ α} :=
    (isClosed_le (cdfReal_continuous _ hatom) continuous_const).measurableSet
  rw [measureReal_def, Measure.map_apply hm hset, ← measureReal_def] at hint
  refine Eq.trans ?_ hint
  congr 1
  ext t
  simp only [Set.mem_preimage, Set.mem_ofPred_eq, hcdf]

/-- The projection onto the residuals of a regression on the columns of `Z`. -/
theorem residual_projection {k : ℕ} (Z : Matrix (Fin n) (Fin k) ℝ) (hr : IsUnit (Zᵀ * Z).det) :
    (1 - Z * (Zᵀ * Z)⁻¹ * Zᵀ)ᵀ = 1 - Z * (Zᵀ * Z)⁻¹ * Zᵀ ∧
    (1 - Z * (Zᵀ * Z)⁻¹ * Zᵀ) * (1 - Z * (Zᵀ * Z)⁻¹ * Zᵀ) = 1 - Z * (Zᵀ * Z)⁻¹ * Zᵀ ∧
    (1 - Z * (Zᵀ * Z)⁻¹ * Zᵀ).trace = (n : ℝ) - (k : ℝ) := by
  have hHH : Z * (Zᵀ * Z)⁻¹ * Zᵀ * (Z * (Zᵀ * Z)⁻¹ * Zᵀ) = Z * (Zᵀ * Z)⁻¹ * Zᵀ := by
    calc Z * (Zᵀ * Z)⁻¹ * Zᵀ * (Z * (Zᵀ * Z)⁻¹ * Zᵀ)
        = Z * ((Zᵀ * Z)⁻¹ * (Zᵀ * Z)) * (Zᵀ * Z)⁻¹ * Zᵀ := by simp only [Matrix.mul_assoc]
      _ = _ := by rw [nonsing_inv_mul _ hr, Matrix.mul_one]
  refine ⟨?_, ?_, ?_⟩
  · rw [transpose_sub, transpose_one, transpose_mul, transpose_mul, transpose_transpose,
      transpose_nonsing_inv, transpose_mul, transpose_transpose, Matrix.mul_assoc]
  · generalize Z * (Zᵀ * Z)⁻¹ * Zᵀ = H at hHH
    rw [Matrix.sub_mul, Matrix.mul_sub, Matrix.mul_sub, hHH]
    simp
  · rw [trace_sub, trace_one, Matrix.mul_assoc, trace_mul_comm, Matrix.mul_assoc,
      nonsing_inv_mul _ hr, trace_one]
    simp

/-- The reciprocal curvature of a single coefficient is positive. -/
theorem inv_gram_pos (hfr : raw.freqs = none) (hw : ∀ i, 0 < varWt raw i)
    (hr : IsUnit (gram raw b).det) (j : Fin (ncols b p)) : 0 < (gram raw b)⁻¹ j j := by
  have hwt : ∀ i, totalWt raw i = varWt raw i := fun i => by simp [totalWt, freq, hfr]
  obtain ⟨u, hu⟩ : ∃ u, u = (gram raw b)⁻¹ *ᵥ Pi.single j 1 := ⟨_, rfl⟩
  have hGu : gram raw b *ᵥ u = Pi.single j 1 := by
    rw [hu, mulVec_mulVec, mul_nonsing_inv _ hr, one_mulVec]
  have huj : u j = (gram raw b)⁻¹ j j := by rw [hu, mulVec_single_one]; rfl
  have hq := gram_quad_apply (raw := raw) u
  rw [hGu, dotProduct_single_one, huj] at hq
  refine lt_of_le_of_ne ?_ fun h0 => ?_
  · rw [hq]
    exact Finset.sum_nonneg fun i _ => mul_nonneg (by rw [hwt]; exact (hw i).le) (sq_nonneg _)
  · rw [← h0, eq_comm, Finset.sum_eq_zero_iff_of_nonneg
      (fun i _ => mul_nonneg (by rw [hwt]; exact (hw i).le) (sq_nonneg _))] at hq
    have hXu : design b raw.x *ᵥ u = 0 := by
      funext i
      have := hq i (Finset.mem_univ i)
      rw [hwt] at this
      simpa [(hw i).ne'] using this
    have : gram raw b *ᵥ u = 0 := by
      rw [gram_eq, ← mulVec_mulVec, hXu, mulVec_zero]
    rw [this] at hGu
    have := congrFun hGu j
    simp at this

section
variable {d : Ω → Dataset ℝ n p b} {o : FitOptions ℝ (ncols b p)} {f : Ω → Fit ℝ n p b}
  {φ : ℝ} {β : Vec ℝ (ncols b p)}
  (hfr : raw.freqs = none) (hw : ∀ i, 0 < varWt raw i) (hr : IsUnit (gram raw b).det) (hφ : 0 < φ)
  (hN : NormalResponses P Y (linPred raw b β) fun i => φ / varWt raw i)
  (hd : ∀ ω, (withResponses raw (Y ω)).finalize std b = some (d ω))
  (h : ∀ ω, regression env Family.linear.glm (d ω) o = .ok (f ω))
  (hl1 : o.l1 ≤ 0) (hl2 : o.l2 ≤ 0) (hs : ∀ ω, (f ω).score (f ω).result = 0)
  (hK : ncols b p < n)
include hfr hw hr hφ hN hd h hl1 hl2 hs hK

/-- **C118**.  The deviance of an unpenalized Linear fit of normal responses, divided by the true dispersion, is
chi-squared with as many degrees of freedom as there are more observations than coefficients. -/
theorem C118_deviance : P.map (fun ω => (f ω).deviance / φ) = chi2Law (n - ncols b p) := by
  have hwt : ∀ i, totalWt raw i = varWt raw i := fun i => by simp [totalWt, freq, hfr]
  set X := design b raw.x with hX
  set G := gram raw b with hG
  obtain ⟨s, hsdef⟩ : ∃ s : Fin n → ℝ, s = fun i => √(varWt raw i) := ⟨_, rfl⟩
  have hss : diagonal s * diagonal s = diagonal (totalWt raw) := by
    rw [diagonal_mul_diagonal]
    congr 1; funext i
    rw [hsdef, hwt]
    exact Real.mul_self_sqrt (hw i).le
  obtain ⟨Z, hZ⟩ : ∃ Z : Matrix (Fin n) (Fin (ncols b p)) ℝ, Z = diagonal s * X := ⟨_, rfl⟩
  have hGe : G = Zᵀ * Z := by
    rw [hZ, hG, gram_eq, transpose_mul, diagonal_transpose, ← hss]
    simp only [Matrix.mul_assoc]
    rfl
  obtain ⟨hsym, hid, htr⟩ := residual_projection Z (by rw [← hGe]; exact hr)
  rw [← hGe] at hsym hid htr
  obtain ⟨B, hB⟩ : ∃ B : Matrix (Fin n) (Fin n) ℝ, B = 1 - Z * G⁻¹ * Zᵀ := ⟨_, rfl⟩
  rw [← hB] at hsym hid htr
  rw [← Nat.cast_sub hK.le] at htr
  have key := cochran (hN.standardize fun i => div_pos hφ (hw i)) hsym hid (by omega) htr
  rw [Nat.cast_sub hK.le] at key
  rw [← key]
  congr 1
  funext ω
  obtain ⟨q, hq⟩ : ∃ q : Vec ℝ n, q = fun i => (√(φ / varWt raw i))⁻¹ * (Y ω i - linPred raw b β i) := ⟨_, rfl⟩
  rw [← hq]
  have hres := result_eq_lsMat hr hd h hl1 hl2 hs ω
  have hBr : ∀ i, (B *ᵥ q) i = (√φ)⁻¹ * (s i * (f ω).residResp i) := by
    intro i
    obtain ⟨e, he⟩ : ∃ e : Vec ℝ n, e = fun i => Y ω i - linPred raw b β i := ⟨_, rfl⟩
    have hqe : q = (√φ)⁻¹ • (diagonal s *ᵥ e) := by
      funext i
      rw [hq, he, hsdef, Pi.smul_apply, mulVec_diagonal, smul_eq_mul]
      beta_reduce
      rw [Real.sqrt_div hφ.le]
      have h3 : √φ ≠ 0 := (Real.sqrt_pos.mpr hφ).ne'
      have h4 : √(varWt raw i) ≠ 0 := (Real.sqrt_pos.mpr (hw i)).ne'
      field_simp
    have hAe : lsMat raw b *ᵥ e = (f ω).result - β := by
      have h1 : e = (fun i => Y ω i - offset raw i) - X *ᵥ β := by
        rw [he]; funext i
        simp only [linPred, Pi.sub_apply]
        change Y ω i - (∑ j, X i j * β j + offset raw i) = Y ω i - offset raw i - ∑ j, X i j * β j
        ring
      rw [h1, mulVec_sub, ← hres, mulVec_mulVec, lsMat_design hr, one_mulVec]
    have hH : Z * G⁻¹ * Zᵀ * diagonal s = Z * lsMat raw b := by
      rw [lsMat, ← hss]
      conv_lhs => rw [hZ, transpose_mul, diagonal_transpose, ← hZ]
      simp only [Matrix.mul_assoc]
      rfl
    have hBe : (B *ᵥ (diagonal s *ᵥ e)) i = s i * (f ω).residResp i := by
      rw [hB, sub_mulVec, one_mulVec, mulVec_mulVec, hH, ← mulVec_mulVec, hAe, hZ, ← mulVec_mulVec,
        Pi.sub_apply, mulVec_diagonal, mulVec_diagonal, mulVec_sub,
        (C51_linear (hd ω) (h ω) (fun i => (hw i).le) i).1, he]
      change s i * (Y ω i - (∑ j, X i j * β j + offset raw i))
        - s i * (∑ j, X i j * (f ω).result j - ∑ j, X i j * β j)
        = s i * (Y ω i - (∑ j, X i j * (f ω).result j + offset raw i))
      ring
    rw [hqe, mulVec_smul, Pi.smul_apply, hBe, smul_eq_mul]
  have hdev : (f ω).deviance = ∑ i, varWt raw i * (f ω).residResp i ^ 2 := by
    obtain ⟨h1, h2⟩ := C36_linear (hd ω) (h ω)
    rw [h1, h2]
    refine Finset.sum_congr rfl fun i _ => ?_
    rw [(C51_linear (hd ω) (h ω) (fun i => (hw i).le) i).1, ← hwt]
    rfl
  rw [hdev, Finset.sum_div]
  refine Finset.sum_congr rfl fun i _ => ?_
  rw [hBr, hsdef]
  have h1 : √φ * √φ = φ := Real.mul_self_sqrt hφ.le
  have h2 : √(varWt raw i) * √(varWt raw i) = varWt raw i := Real.mul_self_sqrt (hw i).le
  have h3 : ∀ x y r : ℝ, x⁻¹ * (y * r) * (x⁻¹ * (y * r)) = (x * x)⁻¹ * (y * y * r ^ 2) := fun x y r => by
    rw [mul_inv]; ring
  rw [h3, h1, h2, div_eq_inv_mul]

/-- **C118**.  With variance weights, the `wald_z` of a coefficient whose true value is zero follows Student's law
with `n - K` degrees of freedom up to a factor: the dispersion is estimated with the divisor
`(1 - K/n_eff) ∑ w` instead of `n - K`. -/
theorem C118_wald_weighted (hKe : (ncols b p : ℝ) < effCount raw) (he : env'.Exact) {z : Ω → Vec ℝ (ncols b p)}
    (hz : ∀ ω, (f ω).waldZ env' = .ok (z ω)) {j : Fin (ncols b p)} (hj : β j = 0) :
    P.map (fun ω => √((n - ncols b p) / ((1 - ncols b p / effCount raw) * weightSum raw)) * z ω j)
      = studentLaw (n - ncols b p) := by
  have hν : (0 : ℝ) < n - ncols b p := by
    have : (ncols b p : ℝ) < n := by exact_mod_cast hK
    linarith
  obtain ⟨κ, hκ⟩ : ∃ κ, κ = (1 - ncols b p / effCount raw) * weightSum raw := ⟨_, rfl⟩
  have hκ0 : 0 < κ := by
    have hn : 0 < n := by omega
    have h1 : 0 < effCount raw := lt_of_le_of_lt (Nat.cast_nonneg _) hKe
    rw [hκ]
    refine mul_pos (by rw [sub_pos, div_lt_one h1]; exact hKe) ?_
    refine Finset.sum_pos (fun i _ => ?_) ⟨⟨0, hn⟩, Finset.mem_univ _⟩
    simp only [totalWt, freq, hfr]
    simpa using hw i
  rw [← hκ]
  have := hN.prob
  have hg := inv_gram_pos hfr hw hr j
  have hfish : ∀ ω, Matrix.of ((f ω).fisher (f ω).result) = gram raw b := fun ω => by
    obtain ⟨-, -, h3, -⟩ := C10_external (Family.lawfulAdj .linear) (hd ω) hl1 (h ω)
    rw [h3, lin_fisher, ridgeMat, max_eq_right hl2]
    simp only [zero_mul, onSlopes_zero]
    rw [show diagonal (fun _ : Fin (ncols b p) => (0 : ℝ)) = 0 from diagonal_zero, add_zero]
    rfl
  obtain ⟨ω₀⟩ : Nonempty Ω := P.nonempty_of_neZero
  -- the standardized coefficient
  have hlaw := C117_coef hfr hw hr hN hd h hl1 hl2 hs (Pi.single j 1) ω₀
  rw [hfish, mulVec_single_one] at hlaw
  simp only [single_one_dotProduct, hj] at hlaw
  have hmj : AEMeasurable (fun ω => (f ω).result j) P := by
    refine AEMeasurable.of_map_ne_zero ?_
    rw [hlaw]
    exact (inferInstance : IsProbabilityMeasure (gaussianReal _ _)).ne_zero
  have hpos : 0 < φ * (gram raw b)⁻¹ j j := mul_pos hφ hg
  have hN1 : P.map (fun ω => (√(φ * (gram raw b)⁻¹ j j))⁻¹ * (f ω).result j) = gaussianReal 0 1 := by
    have e : P.map (fun ω => (√(φ * (gram raw b)⁻¹ j j))⁻¹ * (f ω).result j)
        = (P.map fun ω => (f ω).result j).map ((√(φ * (gram raw b)⁻¹ j j))⁻¹ * ·) := by
      rw [AEMeasurable.map_map_of_aemeasurable (by fun_prop) hmj]
      rfl
    rw [e, hlaw, gaussianReal_map_const_mul, mul_zero]
    congr 1
    ext
    have h1 : φ * (gram raw b)⁻¹ j j ≠ 0 := hpos.ne'
    change (√(φ * (gram raw b)⁻¹ j j))⁻¹ ^ 2 * ((φ * (gram raw b)⁻¹ j j).toNNReal : ℝ) = 1
    rw [Real.coe_toNNReal _ hpos.le, inv_pow, Real.sq_sqrt hpos.le, inv_mul_cancel₀ h1]
  have hV := C118_deviance hfr hw hr hφ hN hd h hl1 hl2 hs hK
  have hmV : AEMeasurable (fun ω => (f ω).deviance / φ) P := by
    refine AEMeasurable.of_map_ne_zero ?_
    rw [hV]
    exact (chi2Law_prob hν).ne_zero
  have hind : IndepFun (fun ω => (√(φ * (gram raw b)⁻¹ j j))⁻¹ * (f ω).result j)
      (fun ω => (f ω).deviance / φ) P :=
    (C117_independent hfr hw hr hN hd h hl1 hl2 hs).2.1.comp
      (φ := fun x : Vec ℝ (ncols b p) => (√(φ * (gram raw b)⁻¹ j j))⁻¹ * x j) (ψ := fun x : ℝ => x / φ)
      (by fun_prop) (by fun_prop)
  have hjoint := (indepFun_iff_map_prod_eq_prod_map_map (hmj.const_mul _) hmV).mp hind
  rw [hN1, hV] at hjoint
  rw [studentLaw, ← hjoint, AEMeasurable.map_map_of_aemeasurable
    (measurable_student _).aemeasurable ((hmj.const_mul _).prodMk hmV)]
  congr 1
  funext ω
  have hzω := hz ω
  unfold Fit.waldZ at hzω
  cases hc : (f ω).covariance env' with
  | error e => rw [hc] at hzω; cases hzω
  | ok C =>
    rw [hc] at hzω
    have hzj : z ω j = (f ω).result j / √(C j j) := (congrFun (Except.ok.inj hzω) j).symm
    have hC := (C41_unregularized (Family.lawfulAdj .linear) (hd ω) (h ω) he hl1 hl2).1 C hc
    have hCj : C j j = (f ω).dispersion * (gram raw b)⁻¹ j j := by
      have := congrFun (congrFun hC j) j
      rw [hfish] at this
      exact this
    have hdisp : (f ω).dispersion = (f ω).deviance / κ := by
      have h1 := C42_free (hd ω) (h ω) rfl hKe
      rw [h1, C36_deviance (hd ω) (h ω), hκ]
      rfl
    rw [hzj]
    change √((n - ncols b p) / κ) * ((f ω).result j / √(C j j)) = (√(φ * (gram raw b)⁻¹ j j))⁻¹ * (f ω).result j
      / √((f ω).deviance / φ / (n - ncols b p))
    have hsq : C j j = (f ω).deviance / φ / (n - ncols b p) * (φ * (gram raw b)⁻¹ j j)
        * ((n - ncols b p) / κ) := by
      rw [hCj, hdisp]
      field_simp
    have hf0 : √((n - ncols b p) / κ) ≠ 0 := (Real.sqrt_pos.mpr (div_pos hν hκ0)).ne'
    rw [hsq, Real.sqrt_mul' _ (div_pos hν hκ0).le, Real.sqrt_mul' _ hpos.le]
    rw [div_eq_mul_inv, div_eq_mul_inv, mul_inv, mul_inv]
    field_simp

/-- **C118**.  Without variance weights, the `wald_z` of a coefficient whose true value is zero follows Student's
law with `n - K` degrees of freedom. -/
theorem C118_wald (hnw : raw.weights = none) (he : env'.Exact) {z : Ω → Vec ℝ (ncols b p)}
    (hz : ∀ ω, (f ω).waldZ env' = .ok (z ω)) {j : Fin (ncols b p)} (hj : β j = 0) :
    P.map (fun ω => z ω j) = studentLaw (n - ncols b p) := by
  have hν : (0 : ℝ) < n - ncols b p := by
    have : (ncols b p : ℝ) < n := by exact_mod_cast hK
    linarith
  have hn : (n : ℝ) ≠ 0 := by
    have : 0 < n := by omega
    exact_mod_cast this.ne'
  have hvw : ∀ i, varWt raw i = 1 := fun i => by simp [varWt, hnw]
  have hfq : ∀ i, freq raw i = 1 := fun i => by simp [freq, hfr]
  have heff : effCount raw = n := by
    simp only [effCount, hvw, hfq]
    simp
    field_simp
  have hsum : weightSum raw = n := by simp [weightSum, totalWt, hvw, hfq]
  have key := C118_wald_weighted hfr hw hr hφ hN hd h hl1 hl2 hs hK (by rw [heff]; linarith) he hz hj
  have h1 : ((n : ℝ) - ncols b p) / ((1 - ncols b p / effCount raw) * weightSum raw) = 1 := by
    rw [heff, hsum, sub_mul, one_mul, div_mul_cancel₀ _ hn, div_self hν.ne']
  rw [h1] at key
  simpa using key

/-- **C118**.  Without variance weights, the `pvalue_wald` of a coefficient whose true value is zero is uniform: a
test of level `α` rejects with probability exactly `α`. -/
theorem C118_pvalue (hnw : raw.weights = none) (he : env'.Exact) {pv : Ω → Vec ℝ (ncols b p)}
    (hpv : ∀ ω, (f ω).pvalueWald realDists env' = .ok (pv ω)) {j : Fin (ncols b p)} (hj : β j = 0)
    {α : ℝ} (h0 : 0 < α) (h1 : α < 1) : P.real {ω | pv ω j ≤ α} = α := by
  have hν : (0 : ℝ) < n - ncols b p := by
    have : (ncols b p : ℝ) < n := by exact_mod_cast hK
    linarith
  have hobs : obsCount raw = n := by simp [obsCount, freq, hfr]
  have key : ∀ ω, ∃ z, (f ω).waldZ env' = .ok z ∧
      ∀ j, pv ω j = 2 * (studentLaw (n - ncols b p)).real (Set.Ioi |z j|) := by
    intro ω
    cases hz : (f ω).waldZ env' with
    | error e => have := hpv ω; rw [pvalueWald_error hz] at this; cases this
    | ok z =>
      refine ⟨z, rfl, fun j => ?_⟩
      have hdisp : (f ω).g.dispersed = .free := by
        rw [(regression_ofRaw (hd ω) (h ω)).1]; rfl
      have hndf : (f ω).ndf = n - ncols b p := by
        rw [(C47_ndf (hd ω) (h ω)).2.2, show obsCount (withResponses raw (Y ω)) = n from hobs]
        cases b <;> simp [ncols]
      have hp := hpv ω
      rw [pvalueWald_free hz hdisp, hndf] at hp
      simp only [realDists, if_pos hν] at hp
      exact (congrFun (Outcome.ok.inj hp) j).symm
  choose z hz hpz using key
  have hT := C118_wald hfr hw hr hφ hN hd h hl1 hl2 hs hK hnw he hz hj
  have := studentLaw_prob hν
  have hm : AEMeasurable (fun ω => z ω j) P := by
    refine AEMeasurable.of_map_ne_zero ?_
    rw [hT]
    exact (studentLaw_prob hν).ne_zero
  have hu := two_sided_uniform (studentLaw (n - ncols b p)) (studentLaw_neg hν) (studentLaw_singleton hν) h0 h1
  refine Eq.trans ?_ hu
  have hset : MeasurableSet {t : ℝ | 2 * (studentLaw (n - ncols b p)).real (Set.Ioi |t|) ≤ α} := by
    have ha : Measurable fun t : ℝ => (studentLaw (n - ncols b p)).real (Set.Ioi t) :=
      (sf_anti _).measurable
    exact measurableSet_le ((ha.comp (by fun_prop : Measurable fun t : ℝ => |t|)).const_mul 2) measurable_const
  simp only [hpz]
  rw [measureReal_def, measureReal_def]
  congr 1
  conv_rhs => arg 1; rw [← hT]
  rw [Measure.map_apply_of_aemeasurable hm hset]
  rfl

/-- **C118**.  The same holds of `pvalue_exact`, which fits the model without the column again: almost surely it
succeeds and is the same number. -/
theorem C118_exact (hnw : raw.weights = none) (he : env.Exact) (heps : env.eps = 0) (hmax : 1 ≤ o.maxIter)
    {j : Fin (ncols b p)} (hj : β j = 0) {α : ℝ} (h0 : 0 < α) (h1 : α < 1) :
    P.real {ω | ∃ v, (f ω).pvalueExact realDists env = .ok v ∧ v j ≤ α} = α := by
  have hν : (0 : ℝ) < n - ncols b p := by
    have : (ncols b p : ℝ) < n := by exact_mod_cast hK
    linarith
  have hobs : obsCount raw = n := by simp [obsCount, freq, hfr]
  have hndf : ∀ ω, 0 < (f ω).ndf := fun ω => by
    rw [(C47_ndf (hd ω) (h ω)).2.2, show obsCount (withResponses raw (Y ω)) = n from hobs]
    refine lt_of_lt_of_eq hν ?_
    cases b <;> simp [ncols]
  have hpv : ∀ ω, ∃ pv, (f ω).pvalueWald realDists env = .ok pv := by
    intro ω
    obtain ⟨C, hC⟩ := (C41_unregularized (Family.lawfulAdj .linear) (hd ω) (h ω) he hl1 hl2).2.mpr
      (by rw [lin_fisher]; exact hr)
    have hdisp : (f ω).g.dispersed = .free := by rw [(regression_ofRaw (hd ω) (h ω)).1]; rfl
    exact (C64_wald_free (env := env) realDists_lawful hdisp).1.mpr
      ⟨⟨_, by unfold Fit.waldZ; rw [hC]; rfl⟩, hndf ω⟩
  choose pv hpv using hpv
  have hset : ∀ ω, LinSetting env (withResponses raw (Y ω)) std (d ω) o (f ω).result := by
    intro ω
    have hwt : ∀ i, 0 ≤ totalWt (withResponses raw (Y ω)) i := fun i => by
      change 0 ≤ totalWt raw i
      simpa [totalWt, freq, hfr] using (hw i).le
    refine ⟨he, hd ω, hl1, hl2, hwt, hr, (isLeastSquares_iff hwt _).mpr ?_⟩
    exact (lin_score_zero_iff (raw := withResponses raw (Y ω)) hr).mpr (result_eq_lsMat hr hd h hl1 hl2 hs ω)
  have hV := C118_deviance hfr hw hr hφ hN hd h hl1 hl2 hs hK
  have hmV : AEMeasurable (fun ω => (f ω).deviance / φ) P := by
    refine AEMeasurable.of_map_ne_zero ?_
    rw [hV]
    exact (chi2Law_prob hν).ne_zero
  have hpos : ∀ᵐ ω ∂P, 0 < (f ω).deviance / φ := by
    refine ae_of_ae_map hmV ?_
    rw [hV]
    exact chi2Law_ae_pos _
  refine Eq.trans ?_ (C118_pvalue hfr hw hr hφ hN hd h hl1 hl2 hs hK hnw he hpv hj h0 h1)
  rw [measureReal_def, measureReal_def]
  congr 1
  refine measure_congr ?_
  filter_upwards [hpos] with ω hω
  have hdisp : 0 < (f ω).dispersion := by
    have h2 := C42_no_weights (hd ω) (h ω) rfl hnw
      (by rw [show obsCount (withResponses raw (Y ω)) = n from hobs]; linarith)
    have h3 := C36_deviance (hd ω) (h ω)
    rw [h2, show obsCount (withResponses raw (Y ω)) = n from hobs]
    refine div_pos ?_ hν
    have h4 : 0 < (f ω).deviance := by
      have := mul_pos hω hφ
      rwa [div_mul_cancel₀ _ hφ.ne'] at this
    rw [h3] at h4
    exact h4
  obtain ⟨v, hv1, hv2⟩ := C65_exact_eq_wald (hset ω) heps hmax (h ω) hdisp (hndf ω) realDists_lawful
    realDists_square
  have e2 : pv ω = v := Outcome.ok.inj ((hpv ω).symm.trans hv2)
  apply propext
  change (∃ v, (f ω).pvalueExact realDists env = .ok v ∧ v j ≤ α) ↔ pv ω j ≤ α
  rw [e2, hv1]
  exact ⟨fun ⟨v', h2, h3⟩ => by rw [Outcome.ok.inj h2]; exact h3, fun h2 => ⟨v, rfl, h2⟩⟩

end

/-- Normal responses around 5 that do not depend on the feature, observed at 0, 1 and 2: the fit reports p-values,
and that of the slope is at most 5% with probability 5%. -/
example : ∃ (P : Measure (Fin 3 → ℝ)) (f : (Fin 3 → ℝ) → Fit ℝ 3 1 true) (pv : (Fin 3 → ℝ) → Vec ℝ (ncols true 1)),
    (∀ ω, ∃ d, (withResponses (smRaw none) ω).finalize false true = some d ∧
      regression (exactEnv 0 0) Family.linear.glm d (exOpts 0 0 none 1) = .ok (f ω) ∧
      (f ω).pvalueWald realDists (exactEnv 0 0) = .ok (pv ω)) ∧
    P.map (fun ω => (f ω).deviance / 1) = chi2Law 1 ∧
    P.real {ω | pv ω (1 : Fin 2) ≤ 1 / 20} = 1 / 20 ∧
    P.real {ω | ∃ v, (f ω).pvalueExact realDists (exactEnv 0 0) = .ok v ∧ v (1 : Fin 2) ≤ 1 / 20} = 1 / 20 := by
  have he : (exactEnv 0 0).Exact := exactEnv_exact le_rfl 0
  have hw : ∀ i, 0 < varWt (smRaw none) i := fun i => by norm_num [varWt, smRaw]
  have hr : IsUnit (gram (smRaw none) true).det := by
    rw [isUnit_iff_ne_zero, Matrix.det_fin_two]
    simp [gram, totalWt, freq, varWt, smRaw, Fin.sum_univ_three, design]
    norm_num
  obtain ⟨d, f, h1, h2, h3⟩ := smRaw_fits _ hw hr
  have hG := normal_responses (linPred (smRaw none) true (![5, 0] : Vec ℝ (ncols true 1))) fun _ => 1
  have hv : (fun i : Fin 3 => ((1 : NNReal) : ℝ)) = fun i => (1 : ℝ) / varWt (smRaw none) i := by
    funext i; simp [varWt, smRaw]
  rw [hv] at hG
  obtain ⟨P, hP⟩ : ∃ P, P = Measure.pi fun i => gaussianReal
    (linPred (smRaw none) true (![5, 0] : Vec ℝ (ncols true 1)) i) 1 := ⟨_, rfl⟩
  rw [← hP] at hG
  have hpv : ∀ ω, ∃ pv, (f ω).pvalueWald realDists (exactEnv 0 0) = .ok pv := by
    intro ω
    obtain ⟨C, hC⟩ := (C41_unregularized (Family.lawfulAdj .linear) (h1 ω) (h2 ω) he le_rfl le_rfl).2.mpr
      (by rw [lin_fisher]; exact hr)
    have hdisp : (f ω).g.dispersed = .free := by rw [(regression_ofRaw (h1 ω) (h2 ω)).1]; rfl
    refine (C64_wald_free (env := exactEnv 0 0) realDists_lawful hdisp).1.mpr
      ⟨⟨_, by unfold Fit.waldZ; rw [hC]; rfl⟩, ?_⟩
    rw [(C47_ndf (h1 ω) (h2 ω)).2.2]
    norm_num [obsCount, freq, withResponses, smRaw]
  choose pv hpv using hpv
  refine ⟨P, f, pv, fun ω => ⟨d ω, h1 ω, h2 ω, hpv ω⟩, ?_, ?_, ?_⟩
  · have := C118_deviance rfl hw hr one_pos hG h1 h2 le_rfl le_rfl h3 (by norm_num [ncols])
    refine this.trans ?_
    norm_num [ncols]
  · exact C118_pvalue rfl hw hr one_pos hG h1 h2 le_rfl le_rfl h3 (by norm_num [ncols]) rfl he hpv
      (j := (1 : Fin 2)) rfl (by norm_num) (by norm_num)
  · exact C118_exact rfl hw hr one_pos hG h1 h2 le_rfl le_rfl h3 (by norm_num [ncols]) rfl he rfl le_rfl
      (j := (1 : Fin 2)) rfl (by norm_num) (by norm_num)

/-- With the variance weights 1, 2 and 3 there are 18/7 effective observations, the dispersion is estimated with the
divisor 4/3 instead of 1, and the `wald_z` of the slope is too large by the factor `√(4/3)`. -/
example : ∃ (P : Measure (Fin 3 → ℝ)) (f : (Fin 3 → ℝ) → Fit ℝ 3 1 true) (z : (Fin 3 → ℝ) → Vec ℝ (ncols true 1)),
    (∀ ω, ∃ d, (withResponses (smRaw (some ![1, 2, 3])) ω).finalize false true = some d ∧
      regression (exactEnv 0 0) Family.linear.glm d (exOpts 0 0 none 1) = .ok (f ω) ∧
      (f ω).waldZ (exactEnv 0 0) = .ok (z ω)) ∧
    P.map (fun ω => √(3 / 4) * z ω (1 : Fin 2)) = studentLaw 1 := by
  have he : (exactEnv 0 0).Exact := exactEnv_exact le_rfl 0
  have hw : ∀ i, 0 < varWt (smRaw (some ![1, 2, 3])) i := fun i => by
    fin_cases i <;> norm_num [varWt, smRaw]
  have hr : IsUnit (gram (smRaw (some ![1, 2, 3])) true).det := by
    rw [isUnit_iff_ne_zero, Matrix.det_fin_two]
    simp [gram, totalWt, freq, varWt, smRaw, Fin.sum_univ_three, design]
    norm_num
  obtain ⟨d, f, h1, h2, h3⟩ := smRaw_fits _ hw hr
  have hG := normal_responses (linPred (smRaw (some ![1, 2, 3])) true (![5, 0] : Vec ℝ (ncols true 1)))
    fun i => 1 / (varWt (smRaw (some ![1, 2, 3])) i).toNNReal
  have hv : (fun i => ((1 / (varWt (smRaw (some ![1, 2, 3])) i).toNNReal : NNReal) : ℝ))
      = fun i => 1 / varWt (smRaw (some ![1, 2, 3])) i := by
    funext i
    rw [NNReal.coe_div, Real.coe_toNNReal _ (hw i).le, NNReal.coe_one]
  rw [hv] at hG
  obtain ⟨P, hP⟩ : ∃ P, P = Measure.pi fun i => gaussianReal
    (linPred (smRaw (some ![1, 2, 3])) true (![5, 0] : Vec ℝ (ncols true 1)) i)
    (1 / (varWt (smRaw (some ![1, 2, 3])) i).toNNReal) := ⟨_, rfl⟩
  rw [← hP] at hG
  have hz : ∀ ω, ∃ z, (f ω).waldZ (exactEnv 0 0) = .ok z := by
    intro ω
    obtain ⟨C, hC⟩ := (C41_unregularized (Family.lawfulAdj .linear) (h1 ω) (h2 ω) he le_rfl le_rfl).2.mpr
      (by rw [lin_fisher]; exact hr)
    exact ⟨_, by unfold Fit.waldZ; rw [hC]; rfl⟩
  choose z hz using hz
  refine ⟨P, f, z, fun ω => ⟨d ω, h1 ω, h2 ω, hz ω⟩, ?_⟩
  have heff : effCount (smRaw (some ![1, 2, 3])) = 18 / 7 := by
    simp [effCount, freq, varWt, smRaw, Fin.sum_univ_three]
    norm_num
  have hsum : weightSum (smRaw (some ![1, 2, 3])) = 6 := by
    simp [weightSum, totalWt, freq, varWt, smRaw, Fin.sum_univ_three]
    norm_num
  have key := C118_wald_weighted rfl hw hr one_pos hG h1 h2 le_rfl le_rfl h3 (by norm_num [ncols])
    (by rw [heff]; norm_num [ncols]) he hz (j := (1 : Fin 2)) rfl
  rw [heff, hsum] at key
  norm_num [ncols] at key
  norm_num
  exact key

end GLM
