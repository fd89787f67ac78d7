/-
  C120: Student confidence intervals for combinations of the coefficients of Linear fits of normal responses.
-/
import Verif.Props.Student

open MeasureTheory ProbabilityTheory

namespace GLM
open Spec
open Matrix hiding gram
variable {n p : ℕ} {b : Bool} {env env' : Env ℝ} {raw : Dataset ℝ n p false} {std : Bool}
  {Ω : Type*} [MeasurableSpace Ω] {P : Measure Ω} {Y : Ω → Vec ℝ n}

/-- The reciprocal curvature along a direction is positive. -/
theorem inv_gram_pos_dir (hfr : raw.freqs = none) (hw : ∀ i, 0 < varWt raw i)
    (hr : IsUnit (gram raw b).det) {c : Vec ℝ (ncols b p)} (hc : c ≠ 0) :
    0 < c ⬝ᵥ ((gram raw b)⁻¹ *ᵥ c) := by
  have hwt : ∀ i, totalWt raw i = varWt raw i := fun i => by simp [totalWt, freq, hfr]
  obtain ⟨u, hu⟩ : ∃ u, u = (gram raw b)⁻¹ *ᵥ c := ⟨_, rfl⟩
  have hGu : gram raw b *ᵥ u = c := by
    rw [hu, mulVec_mulVec, mul_nonsing_inv _ hr, one_mulVec]
  have hq := gram_quad_apply (raw := raw) u
  rw [hGu, dotProduct_comm] at hq
  rw [← hu]
  refine lt_of_le_of_ne ?_ fun h0 => hc ?_
  · rw [hq]
    exact Finset.sum_nonneg fun i _ => mul_nonneg (by rw [hwt]; exact (hw i).le) (sq_nonneg _)
  · rw [← h0, eq_comm, Finset.sum_eq_zero_iff_of_nonneg
      (fun i _ => mul_nonneg (by rw [hwt]; exact (hw i).le) (sq_nonneg _))] at hq
    have hXu : design b raw.x *ᵥ u = 0 := by
      funext i
      have := hq i (Finset.mem_univ i)
      rw [hwt] at this
      simpa [(hw i).ne'] using this
    rw [← hGu, gram_eq, ← mulVec_mulVec, hXu, mulVec_zero]

section
variable {d : Ω → Dataset ℝ n p b} {o : FitOptions ℝ (ncols b p)} {f : Ω → Fit ℝ n p b}
  {φ : ℝ} {β : Vec ℝ (ncols b p)}
  (hfr : raw.freqs = none) (hw : ∀ i, 0 < varWt raw i) (hr : IsUnit (gram raw b).det) (hφ : 0 < φ)
  (hN : NormalResponses P Y (linPred raw b β) fun i => φ / varWt raw i)
  (hd : ∀ ω, (withResponses raw (Y ω)).finalize std b = some (d ω))
  (h : ∀ ω, regression env Family.linear.glm (d ω) o = .ok (f ω))
  (hl1 : o.l1 ≤ 0) (hl2 : o.l2 ≤ 0) (hs : ∀ ω, (f ω).score (f ω).result = 0)
  (hK : ncols b p < n)
include hfr hw hr hφ hN hd h hl1 hl2 hs hK

/-- **C120**.  The error of any combination of the estimated coefficients, divided by the standard error that the
`covariance` gives to it, follows Student's law up to the factor of C118. -/
theorem C120_pivot_weighted (hKe : (ncols b p : ℝ) < effCount raw) (he : env'.Exact)
    {V : Ω → Mat ℝ (ncols b p) (ncols b p)} (hV : ∀ ω, (f ω).covariance env' = .ok (V ω))
    {c : Vec ℝ (ncols b p)} (hc : c ≠ 0) :
    P.map (fun ω => √((n - ncols b p) / ((1 - ncols b p / effCount raw) * weightSum raw)) *
        ((c ⬝ᵥ (f ω).result - c ⬝ᵥ β) / √(c ⬝ᵥ (Matrix.of (V ω) *ᵥ c))))
      = studentLaw (n - ncols b p) := by
  have hν : (0 : ℝ) < n - ncols b p := by
    have : (ncols b p : ℝ) < n := by exact_mod_cast hK
    linarith
  obtain ⟨κ, hκ⟩ : ∃ κ, κ = (1 - ncols b p / effCount raw) * weightSum raw := ⟨_, rfl⟩
  have hκ0 : 0 < κ := by
    have hn : 0 < n := by omega
    have h1 : 0 < effCount raw := lt_of_le_of_lt (Nat.cast_nonneg _) hKe
    rw [hκ]
    refine mul_pos (by rw [sub_pos, div_lt_one h1]; exact hKe) ?_
    refine Finset.sum_pos (fun i _ => ?_) ⟨⟨0, hn⟩, Finset.mem_univ _⟩
    simp only [totalWt, freq, hfr]
    simpa using hw i
  rw [← hκ]
  have := hN.prob
  have hg := inv_gram_pos_dir hfr hw hr hc
  have hfish : ∀ ω, Matrix.of ((f ω).fisher (f ω).result) = gram raw b := fun ω => by
    obtain ⟨-, -, h3, -⟩ := C10_external (Family.lawfulAdj .linear) (hd ω) hl1 (h ω)
    rw [h3, lin_fisher, ridgeMat, max_eq_right hl2]
    simp only [zero_mul, onSlopes_zero]
    rw [show diagonal (fun _ : Fin (ncols b p) => (0 : ℝ)) = 0 from diagonal_zero, add_zero]
    rfl
  obtain ⟨ω₀⟩ : Nonempty Ω := P.nonempty_of_neZero
  have hlaw := C117_coef hfr hw hr hN hd h hl1 hl2 hs c ω₀
  rw [hfish] at hlaw
  obtain ⟨q, hq⟩ : ∃ q, q = c ⬝ᵥ ((gram raw b)⁻¹ *ᵥ c) := ⟨_, rfl⟩
  rw [← hq] at hg hlaw
  have hmj : AEMeasurable (fun ω => c ⬝ᵥ (f ω).result) P := by
    refine AEMeasurable.of_map_ne_zero ?_
    rw [hlaw]
    exact (inferInstance : IsProbabilityMeasure (gaussianReal _ _)).ne_zero
  have hpos : 0 < φ * q := mul_pos hφ hg
  have hmU : AEMeasurable (fun ω => (√(φ * q))⁻¹ * (c ⬝ᵥ (f ω).result - c ⬝ᵥ β)) P :=
    (hmj.sub_const _).const_mul _
  have hN1 : P.map (fun ω => (√(φ * q))⁻¹ * (c ⬝ᵥ (f ω).result - c ⬝ᵥ β)) = gaussianReal 0 1 := by
    have e : P.map (fun ω => (√(φ * q))⁻¹ * (c ⬝ᵥ (f ω).result - c ⬝ᵥ β))
        = ((P.map fun ω => c ⬝ᵥ (f ω).result).map (· - c ⬝ᵥ β)).map ((√(φ * q))⁻¹ * ·) := by
      rw [AEMeasurable.map_map_of_aemeasurable (g := (· - c ⬝ᵥ β)) (by fun_prop) hmj]
      refine Eq.symm (Eq.trans (AEMeasurable.map_map_of_aemeasurable (g := ((√(φ * q))⁻¹ * ·)) (by fun_prop)
        (hmj.sub_const (c ⬝ᵥ β))) rfl)
    rw [e, hlaw, gaussianReal_map_sub_const, gaussianReal_map_const_mul, sub_self, mul_zero]
    congr 1
    ext
    change (√(φ * q))⁻¹ ^ 2 * ((φ * q).toNNReal : ℝ) = 1
    rw [Real.coe_toNNReal _ hpos.le, inv_pow, Real.sq_sqrt hpos.le, inv_mul_cancel₀ hpos.ne']
  have hD := C118_deviance hfr hw hr hφ hN hd h hl1 hl2 hs hK
  have hmD : AEMeasurable (fun ω => (f ω).deviance / φ) P := by
    refine AEMeasurable.of_map_ne_zero ?_
    rw [hD]
    exact (chi2Law_prob hν).ne_zero
  have hind : IndepFun (fun ω => (√(φ * q))⁻¹ * (c ⬝ᵥ (f ω).result - c ⬝ᵥ β))
      (fun ω => (f ω).deviance / φ) P :=
    (C117_independent hfr hw hr hN hd h hl1 hl2 hs).2.1.comp
      (φ := fun x : Vec ℝ (ncols b p) => (√(φ * q))⁻¹ * (c ⬝ᵥ x - c ⬝ᵥ β)) (ψ := fun x : ℝ => x / φ)
      (by unfold dotProduct; fun_prop) (by fun_prop)
  have hjoint := (indepFun_iff_map_prod_eq_prod_map_map hmU hmD).mp hind
  rw [hN1, hD] at hjoint
  rw [studentLaw, ← hjoint, AEMeasurable.map_map_of_aemeasurable
    (measurable_student _).aemeasurable (hmU.prodMk hmD)]
  congr 1
  funext ω
  have hC := (C41_unregularized (Family.lawfulAdj .linear) (hd ω) (h ω) he hl1 hl2).1 (V ω) (hV ω)
  have hdisp : (f ω).dispersion = (f ω).deviance / κ := by
    have h1 := C42_free (hd ω) (h ω) rfl hKe
    rw [h1, C36_deviance (hd ω) (h ω), hκ]
    rfl
  have hsq : c ⬝ᵥ (Matrix.of (V ω) *ᵥ c) = (f ω).deviance / φ / (n - ncols b p) * (φ * q)
      * ((n - ncols b p) / κ) := by
    rw [hC, hfish, smul_mulVec, dotProduct_smul, ← hq, hdisp, smul_eq_mul]
    field_simp
  change √((n - ncols b p) / κ) * ((c ⬝ᵥ (f ω).result - c ⬝ᵥ β) / √(c ⬝ᵥ (Matrix.of (V ω) *ᵥ c)))
    = (√(φ * q))⁻¹ * (c ⬝ᵥ (f ω).result - c ⬝ᵥ β) / √((f ω).deviance / φ / (n - ncols b p))
  have hf0 : √((n - ncols b p) / κ) ≠ 0 := (Real.sqrt_pos.mpr (div_pos hν hκ0)).ne'
  rw [hsq, Real.sqrt_mul' _ (div_pos hν hκ0).le, Real.sqrt_mul' _ hpos.le]
  rw [div_eq_mul_inv, div_eq_mul_inv, mul_inv, mul_inv]
  field_simp

/-- **C120**.  Without variance weights the law is exactly Student's with `n - K` degrees of freedom. -/
theorem C120_pivot (hnw : raw.weights = none) (he : env'.Exact)
    {V : Ω → Mat ℝ (ncols b p) (ncols b p)} (hV : ∀ ω, (f ω).covariance env' = .ok (V ω))
    {c : Vec ℝ (ncols b p)} (hc : c ≠ 0) :
    P.map (fun ω => (c ⬝ᵥ (f ω).result - c ⬝ᵥ β) / √(c ⬝ᵥ (Matrix.of (V ω) *ᵥ c)))
      = studentLaw (n - ncols b p) := by
  have hν : (0 : ℝ) < n - ncols b p := by
    have : (ncols b p : ℝ) < n := by exact_mod_cast hK
    linarith
  have hn : (n : ℝ) ≠ 0 := by
    have : 0 < n := by omega
    exact_mod_cast this.ne'
  have hvw : ∀ i, varWt raw i = 1 := fun i => by simp [varWt, hnw]
  have hfq : ∀ i, freq raw i = 1 := fun i => by simp [freq, hfr]
  have heff : effCount raw = n := by
    simp only [effCount, hvw, hfq]
    simp
    field_simp
  have hsum : weightSum raw = n := by simp [weightSum, totalWt, hvw, hfq]
  have key := C120_pivot_weighted hfr hw hr hφ hN hd h hl1 hl2 hs hK (by rw [heff]; linarith) he hV hc
  have h1 : ((n : ℝ) - ncols b p) / ((1 - ncols b p / effCount raw) * weightSum raw) = 1 := by
    rw [heff, hsum, sub_mul, one_mul, div_mul_cancel₀ _ hn, div_self hν.ne']
  rw [h1] at key
  simpa using key

/-- The standard error that the `covariance` gives to a combination of the coefficients is almost surely positive. -/
theorem stdErr_pos (hKe : (ncols b p : ℝ) < effCount raw) (he : env'.Exact)
    {V : Ω → Mat ℝ (ncols b p) (ncols b p)} (hV : ∀ ω, (f ω).covariance env' = .ok (V ω))
    {c : Vec ℝ (ncols b p)} (hc : c ≠ 0) : ∀ᵐ ω ∂P, 0 < c ⬝ᵥ (Matrix.of (V ω) *ᵥ c) := by
  have hν : (0 : ℝ) < n - ncols b p := by
    have : (ncols b p : ℝ) < n := by exact_mod_cast hK
    linarith
  have hκ0 : 0 < (1 - ncols b p / effCount raw) * weightSum raw := by
    have hn : 0 < n := by omega
    have h1 : 0 < effCount raw := lt_of_le_of_lt (Nat.cast_nonneg _) hKe
    refine mul_pos (by rw [sub_pos, div_lt_one h1]; exact hKe) ?_
    refine Finset.sum_pos (fun i _ => ?_) ⟨⟨0, hn⟩, Finset.mem_univ _⟩
    simp only [totalWt, freq, hfr]
    simpa using hw i
  have hD := C118_deviance hfr hw hr hφ hN hd h hl1 hl2 hs hK
  have hmD : AEMeasurable (fun ω => (f ω).deviance / φ) P := by
    refine AEMeasurable.of_map_ne_zero ?_
    rw [hD]
    exact (chi2Law_prob hν).ne_zero
  have hpos : ∀ᵐ ω ∂P, 0 < (f ω).deviance / φ := by
    refine ae_of_ae_map hmD (p := fun x : ℝ => 0 < x) ?_
    rw [hD]
    exact chi2Law_ae_pos _
  filter_upwards [hpos] with ω hω
  have hC := (C41_unregularized (Family.lawfulAdj .linear) (hd ω) (h ω) he hl1 hl2).1 (V ω) (hV ω)
  have hfish : Matrix.of ((f ω).fisher (f ω).result) = gram raw b := by
    obtain ⟨-, -, h3, -⟩ := C10_external (Family.lawfulAdj .linear) (hd ω) hl1 (h ω)
    rw [h3, lin_fisher, ridgeMat, max_eq_right hl2]
    simp only [zero_mul, onSlopes_zero]
    rw [show diagonal (fun _ : Fin (ncols b p) => (0 : ℝ)) = 0 from diagonal_zero, add_zero]
    rfl
  have hdisp : (f ω).dispersion = (f ω).deviance / ((1 - ncols b p / effCount raw) * weightSum raw) := by
    have h1 := C42_free (hd ω) (h ω) rfl hKe
    rw [h1, C36_deviance (hd ω) (h ω)]
    rfl
  rw [hC, hfish, smul_mulVec, dotProduct_smul, hdisp, smul_eq_mul]
  refine mul_pos (div_pos ?_ hκ0) (inv_gram_pos_dir hfr hw hr hc)
  have := mul_pos hω hφ
  rwa [div_mul_cancel₀ _ hφ.ne'] at this

/-- **C120**.  Without variance weights, the interval of `q` standard errors around the estimate of any combination of
the coefficients covers the true value with exactly the Student probability of `[-q, q]`. -/
theorem C120_interval (hnw : raw.weights = none) (he : env'.Exact)
    {V : Ω → Mat ℝ (ncols b p) (ncols b p)} (hV : ∀ ω, (f ω).covariance env' = .ok (V ω))
    {c : Vec ℝ (ncols b p)} (hc : c ≠ 0) (q : ℝ) :
    P.real {ω | c ⬝ᵥ β ∈ Set.Icc (c ⬝ᵥ (f ω).result - q * √(c ⬝ᵥ (Matrix.of (V ω) *ᵥ c)))
        (c ⬝ᵥ (f ω).result + q * √(c ⬝ᵥ (Matrix.of (V ω) *ᵥ c)))}
      = (studentLaw (n - ncols b p)).real (Set.Icc (-q) q) := by
  have hν : (0 : ℝ) < n - ncols b p := by
    have : (ncols b p : ℝ) < n := by exact_mod_cast hK
    linarith
  have hKe : (ncols b p : ℝ) < effCount raw := by
    have hn : (n : ℝ) ≠ 0 := by
      have : 0 < n := by omega
      exact_mod_cast this.ne'
    have heff : effCount raw = n := by
      simp only [effCount, show ∀ i, varWt raw i = 1 from fun i => by simp [varWt, hnw],
        show ∀ i, freq raw i = 1 from fun i => by simp [freq, hfr]]
      simp
      field_simp
    rw [heff]; linarith
  have key := C120_pivot hfr hw hr hφ hN hd h hl1 hl2 hs hK hnw he hV hc
  have hm : AEMeasurable (fun ω => (c ⬝ᵥ (f ω).result - c ⬝ᵥ β) / √(c ⬝ᵥ (Matrix.of (V ω) *ᵥ c))) P := by
    refine AEMeasurable.of_map_ne_zero ?_
    rw [key]
    have := chi2Law_prob hν
    have : IsProbabilityMeasure (studentLaw (n - ncols b p)) := by
      unfold studentLaw
      exact Measure.isProbabilityMeasure_map (measurable_student _).aemeasurable
    exact this.ne_zero
  rw [← key, measureReal_def, measureReal_def, Measure.map_apply_of_aemeasurable hm measurableSet_Icc]
  congr 1
  refine measure_congr ?_
  filter_upwards [stdErr_pos hfr hw hr hφ hN hd h hl1 hl2 hs hK hKe he hV hc] with ω hω
  have hse := Real.sqrt_pos.mpr hω
  apply propext
  change (_ ≤ _ ∧ _ ≤ _) ↔ (-q ≤ _ ∧ _ ≤ q)
  rw [le_div_iff₀ hse, div_le_iff₀ hse]
  constructor <;> rintro ⟨h1, h2⟩ <;> constructor <;> linarith

end

/-- Normal responses around the line `5 + 2 x`, observed at 0, 1 and 2: the interval of `q` standard errors around the
prediction at 10 covers the true mean 25 with the Student probability of `[-q, q]`. -/
example (q : ℝ) : ∃ (P : Measure (Fin 3 → ℝ)) (f : (Fin 3 → ℝ) → Fit ℝ 3 1 true)
    (V : (Fin 3 → ℝ) → Mat ℝ (ncols true 1) (ncols true 1)),
    (∀ ω, ∃ d, (withResponses (smRaw none) ω).finalize false true = some d ∧
      regression (exactEnv 0 0) Family.linear.glm d (exOpts 0 0 none 1) = .ok (f ω) ∧
      (f ω).covariance (exactEnv 0 0) = .ok (V ω)) ∧
    P.real {ω | (25 : ℝ) ∈ Set.Icc
        ((![1, 10] : Vec ℝ (ncols true 1)) ⬝ᵥ (f ω).result - q * √(![1, 10] ⬝ᵥ (Matrix.of (V ω) *ᵥ ![1, 10])))
        ((![1, 10] : Vec ℝ (ncols true 1)) ⬝ᵥ (f ω).result + q * √(![1, 10] ⬝ᵥ (Matrix.of (V ω) *ᵥ ![1, 10])))}
      = (studentLaw 1).real (Set.Icc (-q) q) := by
  have he : (exactEnv 0 0).Exact := exactEnv_exact le_rfl 0
  have hw : ∀ i, 0 < varWt (smRaw none) i := fun i => by norm_num [varWt, smRaw]
  have hr : IsUnit (gram (smRaw none) true).det := by
    rw [isUnit_iff_ne_zero, Matrix.det_fin_two]
    simp [gram, totalWt, freq, varWt, smRaw, Fin.sum_univ_three, design]
    norm_num
  obtain ⟨d, f, h1, h2, h3⟩ := smRaw_fits _ hw hr
  have hG := normal_responses (linPred (smRaw none) true (![5, 2] : Vec ℝ (ncols true 1))) fun _ => 1
  have hv : (fun i : Fin 3 => ((1 : NNReal) : ℝ)) = fun i => (1 : ℝ) / varWt (smRaw none) i := by
    funext i; simp [varWt, smRaw]
  rw [hv] at hG
  obtain ⟨P, hP⟩ : ∃ P, P = Measure.pi fun i => gaussianReal
    (linPred (smRaw none) true (![5, 2] : Vec ℝ (ncols true 1)) i) 1 := ⟨_, rfl⟩
  rw [← hP] at hG
  have hV : ∀ ω, ∃ V, (f ω).covariance (exactEnv 0 0) = .ok V := fun ω =>
    (C41_unregularized (Family.lawfulAdj .linear) (h1 ω) (h2 ω) he le_rfl le_rfl).2.mpr
      (by rw [lin_fisher]; exact hr)
  choose V hV using hV
  refine ⟨P, f, V, fun ω => ⟨d ω, h1 ω, h2 ω, hV ω⟩, ?_⟩
  have hc : (![1, 10] : Vec ℝ (ncols true 1)) ≠ 0 := fun h0 => by
    have := congrFun h0 (0 : Fin 2)
    simp at this
  have key := C120_interval rfl hw hr one_pos hG h1 h2 le_rfl le_rfl h3 (by norm_num [ncols]) rfl he hV hc q
  have hcb : (![1, 10] : Vec ℝ (ncols true 1)) ⬝ᵥ (![5, 2] : Vec ℝ (ncols true 1)) = 25 := by
    change ∑ i : Fin 2, _ = _
    rw [Fin.sum_univ_two]
    norm_num
  have hdf : ((3 : ℕ) : ℝ) - (ncols true 1 : ℕ) = 1 := by norm_num [ncols]
  rw [hcb, hdf] at key
  exact key

end GLM
