/-
  C119: the exact laws of the comparisons of a Linear fit of normal responses with given coefficients and with the
  null model.
-/
import Verif.Props.Student
import Verif.Props.Omnibus

open MeasureTheory ProbabilityTheory

namespace GLM
open Spec
open Matrix hiding gram
variable {n p : ℕ} {b : Bool} {env : Env ℝ} {raw : Dataset ℝ n p false} {std : Bool}
  {Ω : Type*} [MeasurableSpace Ω] {P : Measure Ω} {Y : Ω → Vec ℝ n}

/-- The design with each row multiplied by the root of its weight. -/
noncomputable def sqrtDesign (raw : Dataset ℝ n p false) (b : Bool) : Matrix (Fin n) (Fin (ncols b p)) ℝ :=
  diagonal (fun i => √(varWt raw i)) * design b raw.x

theorem sqrtDesign_gram (hfr : raw.freqs = none) (hw : ∀ i, 0 < varWt raw i) :
    (sqrtDesign raw b)ᵀ * sqrtDesign raw b = gram raw b := by
  have hss : diagonal (fun i => √(varWt raw i)) * diagonal (fun i => √(varWt raw i))
      = diagonal (totalWt raw) := by
    rw [diagonal_mul_diagonal]
    congr 1; funext i
    simp only [totalWt, freq, hfr]
    simpa using Real.mul_self_sqrt (hw i).le
  rw [sqrtDesign, gram_eq, transpose_mul, diagonal_transpose, ← hss]
  simp only [Matrix.mul_assoc]

/-- The projection onto the columns of the weighted design. -/
noncomputable def hatProj (raw : Dataset ℝ n p false) (b : Bool) : Matrix (Fin n) (Fin n) ℝ :=
  sqrtDesign raw b * (gram raw b)⁻¹ * (sqrtDesign raw b)ᵀ

theorem hatProj_symm : (hatProj raw b)ᵀ = hatProj raw b := by
  rw [hatProj, transpose_mul, transpose_mul, transpose_transpose, transpose_nonsing_inv, gram_symm,
    Matrix.mul_assoc]

theorem hatProj_mul (hfr : raw.freqs = none) (hw : ∀ i, 0 < varWt raw i) (hr : IsUnit (gram raw b).det) :
    hatProj raw b * sqrtDesign raw b = sqrtDesign raw b := by
  rw [hatProj, Matrix.mul_assoc, sqrtDesign_gram hfr hw, Matrix.mul_assoc, nonsing_inv_mul _ hr, Matrix.mul_one]

theorem hatProj_idem (hfr : raw.freqs = none) (hw : ∀ i, 0 < varWt raw i) (hr : IsUnit (gram raw b).det) :
    hatProj raw b * hatProj raw b = hatProj raw b := by
  conv_lhs => arg 2; rw [hatProj]
  rw [← Matrix.mul_assoc, ← Matrix.mul_assoc, hatProj_mul hfr hw hr]
  rfl

theorem hatProj_trace (hfr : raw.freqs = none) (hw : ∀ i, 0 < varWt raw i) (hr : IsUnit (gram raw b).det) :
    (hatProj raw b).trace = (ncols b p : ℕ) := by
  rw [hatProj, Matrix.mul_assoc, trace_mul_comm, Matrix.mul_assoc, sqrtDesign_gram hfr hw,
    nonsing_inv_mul _ hr, trace_one]
  simp

/-- The law of a quotient of independent chi-squared variables. -/
theorem fisher_of_indep {U V : Ω → ℝ} {d1 d2 : ℝ} [IsProbabilityMeasure P] (h1 : 0 < d1) (h2 : 0 < d2)
    (hU : P.map U = chi2Law d1) (hV : P.map V = chi2Law d2) (hi : IndepFun U V P) :
    P.map (fun ω => (U ω / d1) / (V ω / d2)) = fisherLaw d1 d2 := by
  have hmU : AEMeasurable U P := by
    refine AEMeasurable.of_map_ne_zero ?_
    rw [hU]
    exact (chi2Law_prob h1).ne_zero
  have hmV : AEMeasurable V P := by
    refine AEMeasurable.of_map_ne_zero ?_
    rw [hV]
    exact (chi2Law_prob h2).ne_zero
  have hjoint := (indepFun_iff_map_prod_eq_prod_map_map hmU hmV).mp hi
  rw [hU, hV] at hjoint
  rw [fisherLaw, ← hjoint, AEMeasurable.map_map_of_aemeasurable
    (measurable_fisher _ _).aemeasurable (hmU.prodMk hmV)]
  rfl

section
variable {d : Ω → Dataset ℝ n p b} {o : FitOptions ℝ (ncols b p)} {f : Ω → Fit ℝ n p b}
  {φ : ℝ} {β : Vec ℝ (ncols b p)}
  (hfr : raw.freqs = none) (hw : ∀ i, 0 < varWt raw i) (hr : IsUnit (gram raw b).det) (hφ : 0 < φ)
  (hN : NormalResponses P Y (linPred raw b β) fun i => φ / varWt raw i)
  (hd : ∀ ω, (withResponses raw (Y ω)).finalize std b = some (d ω))
  (h : ∀ ω, regression env Family.linear.glm (d ω) o = .ok (f ω))
  (hl1 : o.l1 ≤ 0) (hl2 : o.l2 ≤ 0) (hs : ∀ ω, (f ω).score (f ω).result = 0)

omit [MeasurableSpace Ω] in
include hfr hw hr hφ hd h hl1 hl2 hs in
/-- The error of the fitted values is the projection of the error of the responses. -/
theorem fitted_projection (ω : Ω) : sqrtDesign raw b *ᵥ ((f ω).result - β)
    = √φ • (hatProj raw b *ᵥ fun i => (√(φ / varWt raw i))⁻¹ * (Y ω i - linPred raw b β i)) := by
  have hwt : ∀ i, totalWt raw i = varWt raw i := fun i => by simp [totalWt, freq, hfr]
  obtain ⟨e, he⟩ : ∃ e : Vec ℝ n, e = fun i => Y ω i - linPred raw b β i := ⟨_, rfl⟩
  have hres := result_eq_lsMat hr hd h hl1 hl2 hs ω
  have hqe : √φ • (fun i => (√(φ / varWt raw i))⁻¹ * (Y ω i - linPred raw b β i))
      = diagonal (fun i => √(varWt raw i)) *ᵥ e := by
    funext i
    rw [he, Pi.smul_apply, mulVec_diagonal, smul_eq_mul]
    rw [Real.sqrt_div hφ.le]
    have h3 : √φ ≠ 0 := (Real.sqrt_pos.mpr hφ).ne'
    have h4 : √(varWt raw i) ≠ 0 := (Real.sqrt_pos.mpr (hw i)).ne'
    field_simp
  have hAe : lsMat raw b *ᵥ e = (f ω).result - β := by
    have h1 : e = (fun i => Y ω i - offset raw i) - design b raw.x *ᵥ β := by
      rw [he]; funext i
      simp only [linPred, Pi.sub_apply]
      change Y ω i - (∑ j, design b raw.x i j * β j + offset raw i)
        = Y ω i - offset raw i - ∑ j, design b raw.x i j * β j
      ring
    rw [h1, mulVec_sub, ← hres, mulVec_mulVec, lsMat_design hr, one_mulVec]
  have hss : diagonal (fun i => √(varWt raw i)) * diagonal (fun i => √(varWt raw i))
      = diagonal (totalWt raw) := by
    rw [diagonal_mul_diagonal]
    congr 1; funext i
    rw [hwt]
    exact Real.mul_self_sqrt (hw i).le
  have hH : hatProj raw b * diagonal (fun i => √(varWt raw i)) = sqrtDesign raw b * lsMat raw b := by
    rw [lsMat, ← hss, hatProj]
    conv_lhs => arg 1; arg 2; rw [sqrtDesign, transpose_mul, diagonal_transpose]
    simp only [Matrix.mul_assoc]
  rw [← mulVec_smul, hqe, mulVec_mulVec, hH, ← mulVec_mulVec, hAe]

omit [MeasurableSpace Ω] in
include hfr hw hr hd h hl1 hl2 hs in
/-- The likelihood ratio is a squared distance of fitted values. -/
theorem lr_distance (he : env.Exact) (γ : Vec ℝ (ncols b p)) (ω : Ω) : (f ω).lrTestAgainst γ
    = (sqrtDesign raw b *ᵥ ((f ω).result - γ)) ⬝ᵥ (sqrtDesign raw b *ᵥ ((f ω).result - γ)) := by
  have h1 := (C38_linear (hd ω) (h ω) hl1 hl2 (hs ω) hr he γ).1
  rw [h1, dotProduct_mulVec (sqrtDesign raw b *ᵥ _), ← mulVec_transpose, mulVec_mulVec, sqrtDesign_gram hfr hw,
    dotProduct_comm]
  rfl

include hfr hw hr hφ hN hd h hl1 hl2 hs

/-- **C119**.  Against the true coefficients, the likelihood ratio, Wald and score statistics of an unpenalized
Linear fit of normal responses are equal, and `φ` times a chi-squared variable with `K` degrees of freedom. -/
theorem C119_against (he : env.Exact) (hK : 0 < ncols b p) :
    (∀ ω, (f ω).waldTestAgainst β = (f ω).lrTestAgainst β ∧
      (f ω).scoreTestAgainst env β = .ok ((f ω).lrTestAgainst β)) ∧
    P.map (fun ω => (f ω).lrTestAgainst β / φ) = chi2Law (ncols b p : ℕ) := by
  refine ⟨fun ω => ?_, ?_⟩
  · obtain ⟨a1, a2, a3⟩ := C38_linear (hd ω) (h ω) hl1 hl2 (hs ω) hr he β
    exact ⟨by rw [a2, a1], by rw [a3, a1]⟩
  have key := cochran (hN.standardize fun i => div_pos hφ (hw i)) hatProj_symm (hatProj_idem hfr hw hr) hK
    (hatProj_trace hfr hw hr)
  rw [← key]
  congr 1
  funext ω
  rw [lr_distance hfr hw hr hd h hl1 hl2 hs he, fitted_projection hfr hw hr hφ hd h hl1 hl2 hs, smul_dotProduct,
    dotProduct_smul, smul_eq_mul, smul_eq_mul, ← mul_assoc, Real.mul_self_sqrt hφ.le, mul_div_cancel_left₀ _ hφ.ne']

/-- **C119**.  Divided by the deviance, each with its degrees of freedom, they follow Fisher's law. -/
theorem C119_against_fisher (he : env.Exact) (hK : 0 < ncols b p) (hn : ncols b p < n) :
    P.map (fun ω => ((f ω).lrTestAgainst β / (ncols b p : ℕ)) / ((f ω).deviance / (n - ncols b p)))
      = fisherLaw (ncols b p : ℕ) (n - ncols b p) := by
  have := hN.prob
  have hν : (0 : ℝ) < n - ncols b p := by
    have : (ncols b p : ℝ) < n := by exact_mod_cast hn
    linarith
  have hU := (C119_against hfr hw hr hφ hN hd h hl1 hl2 hs he hK).2
  have hV := C118_deviance hfr hw hr hφ hN hd h hl1 hl2 hs hn
  have hi : IndepFun (fun ω => (f ω).lrTestAgainst β / φ) (fun ω => (f ω).deviance / φ) P := by
    have := (C117_independent hfr hw hr hN hd h hl1 hl2 hs).2.1.comp
      (φ := fun x : Vec ℝ (ncols b p) => (sqrtDesign raw b *ᵥ (x - β)) ⬝ᵥ (sqrtDesign raw b *ᵥ (x - β)) / φ)
      (ψ := fun x : ℝ => x / φ) (by unfold dotProduct; fun_prop) (by fun_prop)
    simp only [lr_distance hfr hw hr hd h hl1 hl2 hs he]
    exact this
  rw [← fisher_of_indep (by exact_mod_cast hK) hν hU hV hi]
  congr 1
  funext ω
  have := hφ.ne'
  field_simp

end

/-- **C119**.  If no feature matters, the likelihood ratio, Wald and score statistics of a linear model with
intercept are equal, and `φ` times a chi-squared variable with `test_ndf` degrees of freedom.  Divided by the
deviance, each with its degrees of freedom, they follow Fisher's law. -/
theorem C119_null {d : Ω → Dataset ℝ n p true} {o : FitOptions ℝ (ncols true p)} {f : Ω → Fit ℝ n p true}
    {φ μ : ℝ} (hfr : raw.freqs = none) (ho : raw.linearOffset = none) (hw : ∀ i, 0 < varWt raw i)
    (hr : IsUnit (gram raw true).det) (hφ : 0 < φ)
    (hN : NormalResponses P Y (fun _ => μ) fun i => φ / varWt raw i)
    (hd : ∀ ω, (withResponses raw (Y ω)).finalize std true = some (d ω)) (he : env.Exact)
    (h : ∀ ω, regression env Family.linear.glm (d ω) o = .ok (f ω))
    (hl1 : o.l1 ≤ 0) (hl2 : o.l2 ≤ 0) (hs : ∀ ω, (f ω).score (f ω).result = 0) (hp : 0 < p) :
    ∃ q : Ω → ℝ, (∀ ω, (f ω).lrTest env = .ok (q ω) ∧ (f ω).waldTest env = .ok (q ω) ∧
      (f ω).scoreTest env = .ok (q ω) ∧ (f ω).testNdf = p) ∧
      P.map (fun ω => q ω / φ) = chi2Law p ∧
      (p + 1 < n → P.map (fun ω => (q ω / p) / ((f ω).deviance / (n - (p + 1)))) = fisherLaw p (n - (p + 1))) := by
  have hwt : ∀ i, totalWt raw i = varWt raw i := fun i => by simp [totalWt, freq, hfr]
  have := hN.prob
  obtain ⟨W, hWdef⟩ : ∃ W, W = ∑ i, varWt raw i := ⟨_, rfl⟩
  have hW0 : 0 < W := by
    rw [hWdef]
    refine Finset.sum_pos (fun i _ => hw i) ?_
    by_contra hne
    rw [Finset.not_nonempty_iff_eq_empty] at hne
    have : gram raw true = 0 := by
      funext k l
      rw [gram, hne]; rfl
    have : Nonempty (Fin (ncols true p)) := ⟨(0 : Fin (p + 1))⟩
    rw [‹gram raw true = 0›, det_zero] at hr
    exact not_isUnit_zero hr
  have hWs : ∀ ω, weightSum (withResponses raw (Y ω)) = W := fun ω => by
    rw [hWdef]; exact Finset.sum_congr rfl fun i _ => hwt i
  have ho' : ∀ ω, (withResponses raw (Y ω)).linearOffset = none := fun _ => ho
  have hnull := fun ω => C37_intercept (env' := env) (hd ω) (h ω) (ho' ω) (by rw [hWs]; exact hW0.ne')
  have hb : ∀ i, linPred raw true (interceptOnly μ) i = μ := fun i => by
    rw [linPred_interceptOnly, offset_none ho, add_zero]
  have hb' : linPred raw true (interceptOnly μ) = fun _ => μ := funext hb
  have hN' : NormalResponses P Y (linPred raw true (interceptOnly μ)) fun i => φ / varWt raw i := by
    rw [hb']; exact hN
  -- the projection onto the constant
  obtain ⟨s, hsd⟩ : ∃ s : Fin n → ℝ, s = fun i => √(varWt raw i) := ⟨_, rfl⟩
  have hone : ∀ c : ℝ, sqrtDesign raw true *ᵥ interceptOnly c = c • s := fun c => by
    funext i
    have h1 := linPred_interceptOnly (raw := raw) c i
    have h2 : linPred raw true (interceptOnly c) i
        = (design true raw.x *ᵥ interceptOnly c) i + offset raw i := rfl
    rw [sqrtDesign, ← mulVec_mulVec, mulVec_diagonal, Pi.smul_apply, smul_eq_mul, hsd]
    have h3 : (design true raw.x *ᵥ interceptOnly c) i = c := by
      rw [h2] at h1; linarith
    rw [h3, mul_comm]
  have hss : s ⬝ᵥ s = W := by
    rw [hWdef, hsd]
    exact Finset.sum_congr rfl fun i _ => Real.mul_self_sqrt (hw i).le
  obtain ⟨H, hH⟩ : ∃ H, H = hatProj raw true := ⟨_, rfl⟩
  have hHs : H *ᵥ s = s := by
    have h1 := hone 1
    rw [one_smul] at h1
    rw [← h1, mulVec_mulVec, hH, hatProj_mul hfr hw hr]
  obtain ⟨H0, hH0⟩ : ∃ H0 : Matrix (Fin n) (Fin n) ℝ, H0 = W⁻¹ • vecMulVec s s := ⟨_, rfl⟩
  have hHsym : Hᵀ = H := by rw [hH]; exact hatProj_symm
  have hHid : H * H = H := by rw [hH]; exact hatProj_idem hfr hw hr
  have hH0sym : H0ᵀ = H0 := by rw [hH0, transpose_smul, transpose_vecMulVec]
  have hHH0 : H * H0 = H0 := by
    rw [hH0, Matrix.mul_smul, mul_vecMulVec, hHs]
  have hH0H : H0 * H = H0 := by
    have := congrArg transpose hHH0
    rwa [transpose_mul, hHsym, hH0sym] at this
  have hH0id : H0 * H0 = H0 := by
    rw [hH0, Matrix.smul_mul, Matrix.mul_smul, vecMulVec_mul_vecMulVec, hss, smul_smul, vecMulVec_smul, smul_smul,
      mul_assoc, inv_mul_cancel₀ hW0.ne', mul_one]
  have hsym : (H - H0)ᵀ = H - H0 := by rw [transpose_sub, hHsym, hH0sym]
  have hid : (H - H0) * (H - H0) = H - H0 := by
    rw [Matrix.sub_mul, Matrix.mul_sub, Matrix.mul_sub, hHid, hHH0, hH0H, hH0id, sub_self, sub_zero]
  have htr : (H - H0).trace = (p : ℕ) := by
    have h1 : H.trace = (ncols true p : ℕ) := by rw [hH]; exact hatProj_trace hfr hw hr
    rw [trace_sub, h1, hH0, trace_smul, trace_vecMulVec, hss, smul_eq_mul, inv_mul_cancel₀ hW0.ne']
    simp [ncols]
  have key := cochran (hN.standardize fun i => div_pos hφ (hw i)) hsym hid hp htr
  -- the statistic
  obtain ⟨m, hm⟩ : ∃ m : Ω → ℝ, m = fun ω => meanY (withResponses raw (Y ω)) := ⟨_, rfl⟩
  have hdist : ∀ ω, sqrtDesign raw true *ᵥ ((f ω).result - interceptOnly (m ω))
      = √φ • ((H - H0) *ᵥ fun i => (√(φ / varWt raw i))⁻¹ * (Y ω i - μ)) := by
    intro ω
    have h1 := fitted_projection (β := interceptOnly μ) hfr hw hr hφ hd h hl1 hl2 hs ω
    rw [hb', ← hH] at h1
    have h2 : (f ω).result - interceptOnly (m ω)
        = ((f ω).result - interceptOnly μ) - (interceptOnly (m ω) - interceptOnly μ) := by abel
    rw [h2, mulVec_sub, h1, mulVec_sub, hone, hone, sub_mulVec, smul_sub]
    congr 1
    have h3 : ∑ i, √(varWt raw i) * (√φ * ((√(φ / varWt raw i))⁻¹ * (Y ω i - μ))) = W * (m ω - μ) := by
      have h4 : ∀ i, √(varWt raw i) * (√φ * ((√(φ / varWt raw i))⁻¹ * (Y ω i - μ)))
          = varWt raw i * Y ω i - varWt raw i * μ := fun i => by
        have h5 : √φ ≠ 0 := (Real.sqrt_pos.mpr hφ).ne'
        have h6 : √(varWt raw i) ≠ 0 := (Real.sqrt_pos.mpr (hw i)).ne'
        have h7 : √(varWt raw i) * √(varWt raw i) = varWt raw i := Real.mul_self_sqrt (hw i).le
        rw [Real.sqrt_div hφ.le, ← mul_sub]
        nth_rewrite 3 [← h7]
        field_simp
      simp only [h4]
      rw [Finset.sum_sub_distrib, ← Finset.sum_mul, ← hWdef, hm]
      simp only [meanY]
      rw [hWs, mul_sub, mul_div_cancel₀ _ hW0.ne']
      congr 1
      exact Finset.sum_congr rfl fun i _ => by
        change _ = totalWt raw i * Y ω i
        rw [hwt]
    have h8 : H0 *ᵥ (fun i => (√(φ / varWt raw i))⁻¹ * (Y ω i - μ))
        = (W⁻¹ * (s ⬝ᵥ fun i => (√(φ / varWt raw i))⁻¹ * (Y ω i - μ))) • s := by
      rw [hH0, smul_mulVec, vecMulVec_mulVec, mul_smul, op_smul_eq_smul]
    have h9 : √φ * (s ⬝ᵥ fun i => (√(φ / varWt raw i))⁻¹ * (Y ω i - μ)) = W * (m ω - μ) := by
      rw [← h3, dotProduct, Finset.mul_sum, hsd]
      exact Finset.sum_congr rfl fun i _ => by ring
    rw [h8, smul_smul, ← sub_smul]
    congr 1
    have : √φ * (W⁻¹ * (s ⬝ᵥ fun i => (√(φ / varWt raw i))⁻¹ * (Y ω i - μ)))
        = W⁻¹ * (√φ * (s ⬝ᵥ fun i => (√(φ / varWt raw i))⁻¹ * (Y ω i - μ))) := by ring
    rw [this, h9, inv_mul_cancel_left₀ hW0.ne']
  have hlaw : P.map (fun ω => (f ω).lrTestAgainst (interceptOnly (m ω)) / φ) = chi2Law p := by
    rw [← key]
    congr 1
    funext ω
    rw [lr_distance hfr hw hr hd h hl1 hl2 hs he, hdist, smul_dotProduct,
      dotProduct_smul, smul_eq_mul, smul_eq_mul, ← mul_assoc, Real.mul_self_sqrt hφ.le,
      mul_div_cancel_left₀ _ hφ.ne']
  refine ⟨fun ω => (f ω).lrTestAgainst (interceptOnly (m ω)), fun ω => ?_, hlaw, fun hn => ?_⟩
  · obtain ⟨v, hn⟩ : ∃ v, (f ω).nullModelFit env = .ok (v, interceptOnly (m ω)) :=
      ⟨_, by rw [hm]; exact (hnull ω).1⟩
    obtain ⟨c1, c2, c3⟩ := C38_lr_null (hd ω) (h ω) (fun _ => by rw [hWs]; exact hW0.ne') hn
    obtain ⟨a1, a2, a3⟩ := C38_linear (hd ω) (h ω) hl1 hl2 (hs ω) hr he (interceptOnly (m ω))
    refine ⟨c1, by rw [c2, a2, ← a1], by rw [c3, a3, ← a1], rfl⟩
  · have hν : (0 : ℝ) < n - (p + 1) := by
      have : ((p + 1 : ℕ) : ℝ) < n := by exact_mod_cast hn
      push_cast at this
      linarith
    have hV := C118_deviance hfr hw hr hφ hN' hd h hl1 hl2 hs hn
    have hV' : P.map (fun ω => (f ω).deviance / φ) = chi2Law (n - (p + 1)) := by
      rw [hV]; simp [ncols]
    have hfun : ∀ ω, sqrtDesign raw true *ᵥ ((f ω).result - interceptOnly (m ω))
        = (H - H0) *ᵥ (sqrtDesign raw true *ᵥ ((f ω).result - interceptOnly μ)) := by
      intro ω
      have h1 := fitted_projection (β := interceptOnly μ) hfr hw hr hφ hd h hl1 hl2 hs ω
      rw [hb', ← hH] at h1
      rw [h1, hdist, mulVec_smul, mulVec_mulVec, Matrix.sub_mul, hHid, hH0H]
    have hi : IndepFun (fun ω => (f ω).lrTestAgainst (interceptOnly (m ω)) / φ)
        (fun ω => (f ω).deviance / φ) P := by
      have := (C117_independent hfr hw hr hN' hd h hl1 hl2 hs).2.1.comp
        (φ := fun x : Vec ℝ (ncols true p) => ((H - H0) *ᵥ (sqrtDesign raw true *ᵥ (x - interceptOnly μ)))
          ⬝ᵥ ((H - H0) *ᵥ (sqrtDesign raw true *ᵥ (x - interceptOnly μ))) / φ)
        (ψ := fun x : ℝ => x / φ) (by unfold dotProduct; fun_prop) (by fun_prop)
      simp only [lr_distance hfr hw hr hd h hl1 hl2 hs he, hfun]
      exact this
    rw [← fisher_of_indep (by exact_mod_cast hp) hν hlaw hV' hi]
    congr 1
    funext ω
    have := hφ.ne'
    field_simp

theorem chi2_sf_strict {ν : ℝ} (h : 0 < ν) {x y : ℝ} (hx : 0 ≤ x) (hxy : x < y) :
    (chi2Law ν).real (Set.Ioi y) < (chi2Law ν).real (Set.Ioi x) := by
  have := chi2Law_prob h
  have h1 : Set.Ioi x = Set.Ioc x y ∪ Set.Ioi y := (Set.Ioc_union_Ioi_eq_Ioi hxy.le).symm
  have hdis : Disjoint (Set.Ioc x y) (Set.Ioi y) := Set.disjoint_left.mpr fun z h2 h3 => not_lt.mpr h2.2 h3
  rw [h1, measureReal_union hdis measurableSet_Ioi]
  have hpos : 0 < (chi2Law ν) (Set.Ioc x y) := by
    have hmeas : Measurable (gammaPDF (ν / 2) (1 / 2)) := (measurable_gammaPDFReal _ _).ennreal_ofReal
    rw [chi2Law, gammaMeasure, withDensity_apply _ measurableSet_Ioc, setLIntegral_pos_iff hmeas]
    refine lt_of_lt_of_le ?_ (measure_mono (s := Set.Ioc x y) fun z hz => ⟨?_, hz⟩)
    · rw [Real.volume_Ioc]
      exact ENNReal.ofReal_pos.mpr (by linarith)
    · rw [Function.mem_support]
      have := gammaPDFReal_pos (a := ν / 2) (r := 1 / 2) (x := z) (by positivity) (by norm_num)
        (lt_of_le_of_lt hx hz.1)
      exact (ENNReal.ofReal_pos.mpr this).ne'
  have : 0 < (chi2Law ν).real (Set.Ioc x y) := ENNReal.toReal_pos hpos.ne' (measure_ne_top _ _)
  linarith

/-- **C119**.  If no feature matters, the likelihood ratio test of a linear model with intercept at the level that
belongs to the critical value `c` rejects with the probability that belongs to `c / φ`: its level is the stated one
if the responses have variance 1, and is not if the variance is another. -/
theorem C119_pvalue {d : Ω → Dataset ℝ n p true} {o : FitOptions ℝ (ncols true p)} {f : Ω → Fit ℝ n p true}
    {φ μ : ℝ} (hfr : raw.freqs = none) (ho : raw.linearOffset = none) (hw : ∀ i, 0 < varWt raw i)
    (hr : IsUnit (gram raw true).det) (hφ : 0 < φ)
    (hN : NormalResponses P Y (fun _ => μ) fun i => φ / varWt raw i)
    (hd : ∀ ω, (withResponses raw (Y ω)).finalize std true = some (d ω)) (he : env.Exact)
    (h : ∀ ω, regression env Family.linear.glm (d ω) o = .ok (f ω))
    (hl1 : o.l1 ≤ 0) (hl2 : o.l2 ≤ 0) (hs : ∀ ω, (f ω).score (f ω).result = 0) (hp : 0 < p)
    {c : ℝ} (hc : 0 < c) :
    P.real {ω | ∃ v, (f ω).pvalueLrTest realDists env = .ok v ∧ v ≤ (chi2Law p).real (Set.Ioi c)}
      = (chi2Law p).real (Set.Ioi (c / φ)) ∧
    ((chi2Law p).real (Set.Ioi (c / φ)) = (chi2Law p).real (Set.Ioi c) ↔ φ = 1) := by
  have hν : (0 : ℝ) < p := by exact_mod_cast hp
  have := chi2Law_prob hν
  obtain ⟨q, hq, hlaw, -⟩ := C119_null hfr ho hw hr hφ hN hd he h hl1 hl2 hs hp
  have hpv : ∀ ω, (f ω).pvalueLrTest realDists env = .ok ((chi2Law p).real (Set.Ioi (q ω))) := by
    intro ω
    unfold Fit.pvalueLrTest
    rw [(hq ω).1]
    simp only [Outcome.bind, (hq ω).2.2.2, if_neg hp.ne']
    have : realDists.chi2 (Scalar.ofNat p) = some (fun x => (chi2Law p).real (Set.Iic x),
        fun x => (chi2Law p).real (Set.Ioi x)) := if_pos hν
    rw [this]
    rfl
  have hm : AEMeasurable (fun ω => q ω / φ) P := by
    refine AEMeasurable.of_map_ne_zero ?_
    rw [hlaw]
    exact (chi2Law_prob hν).ne_zero
  have hpos : ∀ᵐ ω ∂P, 0 < q ω / φ := by
    refine ae_of_ae_map hm ?_
    rw [hlaw]
    exact chi2Law_ae_pos _
  constructor
  · have h1 : (chi2Law p).real (Set.Ioi (c / φ)) = (chi2Law p).real (Set.Ici (c / φ)) := by
      rw [measureReal_def, measureReal_def]
      congr 1
      refine measure_congr ?_
      have hne : ∀ᵐ y ∂(chi2Law p), y ≠ c / φ := by
        have h2 : chi2Law p {c / φ} = 0 := gammaMeasure_singleton _ _ (c / φ)
        rw [ae_iff]; simpa using h2
      filter_upwards [hne] with y hy
      apply propext
      exact ⟨fun h2 => le_of_lt h2, fun h2 => lt_of_le_of_ne h2 hy.symm⟩
    have h2 : (chi2Law p).real (Set.Ici (c / φ)) = P.real {ω | c / φ ≤ q ω / φ} := by
      rw [← hlaw, measureReal_def, measureReal_def, Measure.map_apply_of_aemeasurable hm measurableSet_Ici]
      rfl
    rw [h1, h2, measureReal_def, measureReal_def]
    congr 1
    refine measure_congr ?_
    filter_upwards [hpos] with ω hω
    apply propext
    change (∃ v, (f ω).pvalueLrTest realDists env = .ok v ∧ v ≤ (chi2Law p).real (Set.Ioi c)) ↔ c / φ ≤ q ω / φ
    rw [div_le_div_iff_of_pos_right hφ, hpv]
    have hq0 : 0 < q ω := by
      have := mul_pos hω hφ
      rwa [div_mul_cancel₀ _ hφ.ne'] at this
    constructor
    · rintro ⟨v, h2, h3⟩
      rw [← Outcome.ok.inj h2] at h3
      by_contra hlt
      exact absurd (chi2_sf_strict hν hq0.le (not_le.mp hlt)) (not_lt.mpr h3)
    · exact fun h2 => ⟨_, rfl, sf_anti _ h2⟩
  · constructor
    · intro h2
      by_contra hne
      rcases lt_or_gt_of_ne (show c / φ ≠ c from fun h3 => hne (by
        rw [div_eq_iff hφ.ne'] at h3
        have : c * (φ - 1) = 0 := by linarith
        rcases mul_eq_zero.mp this with h4 | h4 <;> linarith)) with h3 | h3
      · exact absurd h2 (chi2_sf_strict hν (by positivity) h3).ne'
      · exact absurd h2 (chi2_sf_strict hν hc.le h3).ne
    · rintro rfl
      rw [div_one]

/-- Normal responses around 5 of variance 4 that do not depend on the feature, observed at 0, 1 and 2.  The critical
value 4 belongs to the level 4.6%; the likelihood ratio test of that level rejects with the probability that belongs
to the value 1, which is larger.  The F statistic of the true coefficients follows Fisher's law. -/
example : ∃ (P : Measure (Fin 3 → ℝ)) (f : (Fin 3 → ℝ) → Fit ℝ 3 1 true),
    (∀ ω, ∃ d, (withResponses (smRaw none) ω).finalize false true = some d ∧
      regression (exactEnv 0 0) Family.linear.glm d (exOpts 0 0 none 1) = .ok (f ω)) ∧
    P.real {ω | ∃ v, (f ω).pvalueLrTest realDists (exactEnv 0 0) = .ok v ∧
      v ≤ (chi2Law (1 : ℕ)).real (Set.Ioi 4)} = (chi2Law (1 : ℕ)).real (Set.Ioi 1) ∧
    (chi2Law (1 : ℕ)).real (Set.Ioi 4) < (chi2Law (1 : ℕ)).real (Set.Ioi 1) ∧
    P.map (fun ω => ((f ω).lrTestAgainst (interceptOnly 5) / 2) / ((f ω).deviance / 1)) = fisherLaw 2 1 := by
  have he : (exactEnv 0 0).Exact := exactEnv_exact le_rfl 0
  have hw : ∀ i, 0 < varWt (smRaw none) i := fun i => by norm_num [varWt, smRaw]
  have hr : IsUnit (gram (smRaw none) true).det := by
    rw [isUnit_iff_ne_zero, Matrix.det_fin_two]
    simp [gram, totalWt, freq, varWt, smRaw, Fin.sum_univ_three, design]
    norm_num
  obtain ⟨d, f, h1, h2, h3⟩ := smRaw_fits _ hw hr
  have hG := normal_responses (fun _ : Fin 3 => (5 : ℝ)) fun _ => 4
  have hv : (fun i : Fin 3 => ((4 : NNReal) : ℝ)) = fun i => (4 : ℝ) / varWt (smRaw none) i := by
    funext i; simp [varWt, smRaw]
  rw [hv] at hG
  obtain ⟨P, hP⟩ : ∃ P, P = Measure.pi fun _ : Fin 3 => gaussianReal 5 4 := ⟨_, rfl⟩
  rw [← hP] at hG
  refine ⟨P, f, fun ω => ⟨d ω, h1 ω, h2 ω⟩, ?_, chi2_sf_strict (by norm_num) (by norm_num) (by norm_num), ?_⟩
  · have := (C119_pvalue rfl rfl hw hr (by norm_num) hG h1 he h2 le_rfl le_rfl h3 one_pos
      (c := 4) (by norm_num)).1
    rwa [div_self (by norm_num)] at this
  · have hb : linPred (smRaw none) true (interceptOnly 5) = fun _ => (5 : ℝ) := by
      funext i
      rw [linPred_interceptOnly, offset_none rfl, add_zero]
    rw [← hb] at hG
    have := C119_against_fisher rfl hw hr (by norm_num) hG h1 h2 le_rfl le_rfl h3 he (by norm_num [ncols])
      (by norm_num [ncols])
    norm_num [ncols] at this
    norm_num
    exact this

end GLM
