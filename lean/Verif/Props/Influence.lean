/-
  C43, C59: influence of single observations.
-/
import Verif.Props.Hat
import Verif.Lemmas.Seq

namespace GLM
open Spec Matrix
variable {n p : ℕ} {b : Bool} {env env' : Env ℝ} {g : Glm ℝ} {raw : Dataset ℝ n p false}
  {std : Bool} {d : Dataset ℝ n p b} {options : FitOptions ℝ (ncols b p)} {f : Fit ℝ n p b}

/-! ### Data without an observation -/

theorem withoutObs_totalWt (i k : Fin n) :
    totalWt (withoutObs raw i) k = if k = i then 0 else totalWt raw k := by
  by_cases h : k = i <;> simp [totalWt, freq, varWt, withoutObs, h]

theorem withoutObs_sum (i : Fin n) (a : Fin n → ℝ) :
    ∑ k, totalWt (withoutObs raw i) k * a k = ∑ k, totalWt raw k * a k - totalWt raw i * a i := by
  have h : ∀ k, totalWt (withoutObs raw i) k * a k
      = totalWt raw k * a k - if k = i then totalWt raw k * a k else 0 := by
    intro k
    rw [withoutObs_totalWt]
    by_cases h : k = i <;> simp [h]
  simp only [h, Finset.sum_sub_distrib, Finset.sum_ite_eq', Finset.mem_univ, if_true]

theorem withoutObs_linPred (i k : Fin n) (β : Vec ℝ (ncols b p)) :
    linPred (withoutObs raw i) b β k = linPred raw b β k := rfl

theorem withoutObs_meanAt (i k : Fin n) (β : Vec ℝ (ncols b p)) :
    meanAt g (withoutObs raw i) b β k = meanAt g raw b β k := rfl

/-- The score of the remaining data is the score minus the contribution of the observation. -/
theorem withoutObs_score (i : Fin n) (β : Vec ℝ (ncols b p)) (j : Fin (ncols b p)) :
    scoreVec g (withoutObs raw i) b β j = scoreVec g raw b β j
      - totalWt raw i * (g.link.dNatParam (linPred raw b β i)
        * (raw.y i - meanAt g raw b β i) * design b raw.x i j) := by
  have h1 : ∀ (r : Dataset ℝ n p false), scoreVec g r b β j = ∑ k, totalWt r k *
      (g.link.dNatParam (linPred r b β k) * (r.y k - meanAt g r b β k) * design b r.x k j) :=
    fun r => Finset.sum_congr rfl fun k _ => by ring
  rw [h1, h1]
  exact withoutObs_sum i _

theorem withoutObs_gram (i : Fin n) : gram (withoutObs raw i) b
    = gram raw b - totalWt raw i • vecMulVec (design b raw.x i) (design b raw.x i) := by
  ext j k
  have h1 : ∀ (r : Dataset ℝ n p false), gram r b j k = ∑ l, totalWt r l *
      (design b r.x l j * design b r.x l k) :=
    fun r => Finset.sum_congr rfl fun l _ => by ring
  rw [Matrix.sub_apply, Matrix.smul_apply, h1, h1, vecMulVec_apply, smul_eq_mul]
  exact withoutObs_sum i _

theorem withoutObs_gram_mulVec (i : Fin n) (v : Vec ℝ (ncols b p)) (j : Fin (ncols b p)) :
    (gram (withoutObs raw i) b *ᵥ v) j = (gram raw b *ᵥ v) j
      - totalWt raw i * (design b raw.x i ⬝ᵥ v) * design b raw.x i j := by
  rw [withoutObs_gram, sub_mulVec, smul_mulVec, vecMulVec_mulVec]
  simp
  ring

/-! ### The influence coefficients and the leverage -/

section
variable (hg : LawfulAdj g) (hd : raw.finalize std b = some d)
  (h : regression env g d options = .ok f)
include hg hd h

/-- The matrix behind `fisher()` is symmetric. -/
theorem fisher_isSymm (β : Vec ℝ (ncols b p)) : (Matrix.of (f.fisher β)).IsSymm := by
  obtain ⟨P, hP, hF, -⟩ := fisher_decomp hg hd h
  rw [hF, IsSymm, transpose_add, fisherMat_symm]
  have := hP.isHermitian
  rw [IsHermitian, conjTranspose_eq_transpose_of_trivial] at this
  rw [this]

/-- The leverage of an observation in terms of the user's data. -/
theorem leverage_eq (he : env'.Exact) {lev : Vec ℝ n} (hlev : f.leverage env' = .ok lev) :
    IsUnit (Matrix.of (f.fisher f.result)).det ∧ ∀ i,
    lev i = totalWt raw i * g.link.dNatParam (linPred raw b f.result i) ^ 2
      * g.variance (meanAt g raw b f.result i)
      * (design b raw.x i ⬝ᵥ ((Matrix.of (f.fisher f.result))⁻¹ *ᵥ design b raw.x i)) := by
  unfold Fit.leverage at hlev
  cases hH : f.hat env' with
  | error e => rw [hH] at hlev; simp [bind, Except.bind] at hlev
  | ok H =>
    rw [hH] at hlev
    simp only [bind, Except.bind, pure, Except.pure, Except.ok.injEq] at hlev
    obtain ⟨hu, hHe⟩ := hat_eq hg hd h he hH
    refine ⟨hu, fun i => ?_⟩
    have h1 : lev i = Matrix.of H i i := by rw [← hlev]; rfl
    rw [h1, hHe, mul_diagonal, Matrix.mul_assoc, Matrix.mul_assoc, diagonal_mul, ← Matrix.mul_assoc]
    have h2 : (design b raw.x * (Matrix.of (f.fisher f.result))⁻¹ * (design b raw.x)ᵀ) i i
        = design b raw.x i ⬝ᵥ ((Matrix.of (f.fisher f.result))⁻¹ *ᵥ design b raw.x i) := by
      rw [Matrix.mul_assoc, Matrix.mul_apply]
      refine Finset.sum_congr rfl fun j _ => ?_
      congr 1
    rw [h2]
    ring

/-- **C43**: row `i` of `infl_coef()` is the documented one-step change
`(1 - h_i)⁻¹ I⁻¹ x_i w_i η'_i e_i`, in terms of the user's data, for every family and
regularization. -/
theorem C43_formula (he : env'.Exact) {Δ : Mat ℝ n (ncols b p)}
    (hΔ : f.inflCoef env' = .ok Δ) : ∃ lev, f.leverage env' = .ok lev ∧
    IsUnit (Matrix.of (f.fisher f.result)).det ∧ ∀ i,
    Δ i = (totalWt raw i * g.link.dNatParam (linPred raw b f.result i)
        * (raw.y i - meanAt g raw b f.result i) / (1 - lev i))
      • ((Matrix.of (f.fisher f.result))⁻¹ *ᵥ design b raw.x i) := by
  have hsym := fisher_isSymm hg hd h f.result
  unfold Fit.inflCoef Fit.fisherInv at hΔ
  cases hL : f.leverage env' with
  | error e => rw [hL] at hΔ; simp [bind, Except.bind] at hΔ
  | ok lev =>
    rw [hL] at hΔ
    cases hF : env'.inv (f.fisher f.result) with
    | error e => rw [hF] at hΔ; simp [bind, Except.bind] at hΔ
    | ok a =>
      rw [hF] at hΔ
      obtain ⟨hu, ha⟩ := he.inv_ok hF
      simp only [bind, Except.bind, pure, Except.pure, Except.ok.injEq] at hΔ
      refine ⟨lev, rfl, hu, fun i => ?_⟩
      obtain ⟨rfl, rfl, rfl, hf⟩ := regression_ofRaw hd h
      have hat : (Matrix.of a)ᵀ = Matrix.of a := by
        rw [ha, transpose_nonsing_inv, hsym]
      funext k
      rw [← hΔ, ← ha, Pi.smul_apply, smul_eq_mul, mulVec, dotProduct, Finset.mul_sum]
      simp only [Mat.dotM, vdotBy_real]
      refine Finset.sum_congr rfl fun j _ => ?_
      have haj : a j k = Matrix.of a k j := by rw [← hat]; rfl
      rw [haj]
      have hx : f.data.xExt i j = design b raw.x i j := by
        rw [← Dataset.finalize_xExt hd]; rfl
      simp only [Mat.tr, Dataset.xConjExt_real, Dataset.finalize_totalWt hd, hx, hg.errors,
        hf.residResp, hf.lin]
      ring

end

/-! ### C43 -/

/-- Without L1 the penalized score is the score minus a linear function. -/
theorem penScore_eq {l1 l2 : ℝ} (hl1 : l1 ≤ 0) (σ : Fin p → ℝ) (β : Vec ℝ (ncols b p)) :
    penScore g raw b l1 l2 σ β = scoreVec g raw b β - ridgeMat l2 σ b *ᵥ β := by
  funext j
  rw [penScore, Pi.sub_apply, ridgeMat, mulVec_diagonal]
  congr 1
  cases b
  · simp [onSlopes, slopes, max_eq_right hl1]; ring
  · refine Fin.cases ?_ (fun j => ?_) (j : Fin (p + 1))
    · simp [onSlopes]
    · simp [onSlopes, slopes, max_eq_right hl1]; ring

section
variable (hd : raw.finalize std b = some d)
  (h : regression env Family.linear.glm d options = .ok f) (he : env'.Exact)
  (hl1 : options.l1 ≤ 0) (hs : f.score f.result = 0) {lev : Vec ℝ n}
  (hlev : f.leverage env' = .ok lev) {Δ : Mat ℝ n (ncols b p)} (hΔ : f.inflCoef env' = .ok Δ)
  {i : Fin n} (hi : lev i ≠ 1)
include hd h he hl1

/-- The influence row of a Linear fit (internal helper). -/
theorem lin_infl (hlev : f.leverage env' = .ok lev) (hΔ : f.inflCoef env' = .ok Δ) :
    ∃ v : Vec ℝ (ncols b p), (gram raw b + ridgeMat options.l2 (scale d) b) *ᵥ v = design b raw.x i ∧
      lev i = totalWt raw i * (design b raw.x i ⬝ᵥ v) ∧
      f.result - Δ i = f.result
        + (-(totalWt raw i * (raw.y i - linPred raw b f.result i) / (1 - lev i))) • v := by
  have hg := Family.lawfulAdj Family.linear
  obtain ⟨-, -, h3, -⟩ := C10_external hg hd hl1 h
  have hM : Matrix.of (f.fisher f.result) = gram raw b + ridgeMat options.l2 (scale d) b := by
    rw [h3]; congr 1; exact lin_fisher _
  obtain ⟨lev', hlev', hu, hrow⟩ := C43_formula hg hd h he hΔ
  rw [hlev] at hlev'
  cases hlev'
  obtain ⟨-, hl⟩ := leverage_eq hg hd h he hlev
  refine ⟨(Matrix.of (f.fisher f.result))⁻¹ *ᵥ design b raw.x i, ?_, ?_, ?_⟩
  · rw [← hM, mulVec_mulVec, mul_nonsing_inv _ hu, one_mulVec]
  · rw [hl i]
    simp only [dNatParam_real, variance_real, varianceFn, one_pow, mul_one]
  · rw [hrow i, neg_smul, ← sub_eq_add_neg]
    simp only [dNatParam_real, meanAt, funcInv_real, mul_one]

include hs hlev hΔ hi

/-- **C43**: for Linear (ridge penalty allowed), subtracting row `i` of `infl_coef()` from the
coefficients of a fit at a zero of the score gives a zero of the score of the data without
observation `i`: the deletion is exact. -/
theorem C43_deletion : penScore Family.linear.glm (withoutObs raw i) b options.l1 options.l2 (scale d)
    (f.result - Δ i) = 0 := by
  have hg := Family.lawfulAdj Family.linear
  obtain ⟨-, h2, -⟩ := C10_external hg hd hl1 h
  obtain ⟨v, hv, hl, hr⟩ := lin_infl (i := i) hd h he hl1 hlev hΔ
  have hs0 : scoreVec linG raw b f.result - ridgeMat options.l2 (scale d) b *ᵥ f.result = 0 := by
    rw [← penScore_eq hl1, ← hs, h2]
  have hi' : 1 - lev i ≠ 0 := sub_ne_zero.mpr (Ne.symm hi)
  rw [hr]
  set c := totalWt raw i * (raw.y i - linPred raw b f.result i) / (1 - lev i) with hc
  have hadd := lin_score_add (raw := withoutObs raw i) (b := b) f.result (-c • v)
  have hp := penScore_eq (g := linG) (raw := withoutObs raw i) (b := b) (l2 := options.l2) hl1
    (scale d) (f.result + -c • v)
  funext j
  have hsj := congrFun hs0 j
  have hvj := congrFun hv j
  rw [add_mulVec] at hvj
  simp only [Pi.sub_apply, Pi.add_apply, Pi.zero_apply] at hsj hvj
  have h1 := withoutObs_score (g := linG) (raw := raw) (b := b) i f.result j
  have h2 := withoutObs_gram_mulVec (raw := raw) i v j
  simp only [linG_dNat, one_mul, meanAt, linG_mean] at h1
  change penScore linG _ _ _ _ _ _ j = _
  rw [hp, hadd, mulVec_add, mulVec_smul, mulVec_smul]
  simp only [Pi.sub_apply, Pi.add_apply, Pi.smul_apply, smul_eq_mul, Pi.zero_apply, h1, h2]
  have hcc : c * (1 - lev i) = totalWt raw i * (raw.y i - linPred raw b f.result i) := by
    rw [hc]; field_simp
  have hexp : scoreVec linG raw b f.result j
        - totalWt raw i * ((raw.y i - linPred raw b f.result i) * design b raw.x i j)
        - -c * ((gram raw b *ᵥ v) j
          - totalWt raw i * (design b raw.x i ⬝ᵥ v) * design b raw.x i j)
        - ((ridgeMat options.l2 (scale d) b *ᵥ f.result) j
          + -c * (ridgeMat options.l2 (scale d) b *ᵥ v) j)
      = (scoreVec linG raw b f.result j - (ridgeMat options.l2 (scale d) b *ᵥ f.result) j)
        + c * ((gram raw b *ᵥ v) j + (ridgeMat options.l2 (scale d) b *ᵥ v) j)
        - totalWt raw i * (raw.y i - linPred raw b f.result i) * design b raw.x i j
        - c * (totalWt raw i * (design b raw.x i ⬝ᵥ v)) * design b raw.x i j := by ring
  rw [hexp, hsj, hvj, ← hcc, ← hl]
  ring

omit hs in
/-- **C43**: the residual of observation `i` at the deletion coefficients is `e_i / (1 - h_i)`. -/
theorem C43_deleted_residual : raw.y i - linPred raw b (f.result - Δ i) i
    = (raw.y i - linPred raw b f.result i) / (1 - lev i) := by
  obtain ⟨v, -, hl, hr⟩ := lin_infl (i := i) hd h he hl1 hlev hΔ
  have hi' : 1 - lev i ≠ 0 := sub_ne_zero.mpr (Ne.symm hi)
  rw [hr, linPred_add]
  have : ∑ j, design b raw.x i j * ((-(totalWt raw i * (raw.y i - linPred raw b f.result i)
      / (1 - lev i))) • v) j
      = -(raw.y i - linPred raw b f.result i) / (1 - lev i) * lev i := by
    have : ∑ j, design b raw.x i j * ((-(totalWt raw i * (raw.y i - linPred raw b f.result i)
        / (1 - lev i))) • v) j = -(totalWt raw i * (raw.y i - linPred raw b f.result i)
        / (1 - lev i)) * (design b raw.x i ⬝ᵥ v) := by
      rw [dotProduct, Finset.mul_sum]
      exact Finset.sum_congr rfl fun j _ => by simp [smul_eq_mul]; ring
    have e : -(totalWt raw i * (raw.y i - linPred raw b f.result i) / (1 - lev i))
        * (design b raw.x i ⬝ᵥ v) = -(raw.y i - linPred raw b f.result i) / (1 - lev i)
        * (totalWt raw i * (design b raw.x i ⬝ᵥ v)) := by ring
    rw [this, e, ← hl]
  rw [this]
  field_simp
  ring

/-- **C43**: without penalty, the deletion coefficients are the weighted least-squares solution of
the data without observation `i`. -/
theorem C43_least_squares (hl2 : options.l2 ≤ 0) (hw : ∀ k, 0 ≤ totalWt raw k) :
    IsLeastSquares (withoutObs raw i) b (f.result - Δ i) := by
  rw [isLeastSquares_iff fun k => by rw [withoutObs_totalWt]; split <;> [exact le_rfl; exact hw k]]
  have := C43_deletion hd h he hl1 hs hlev hΔ hi
  rw [penScore_eq hl1, ridgeMat, max_eq_right hl2] at this
  simpa [onSlopes_zero] using this

/-- **C43**: the sum of squares of the deletion fit, `SSE - w_i e_i² / (1 - h_i)`, without penalty. -/
theorem C43_deleted_sse (hl2 : options.l2 ≤ 0) :
    sse (withoutObs raw i) b (f.result - Δ i) = sse raw b f.result
      - totalWt raw i * (raw.y i - linPred raw b f.result i) ^ 2 / (1 - lev i) := by
  have hg := Family.lawfulAdj Family.linear
  obtain ⟨-, h2, -⟩ := C10_external hg hd hl1 h
  obtain ⟨v, hv, hl, hr⟩ := lin_infl (i := i) hd h he hl1 hlev hΔ
  have hi' : 1 - lev i ≠ 0 := sub_ne_zero.mpr (Ne.symm hi)
  have hR : ridgeMat options.l2 (scale d) b = 0 := by
    rw [ridgeMat, max_eq_right hl2]; simp [onSlopes_zero]
  have hs0 : scoreVec linG raw b f.result = 0 := by
    have := h2 f.result
    rw [hs, penScore_eq hl1, hR, zero_mulVec, sub_zero] at this
    exact this.symm
  rw [hR, add_zero] at hv
  have h3 : sse (withoutObs raw i) b (f.result - Δ i) = sse raw b (f.result - Δ i)
      - totalWt raw i * (raw.y i - linPred raw b (f.result - Δ i) i) ^ 2 := withoutObs_sum i _
  rw [h3, C43_deleted_residual hd h he hl1 hlev hΔ hi, hr, sse_add, hs0, zero_dotProduct,
    mulVec_smul, hv, smul_dotProduct, dotProduct_smul, smul_eq_mul, smul_eq_mul, dotProduct_comm v]
  have : totalWt raw i * (design b raw.x i ⬝ᵥ v) = lev i := hl.symm
  have e : -(totalWt raw i * (raw.y i - linPred raw b f.result i) / (1 - lev i)) *
      (-(totalWt raw i * (raw.y i - linPred raw b f.result i) / (1 - lev i)) *
        design b raw.x i ⬝ᵥ v) = totalWt raw i * (raw.y i - linPred raw b f.result i) ^ 2
        / (1 - lev i) ^ 2 * (totalWt raw i * (design b raw.x i ⬝ᵥ v)) := by
    field_simp
  rw [e, this]
  field_simp
  ring

end

theorem withoutObs_freq (i k : Fin n) :
    freq (withoutObs raw i) k = if k = i then 0 else freq raw k := rfl

theorem withoutObs_varWt (i k : Fin n) : varWt (withoutObs raw i) k = varWt raw k := rfl

theorem withoutObs_freq_sum (i : Fin n) (a : Fin n → ℝ) :
    ∑ k, freq (withoutObs raw i) k * a k = ∑ k, freq raw k * a k - freq raw i * a i := by
  have h : ∀ k, freq (withoutObs raw i) k * a k
      = freq raw k * a k - if k = i then freq raw k * a k else 0 := by
    intro k
    rw [withoutObs_freq]
    by_cases h : k = i <;> simp [h]
  simp only [h, Finset.sum_sub_distrib, Finset.sum_ite_eq', Finset.mem_univ, if_true]

/-- The denominator of `dispersion_loo` is the one of the dispersion of the remaining data, computed
in each of its three branches (internal helper). -/
theorem looScale_eq (hd : raw.finalize std b = some d) (i : Fin n) (hW : weightSum (withoutObs raw i) ≠ 0)
    (q : ℝ) :
    (match d.weights with
      | none => match d.freqs with
        | some fr => -(fr i - (d.nObs - q))
        | none => d.nObs - q - 1
      | some w => (-(d.applyFreqWeights w i) + d.freqSum w)
          - (-(d.applyFreqWeights (vmul w w) i) + d.freqSum (vmul w w))
            / (-(d.applyFreqWeights w i) + d.freqSum w) * q)
      = (1 - q / effCount (withoutObs raw i)) * weightSum (withoutObs raw i) := by
  obtain ⟨-, -, hwt, hfr, -⟩ := Dataset.finalize_cases hd
  have hfreq : ∀ k, freq d k = freq raw k := fun k => congrFun (Dataset.finalize_freq hd) k
  have e1 : weightSum (withoutObs raw i)
      = ∑ k, freq raw k * varWt raw k - freq raw i * varWt raw i := withoutObs_freq_sum i _
  have e2 : effCount (withoutObs raw i) = (∑ k, freq raw k * varWt raw k - freq raw i * varWt raw i) ^ 2
      / (∑ k, freq raw k * varWt raw k ^ 2 - freq raw i * varWt raw i ^ 2) := by
    rw [effCount]
    exact congrArg₂ (fun a c : ℝ => a ^ 2 / c) (withoutObs_freq_sum i _) (withoutObs_freq_sum i _)
  have hnone : raw.weights = none → (1 - q / effCount (withoutObs raw i)) * weightSum (withoutObs raw i)
      = ∑ k, freq raw k - freq raw i - q := by
    intro h0
    have hv : ∀ k, varWt raw k = 1 := fun k => by simp [varWt, h0]
    rw [e1] at hW ⊢
    rw [e2]
    simp only [hv, mul_one, one_pow] at hW ⊢
    field_simp
  cases hw : d.weights with
  | none =>
    rw [hnone (hwt ▸ hw)]
    cases hf : d.freqs with
    | none =>
      have : ∀ k, freq raw k = 1 := fun k => by rw [← hfreq]; simp [freq, hf]
      simp only [Dataset.nObs_real, hfreq, this]
      ring
    | some fr =>
      have : fr i = freq raw i := by rw [← hfreq]; simp [freq, hf]
      simp only [Dataset.nObs_real, hfreq, this]
      ring
  | some w =>
    have hv : ∀ k, varWt raw k = w k := fun k => by simp [varWt, ← hwt, hw]
    rw [e1] at hW ⊢
    rw [e2]
    simp only [hv, Dataset.applyFreqWeights_real, Dataset.freqSum_real, hfreq, vmul, ← sq] at hW ⊢
    have a1 : -(freq raw i * w i) + ∑ k, freq raw k * w k
      = ∑ k, freq raw k * w k - freq raw i * w i := by ring
    have a2 : -(freq raw i * w i ^ 2) + ∑ k, freq raw k * w k ^ 2
      = ∑ k, freq raw k * w k ^ 2 - freq raw i * w i ^ 2 := by ring
    rw [a1, a2]
    set A := ∑ k, freq raw k * w k - freq raw i * w i
    set B := ∑ k, freq raw k * w k ^ 2 - freq raw i * w i ^ 2
    rw [div_div_eq_mul_div]
    field_simp

section
variable (hd : raw.finalize std b = some d)
  (h : regression env Family.linear.glm d options = .ok f) (he : env'.Exact)
  (hl1 : options.l1 ≤ 0) (hl2 : options.l2 ≤ 0) (hs : f.score f.result = 0) {lev : Vec ℝ n}
  (hlev : f.leverage env' = .ok lev) {Δ : Mat ℝ n (ncols b p)} (hΔ : f.inflCoef env' = .ok Δ)
  {i : Fin n} (hi : lev i ≠ 1) (hW : weightSum (withoutObs raw i) ≠ 0)
  (hvw : ∀ k, 0 ≤ varWt raw k)
include hd h he hl1 hl2 hs hlev hΔ hi hW hvw

/-- **C43**: the externally studentized residual of an exact Linear fit is computed from exactly the
fit that leaves the observation out: its residual at the deletion coefficients `β'`, over the
dispersion `SSE'(β') / ((1 - K/n_eff') Σ' w)` of the remaining data. -/
theorem C43_studentized {t : Vec ℝ n} (ht : f.residStudent env' = .ok t) :
    t i = (if raw.y i - linPred raw b f.result i < 0 then -1 else 1)
      * √(varWt raw i * (raw.y i - linPred raw b (f.result - Δ i) i) ^ 2
        / (sse (withoutObs raw i) b (f.result - Δ i)
          / ((1 - ncols b p / effCount (withoutObs raw i)) * weightSum (withoutObs raw i)))) := by
  have hresid := C43_deleted_residual hd h he hl1 hlev hΔ hi
  have hsse := C43_deleted_sse hd h he hl1 hs hlev hΔ hi hl2
  have hlin := C51_linear hd h hvw
  have hdev := C36_linear hd h
  have hscale := looScale_eq hd i hW (ncols b p : ℝ)
  obtain ⟨hg, rfl, rfl, hf⟩ := regression_ofRaw hd h
  have hi' : 1 - lev i ≠ 0 := sub_ne_zero.mpr (Ne.symm hi)
  have hdisp : f.g.dispersed = .free := by rw [hg]; rfl
  have hpear : ∀ k, f.residPear k * f.residPear k
      = varWt raw k * (raw.y k - linPred raw b f.result k) ^ 2 := by
    intro k
    rw [(hlin k).2.2.1, (hlin k).1, mul_mul_mul_comm, Real.mul_self_sqrt (hvw k), sq]
  have hterm : ∀ k, f.devianceTerms k
      = varWt raw k * (raw.y k - linPred raw b f.result k) ^ 2 := by
    intro k
    rw [hf.devianceTerms, hg, logLikAt]
    simp only [logLikeSat_real, logLikeNatural_real, natParam_real, cumulant]
    ring
  have hfreq : ∀ k, freq f.data k = freq raw k := fun k => congrFun (Dataset.finalize_freq hd) k
  have hloo : f.devianceTermsLoo env' = .ok fun k => f.devianceTerms k
      + lev k / (1 - lev k) * (lev k / (1 - lev k) + Scalar.two)
        * (f.residPear k * f.residPear k) := by
    unfold Fit.devianceTermsLoo
    rw [hlev]; rfl
  have hφ : ∃ φ, f.dispersionLoo env' = .ok φ ∧ φ i
      = (-(freq raw i * (f.devianceTerms i + lev i / (1 - lev i)
          * (f.residPear i * f.residPear i))) + f.deviance)
        / ((1 - ncols b p / effCount (withoutObs raw i)) * weightSum (withoutObs raw i)) := by
    rw [← hscale]
    unfold Fit.dispersionLoo
    rw [hdisp, hlev]
    cases hw : f.data.weights with
    | none =>
      cases hfr : f.data.freqs with
      | none => exact ⟨_, rfl, by simp [Dataset.applyFreqWeights_real, hfreq, Fit.ndf, Fit.rank]⟩
      | some fr => exact ⟨_, rfl, by simp [Dataset.applyFreqWeights_real, hfreq, Fit.ndf, Fit.rank]⟩
    | some w => exact ⟨_, rfl, by simp [Dataset.applyFreqWeights_real, hfreq, Fit.rank]⟩
  obtain ⟨φ, hφ, hφi⟩ := hφ
  unfold Fit.residStudent at ht
  rw [hloo, hdisp] at ht
  simp only [bind, Except.bind, hφ, pure, Except.pure, Except.ok.injEq] at ht
  rw [← ht]
  simp only [signum_real, sqrt_real, vdiv, hφi, hpear, hterm, (hlin i).1, hdev.1, hdev.2]
  congr 2
  rw [hresid, hsse, sse]
  congr 1
  · simp only [two_real]; field_simp; ring
  · congr 1
    simp only [totalWt]; field_simp; ring

end

/-! ### C59 -/

/-- **C59**: Cook's distance measures the one-step change of the coefficients in the metric of the
information: `f_i K φ C_i = Δ_iᵀ fisher Δ_i`, for every family, link and regularization (`f_i` is the
frequency of the observation: the distance is per copy). -/
theorem C59_cooks (hg : LawfulAdj g) (hd : raw.finalize std b = some d)
    (h : regression env g d options = .ok f) (he : env'.Exact) {Δ : Mat ℝ n (ncols b p)}
    (hΔ : f.inflCoef env' = .ok Δ) {c : Vec ℝ n} (hc : f.cooks env' = .ok c) {i : Fin n}
    (hw : 0 ≤ varWt raw i) (hv : 0 < g.variance (meanAt g raw b f.result i))
    (hφ : f.dispersion ≠ 0) (hK : ncols b p ≠ 0) :
    freq raw i * (ncols b p * f.dispersion) * c i
      = Δ i ⬝ᵥ (Matrix.of (f.fisher f.result) *ᵥ Δ i) := by
  obtain ⟨lev, hlev, hu, hrow⟩ := C43_formula hg hd h he hΔ
  obtain ⟨-, hl⟩ := leverage_eq hg hd h he hlev
  have hres : f.residPear i * f.residPear i = varWt raw i / g.variance (meanAt g raw b f.result i)
      * (raw.y i - meanAt g raw b f.result i) ^ 2 := by
    obtain ⟨rfl, rfl, rfl, hf⟩ := regression_ofRaw hd h
    simp only [Fit.residPear, Dataset.applyVarWeights_real, Dataset.finalize_varWt hd, hf.residResp,
      hf.mean, sqrt_real, recip_real, mul_one_div]
    rw [mul_mul_mul_comm, Real.mul_self_sqrt (div_nonneg hw hv.le), sq]
  unfold Fit.cooks at hc
  rw [hlev] at hc
  simp only [bind, Except.bind, pure, Except.pure, Except.ok.injEq] at hc
  rw [← hc]
  simp only [hres, Fit.rank, ofNat_real]
  rw [hrow i, mulVec_smul, mulVec_mulVec, mul_nonsing_inv _ hu, one_mulVec, smul_dotProduct,
    dotProduct_smul, smul_eq_mul, smul_eq_mul, dotProduct_comm _ (design b raw.x i)]
  have hli := hl i
  generalize hh : lev i = L at *
  have hK' : (ncols b p : ℝ) ≠ 0 := Nat.cast_ne_zero.mpr hK
  have hv' := hv.ne'
  by_cases h1 : 1 - L = 0
  · simp [h1]
  · generalize design b raw.x i ⬝ᵥ ((Matrix.of (f.fisher f.result))⁻¹ *ᵥ design b raw.x i) = q at *
    generalize g.variance (meanAt g raw b f.result i) = V at *
    have : freq raw i * (ncols b p * f.dispersion) * (varWt raw i / V
          * (raw.y i - meanAt g raw b f.result i) ^ 2 * (L / ((1 - L) * (1 - L)))
          / (ncols b p * f.dispersion))
        = totalWt raw i / V * (raw.y i - meanAt g raw b f.result i) ^ 2 / (1 - L) ^ 2 * L := by
      rw [totalWt]; field_simp
    rw [this]
    conv_lhs => rw [hli]
    have e2 : (1 - totalWt raw i * g.link.dNatParam (linPred raw b f.result i) ^ 2 * V * q)
      = 1 - L := by rw [← hli]
    rw [e2]
    field_simp

/-! ### C53 -/

/-- The reduced data of `loo_exact` is the user's data without the observation, built with the same
settings. -/
theorem looData_eq (hd : raw.finalize std b = some d) (h : regression env g d options = .ok f)
    (i : Fin n) : f.looData i = (withoutObs raw i).finalize std b := by
  obtain ⟨rfl, rfl, rfl, hf⟩ := regression_ofRaw hd h
  obtain ⟨hy, ho, hw, hfr, hst⟩ := Dataset.finalize_cases hd
  have hstd : f.data.standardizer.isSome = std := by
    rcases hst with ⟨rfl, -, hs⟩ | ⟨rfl, s, -, hs, -⟩ <;> rw [hs] <;> rfl
  have hx : f.data.xOrig = raw.x := Dataset.finalize_xOrig hd
  unfold Fit.looData
  dsimp only
  rw [hstd]
  have hraw : ∀ (y off w : _) (x : Mat ℝ n p) (fr : Vec ℝ n), y = raw.y → off = raw.linearOffset →
      w = raw.weights → x = raw.x → (fr = fun k => if k = i then 0 else freq raw k) →
      (Dataset.mk y x off w (some fr) none : Dataset ℝ n p false).finalize std b
        = (withoutObs raw i).finalize std b := by
    rintro _ _ _ _ _ rfl rfl rfl rfl rfl
    rfl
  refine hraw _ _ _ _ _ hy ho hw hx (funext fun k => ?_)
  by_cases hk : k = i
  · simp [hk]
  · simp only [hk, if_false]
    unfold freq
    rw [← hfr]
    cases f.data.freqs <;> rfl

/-- **C53**: `loo_exact()` succeeds exactly if the influence coefficients exist and every reduced
model can be built and fitted; row `i` is then the result of fitting the user's data without
observation `i`, with the same build settings and the same fit options, started from the one-step
deletion estimate. -/
theorem C53_loo_exact (hd : raw.finalize std b = some d) (h : regression env g d options = .ok f)
    (R : Mat ℝ n (ncols b p)) :
    f.looExact env' = .ok R ↔ ∃ Δ, f.inflCoef env' = .ok Δ ∧ ∀ i, ∃ dᵢ fᵢ,
      (withoutObs raw i).finalize std b = some dᵢ ∧
      regression env' g dᵢ { options with initGuess := some (f.result - Δ i) } = .ok fᵢ ∧
      R i = fᵢ.result := by
  have hdata := looData_eq hd h
  obtain ⟨rfl, rfl, rfl, hf⟩ := regression_ofRaw hd h
  unfold Fit.looExact
  cases hΔ : f.inflCoef env' with
  | error e => simp [Outcome.ofExcept, Outcome.mapErr, Outcome.bind]
  | ok Δ =>
    simp only [Outcome.ofExcept, Outcome.mapErr, Outcome.bind, seqOutcome_ok, Except.ok.injEq,
      exists_eq_left']
    refine forall_congr' fun i => ?_
    unfold Fit.looFit
    rw [hdata i]
    cases hfin : (withoutObs raw i).finalize std b with
    | none => simp
    | some dᵢ =>
      have hv : vsub f.result (Δ i) = f.result - Δ i := rfl
      simp only [hv, Option.some.injEq, exists_and_left, exists_eq_left']
      cases hreg : regression env' f.g dᵢ
        { f.options with initGuess := some (f.result - Δ i) } with
      | ok fᵢ => simp [Outcome.map, Outcome.bind, eq_comm]
      | err e => simp [Outcome.map, Outcome.bind]
      | panic => simp [Outcome.map, Outcome.bind]
      | diverge => simp [Outcome.map, Outcome.bind]

section
variable (hd : raw.finalize std b = some d)
  (h : regression env Family.linear.glm d options = .ok f) (he : env'.Exact)
  (hl1 : options.l1 ≤ 0) (hl2 : options.l2 ≤ 0)
include hd h he hl1 hl2

/-- **C43**: the least-squares problem without observation `i` has a unique solution exactly if the
leverage of the observation is not one. -/
theorem C43_unique_iff {lev : Vec ℝ n} (hlev : f.leverage env' = .ok lev) (i : Fin n) :
    lev i ≠ 1 ↔ IsUnit (gram (withoutObs raw i) b).det := by
  have hg := Family.lawfulAdj Family.linear
  obtain ⟨-, -, h3, -⟩ := C10_external hg hd hl1 h
  have hM : Matrix.of (f.fisher f.result) = gram raw b := by
    have h4 : fisherMat Family.linear.glm raw b f.result = gram raw b := lin_fisher _
    rw [h3, h4, ridgeMat, max_eq_right hl2]; simp [onSlopes_zero]
  obtain ⟨hu, hl⟩ := leverage_eq hg hd h he hlev
  rw [hM] at hu
  have hli : lev i = totalWt raw i
      * (design b raw.x i ⬝ᵥ ((gram raw b)⁻¹ *ᵥ design b raw.x i)) := by
    rw [hl i, hM]
    simp only [dNatParam_real, variance_real, varianceFn, one_pow, mul_one]
  rw [isUnit_iff_ne_zero, ne_eq, ne_eq, not_iff_not, ← exists_mulVec_eq_zero_iff]
  constructor
  · intro h1
    refine ⟨(gram raw b)⁻¹ *ᵥ design b raw.x i, fun h0 => ?_, ?_⟩
    · rw [h0, dotProduct_zero, mul_zero] at hli
      rw [hli] at h1; exact zero_ne_one h1
    · funext j
      rw [withoutObs_gram_mulVec, mulVec_mulVec, mul_nonsing_inv _ hu, one_mulVec, ← hli, h1, one_mul,
        sub_self, Pi.zero_apply]
  · rintro ⟨v, hv0, hv⟩
    have h1 : gram raw b *ᵥ v = (totalWt raw i * (design b raw.x i ⬝ᵥ v)) • design b raw.x i := by
      funext j
      have := congrFun hv j
      rw [withoutObs_gram_mulVec, Pi.zero_apply, sub_eq_zero] at this
      exact this
    have h2 : v = (totalWt raw i * (design b raw.x i ⬝ᵥ v))
        • ((gram raw b)⁻¹ *ᵥ design b raw.x i) := by
      rw [← mulVec_smul, ← h1, mulVec_mulVec, nonsing_inv_mul _ hu, one_mulVec]
    have h3 : design b raw.x i ⬝ᵥ v = lev i * (design b raw.x i ⬝ᵥ v) := by
      conv_lhs => rw [h2]
      rw [dotProduct_smul, smul_eq_mul, hli]
      ring
    have h4 : design b raw.x i ⬝ᵥ v ≠ 0 := by
      intro h0
      rw [h0, mul_zero, zero_smul] at h2
      exact hv0 h2
    exact (mul_eq_right₀ h4).mp h3.symm

/-- **C53**: for an exact Linear fit without penalty, `loo_exact()` returns exactly the one-step
deletion estimates, which are the least-squares solutions of the reduced data; every refit stops at
once.  It succeeds whenever the reduced problems are solvable and can be built. -/
theorem C53_linear (hs : f.score f.result = 0) {lev : Vec ℝ n}
    (hlev : f.leverage env' = .ok lev) (hi : ∀ i, lev i ≠ 1)
    (hb : ∀ i, ∃ dᵢ, (withoutObs raw i).finalize std b = some dᵢ) :
    ∃ Δ, f.inflCoef env' = .ok Δ ∧ f.looExact env' = .ok fun i => f.result - Δ i := by
  have hg := Family.lawfulAdj Family.linear
  have hΔ : ∃ Δ, f.inflCoef env' = .ok Δ := by
    obtain ⟨hu, -⟩ := leverage_eq hg hd h he hlev
    obtain ⟨a, ha⟩ := he.inv_complete hu
    unfold Fit.inflCoef Fit.fisherInv
    rw [hlev, ha]
    exact ⟨_, rfl⟩
  obtain ⟨Δ, hΔ⟩ := hΔ
  refine ⟨Δ, hΔ, (C53_loo_exact hd h _).mpr ⟨Δ, hΔ, fun i => ?_⟩⟩
  obtain ⟨dᵢ, hdᵢ⟩ := hb i
  have hu := (C43_unique_iff hd h he hl1 hl2 hlev i).mp (hi i)
  have hscore : scoreVec linG (withoutObs raw i) b (f.result - Δ i) = 0 := by
    have := C43_deletion hd h he hl1 hs hlev hΔ (hi i)
    rw [penScore_eq hl1, ridgeMat, max_eq_right hl2] at this
    simpa [onSlopes_zero] using this
  obtain ⟨fᵢ, h1, -, -, h2⟩ := C22_stationary_start
    (options := { options with initGuess := some (f.result - Δ i) }) he hg hdᵢ hl1 rfl
    (by
      have hn := lin_newtonMat (raw := withoutObs raw i) (b := b) (eps := env'.eps) hl2 (scale dᵢ)
        (f.result - Δ i)
      have h0 := he.eps_nonneg
      rw [show Family.linear.glm = linG from rfl, hn, det_smul]
      exact (isUnit_iff_ne_zero.mpr (pow_ne_zero _ (by linarith))).mul hu)
    (by
      have := lin_penScore (raw := withoutObs raw i) hl1 hl2 (scale dᵢ) hscore (f.result - Δ i)
      rw [sub_self, mulVec_zero] at this
      exact this)
  exact ⟨dᵢ, fᵢ, hdᵢ, h1, h2.symm⟩

end

/-- The hypotheses of C43 and C53 are met: in the example every leverage differs from one and the
leave-one-out fits exist. -/
example (std : Bool) : ∃ d f lev Δ, (exRaw ![0, 1, 4]).finalize std true = some d ∧
    regression (exactEnv 0 0) Family.linear.glm d (exOpts 0 0 none 1) = .ok f ∧
    f.score f.result = 0 ∧ f.leverage (exactEnv 0 0) = .ok lev ∧ (∀ i, lev i ≠ 1) ∧
    f.inflCoef (exactEnv 0 0) = .ok Δ ∧ weightSum (withoutObs (exRaw ![0, 1, 4]) 0) = 3 ∧
    f.looExact (exactEnv 0 0) = .ok fun i => f.result - Δ i := by
  obtain ⟨d, f, hd, hf, hr, hs⟩ := exLinFit_score std
  have hg := Family.lawfulAdj Family.linear
  have he := exactEnv_exact (le_refl (0 : ℝ)) 0
  obtain ⟨-, h2, h3, -⟩ := C10_external hg hd le_rfl hf
  have hfish : fisherMat Family.linear.glm (exRaw ![0, 1, 4]) true f.result
      = gram (exRaw ![0, 1, 4]) true := lin_fisher _
  have hF : Matrix.of (f.fisher f.result) = gram (exRaw ![0, 1, 4]) true := by
    rw [h3, ridgeMat, hfish]; simp [exOpts, onSlopes_zero]
  obtain ⟨H, hH, hlev⟩ := C40_available hd hf he (by rw [hF]; exact exRaw_gram_det _)
  have hne : ∀ i, H i i ≠ 1 := by
    intro i
    refine (C43_unique_iff hd hf he le_rfl le_rfl hlev i).mpr ?_
    rw [isUnit_iff_ne_zero, Matrix.det_fin_two]
    simp only [gram, withoutObs_totalWt, exRaw_totalWt, Fin.sum_univ_three]
    fin_cases i <;> simp [design, exRaw, withoutObs] <;> norm_num
  have hb : ∀ i, ∃ dᵢ, (withoutObs (exRaw ![0, 1, 4]) i).finalize std true = some dᵢ := by
    intro i
    cases std
    · exact ⟨_, rfl⟩
    · have h : Scalar.gt (withoutObs (exRaw ![0, 1, 4]) i).nEff 1 = true := by
        rw [nEff_effCount, gt_real, effCount]
        simp only [withoutObs_freq, Fin.sum_univ_three]
        fin_cases i <;> simp [freq, varWt, withoutObs, exRaw] <;> norm_num
      exact ⟨_, by simp only [Dataset.finalize, Standardizer.fromDataset, if_true, h]; rfl⟩
  obtain ⟨Δ, hΔ, hloo⟩ := C53_linear hd hf he le_rfl le_rfl hs hlev hne hb
  refine ⟨d, f, _, Δ, hd, hf, hs, hlev, hne, hΔ, ?_, hloo⟩
  simp only [weightSum, withoutObs_totalWt, exRaw_totalWt, Fin.sum_univ_three]
  simp
  norm_num

/-! ### C51: standardized residuals -/

/-- **C51**: where the dispersion is positive and the leverage `h` of an observation is less than one,
the standardized deviance and Pearson residuals are the residuals divided by `√(φ (1 - h))`: squared
and multiplied by `φ (1 - h)` they give back the squared residuals, and the signs agree. -/
theorem C51_standardized {env : Env ℝ} {f : Fit ℝ n p b} {lev : Vec ℝ n}
    (hlev : f.leverage env = .ok lev) : ∃ r s : Vec ℝ n,
    f.residDevStd env = .ok r ∧ f.residPearStd env = .ok s ∧
    ∀ i, 0 < f.dispersion → lev i < 1 →
      r i ^ 2 * (f.dispersion * (1 - lev i)) = f.residDev i ^ 2 ∧
      s i ^ 2 * (f.dispersion * (1 - lev i)) = f.residPear i ^ 2 ∧
      SignType.sign (r i) = SignType.sign (f.residDev i) ∧
      SignType.sign (s i) = SignType.sign (f.residPear i) := by
  refine ⟨fun i => f.residDev i / √((-(lev i) + 1) * f.dispersion),
    fun i => f.residPear i / √((-(lev i) + 1) * f.dispersion), ?_, ?_, ?_⟩
  · unfold Fit.residDevStd; rw [hlev]; rfl
  · unfold Fit.residPearStd; rw [hlev]; rfl
  · intro i hφ hl
    have h0 : 0 < (-(lev i) + 1) * f.dispersion := mul_pos (by linarith) hφ
    have h1 : f.dispersion * (1 - lev i) = (-(lev i) + 1) * f.dispersion := by ring
    have h2 := Real.sqrt_pos.mpr h0
    have hs : ∀ x : ℝ, SignType.sign (x / √((-(lev i) + 1) * f.dispersion)) = SignType.sign x := by
      intro x
      rcases lt_trichotomy x 0 with hx | hx | hx
      · rw [sign_neg hx, sign_neg (div_neg_of_neg_of_pos hx h2)]
      · rw [hx, zero_div]
      · rw [sign_pos hx, sign_pos (div_pos hx h2)]
    refine ⟨?_, ?_, hs _, hs _⟩
    · rw [div_pow, Real.sq_sqrt h0.le, h1, div_mul_cancel₀ _ h0.ne']
    · rw [div_pow, Real.sq_sqrt h0.le, h1, div_mul_cancel₀ _ h0.ne']

/-- The example: three observations with leverages below one and dispersion 1/2. -/
example (std : Bool) : ∃ d f lev, (exRaw ![0, 1, 4]).finalize std true = some d ∧
    regression (exactEnv 0 0) Family.linear.glm d (exOpts 0 0 none 1) = .ok f ∧
    f.leverage (exactEnv 0 0) = .ok lev ∧ 0 < f.dispersion ∧ ∀ i, lev i < 1 := by
  obtain ⟨d, f, hd, hf, hφ⟩ := exLinFit_dispersion std
  have hg := Family.lawfulAdj Family.linear
  have he := exactEnv_exact (le_refl (0 : ℝ)) 0
  obtain ⟨-, h2, h3, -⟩ := C10_external hg hd le_rfl hf
  have hfish : fisherMat Family.linear.glm (exRaw ![0, 1, 4]) true f.result
      = gram (exRaw ![0, 1, 4]) true := lin_fisher _
  have hF : Matrix.of (f.fisher f.result) = gram (exRaw ![0, 1, 4]) true := by
    rw [h3, ridgeMat, hfish]; simp [exOpts, onSlopes_zero]
  obtain ⟨H, hH, hlev⟩ := C40_available hd hf he (by rw [hF]; exact exRaw_gram_det _)
  refine ⟨d, f, _, hd, hf, hlev, by rw [hφ]; norm_num, fun i => ?_⟩
  refine lt_of_le_of_ne (C40_leverage hg hd hf he (fun i => (exRaw_totalWt_pos _ i).le)
      (fun i => Family.variance_nonneg .linear trivial _) hlev i).2 ?_
  refine (C43_unique_iff hd hf he le_rfl le_rfl hlev i).mpr ?_
  rw [isUnit_iff_ne_zero, Matrix.det_fin_two]
  simp only [gram, withoutObs_totalWt, exRaw_totalWt, Fin.sum_univ_three]
  fin_cases i <;> simp [design, exRaw, withoutObs] <;> norm_num

end GLM
