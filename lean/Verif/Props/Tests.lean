/-
  C37, C38, C39: the null model, the three test statistics, and R².
-/
import Verif.Props.Deviance
import Verif.Props.External

namespace GLM
open Spec Matrix
variable {n p : ℕ} {b : Bool} {env env' : Env ℝ} {raw : Dataset ℝ n p false} {std : Bool}
  {fam : Family}

/-! ### C37 -/

theorem linPred_interceptOnly (c : ℝ) (i : Fin n) :
    linPred raw true (interceptOnly c) i = c + offset raw i := by
  rw [linPred]
  refine (congrArg (· + _) (Fin.sum_univ_succ _)).trans ?_
  simp [design, interceptOnly]

theorem linPred_zero (i : Fin n) : linPred raw b 0 i = offset raw i := by
  simp [linPred]

theorem offset_none (ho : raw.linearOffset = none) (i : Fin n) : offset raw i = 0 := by
  simp [offset, ho]

/-- The log-likelihood when all linear predictors are equal. -/
theorem logLik_const {β : Vec ℝ (ncols b p)} {c : ℝ} (h : ∀ i, linPred raw b β i = c) :
    logLik fam.glm raw b β = (∑ i, totalWt raw i * raw.y i) * (fam.glm (F := ℝ)).link.natParam c
      - weightSum raw * cumulant fam ((fam.glm (F := ℝ)).link.natParam c) := by
  simp only [logLik, logLikAt, h, logLikeNatural_real, mul_sub, Finset.sum_sub_distrib, weightSum,
    Finset.sum_mul, mul_assoc]

theorem nullParam_eq {k : ℕ} (c : ℝ) :
    Fit.firstParam (F := ℝ) (k := k + 1) c = .ok (Fin.cons c fun _ => 0) := rfl

section
variable {d : Dataset ℝ n p b} {options : FitOptions ℝ (ncols b p)} {f : Fit ℝ n p b}
  (hd : raw.finalize std b = some d) (h : regression env fam.glm d options = .ok f)
include hd h

/-- The value computed for the null model without offset, in terms of the user's data. -/
theorem nullModelFit_no_offset (ho : raw.linearOffset = none) :
    f.nullModelFit env' =
      (Fit.firstParam (k := ncols b p)
          (if b then (fam.glm (F := ℝ)).link.func (meanY raw) else 0)).map fun par =>
        (weightSum raw * (fam.glm (F := ℝ)).logLikeNatural (meanY raw) ((fam.glm (F := ℝ)).link.natParam
          (if b then (fam.glm (F := ℝ)).link.func (meanY raw) else 0)), par) := by
  obtain ⟨hg, rfl, rfl, hf⟩ := regression_ofRaw hd h
  have ho' : f.data.linearOffset = none := by rw [(Dataset.finalize_cases hd).2.1, ho]
  have hy : f.data.weightedSum f.data.y / f.data.sumWeights = meanY raw := by
    rw [Dataset.weightedSum_real, hf.sumWeights, Dataset.finalize_totalWt hd, hf.y]; rfl
  unfold Fit.nullModelFit Fit.nullIntercept
  rw [ho']
  simp only [hy, hg]
  rw [hf.sumWeights]

/-- The offset null model without intercept. -/
theorem nullModelFit_offset_no_intercept {off : Vec ℝ n} (ho : raw.linearOffset = some off)
    (hb : b = false) : f.nullModelFit env' = .ok (logLik fam.glm raw b 0, 0) := by
  subst hb
  obtain ⟨hg, rfl, rfl, hf⟩ := regression_ofRaw hd h
  have ho' : f.data.linearOffset = some off := by rw [(Dataset.finalize_cases hd).2.1, ho]
  have hoff : ∀ i, offset raw i = off i := fun i => by simp [offset, ho]
  unfold Fit.nullModelFit
  rw [ho']
  simp only [Bool.false_eq_true, if_false, Dataset.weightedSum_real, Dataset.finalize_totalWt hd,
    hf.y, hg]
  simp only [logLik, logLikAt, linPred_zero, hoff]
  rfl

omit hd h in
/-- Without offset and with weights that do not cancel: the value is the likelihood at the
parameters. -/
theorem null_value (hW : weightSum raw ≠ 0) {c : ℝ} {β : Vec ℝ (ncols b p)}
    (hβ : ∀ i, linPred raw b β i = c) :
    weightSum raw * (fam.glm (F := ℝ)).logLikeNatural (meanY raw)
      ((fam.glm (F := ℝ)).link.natParam c) = logLik fam.glm raw b β := by
  rw [logLik_const hβ, logLikeNatural_real, meanY]
  field_simp

end

/-- **C37**: with an intercept and no offset, the null model has coefficients `(g(ȳ), 0, …, 0)` and
`null_like()` is the log-likelihood of the user's data there. -/
theorem C37_intercept {d : Dataset ℝ n p true} {options : FitOptions ℝ (ncols true p)}
    {f : Fit ℝ n p true} (hd : raw.finalize std true = some d)
    (h : regression env fam.glm d options = .ok f) (ho : raw.linearOffset = none)
    (hW : weightSum raw ≠ 0) :
    f.nullModelFit env' = .ok (logLik fam.glm raw true (interceptOnly (linkFn fam (meanY raw))),
      interceptOnly (linkFn fam (meanY raw))) ∧
    f.nullLike env' = .ok (logLik fam.glm raw true (interceptOnly (linkFn fam (meanY raw)))) := by
  have hc : ∀ c i, linPred raw true (interceptOnly c) i = c := fun c i => by
    rw [linPred_interceptOnly, offset_none ho, add_zero]
  have key : f.nullModelFit env' = .ok (logLik fam.glm raw true
      (interceptOnly (linkFn fam (meanY raw))), interceptOnly (linkFn fam (meanY raw))) := by
    rw [nullModelFit_no_offset hd h ho]
    simp only [if_true, null_value hW (hc _), func_eq_linkFn]
    rfl
  exact ⟨key, by rw [Fit.nullLike, key]; rfl⟩

/-- **C37**: that is the maximum over all intercept-only models with admissible mean, for every
family and link of the crate, provided the weighted mean of the responses is an admissible mean. -/
theorem C37_optimal (hv : ValidFamily fam) (ho : raw.linearOffset = none)
    (hW : 0 < weightSum raw) (hy : meanY raw ∈ meanDom fam) (c : ℝ) (hc : c ∈ predDom fam) :
    logLik fam.glm raw true (interceptOnly c)
      ≤ logLik fam.glm raw true (interceptOnly (linkFn fam (meanY raw))) := by
  have hl : ∀ c i, linPred raw true (interceptOnly c) i = c := fun c i => by
    rw [linPred_interceptOnly, offset_none ho, add_zero]
  rw [logLik_const (hl _), logLik_const (hl _)]
  have hs : ∑ i, totalWt raw i * raw.y i = weightSum raw * meanY raw := by
    rw [meanY, mul_div_cancel₀ _ hW.ne']
  have hlm : linkFn fam (meanY raw) ∈ predDom fam := by
    rw [← func_eq_linkFn]; exact func_mem fam hy
  have hmean : meanOfNat fam ((fam.glm (F := ℝ)).link.natParam (linkFn fam (meanY raw)))
      = meanY raw := by
    rw [meanOfNat_natParam fam hv hlm, ← func_eq_linkFn, funcInv_func fam hy]
  have ht := cumulant_tangent_le fam hv (natParam_mem fam hc) (natParam_mem fam hlm)
  rw [hmean] at ht
  rw [hs, mul_assoc, mul_assoc, ← mul_sub, ← mul_sub]
  refine mul_le_mul_of_nonneg_left ?_ hW.le
  linarith

/-- **C37**: without intercept the null model has all coefficients zero; `null_like()` is the
log-likelihood at zero, with or without an offset. -/
theorem C37_no_intercept {d : Dataset ℝ n p false} {options : FitOptions ℝ (ncols false p)}
    {f : Fit ℝ n p false} (hd : raw.finalize std false = some d)
    (h : regression env fam.glm d options = .ok f) (hp : p ≠ 0)
    (hW : raw.linearOffset = none → weightSum raw ≠ 0) :
    f.nullModelFit env' = .ok (logLik fam.glm raw false 0, 0) ∧
      f.nullLike env' = .ok (logLik fam.glm raw false 0) := by
  have key : f.nullModelFit env' = .ok (logLik fam.glm raw false 0, 0) := by
    cases ho : raw.linearOffset with
    | some off => exact nullModelFit_offset_no_intercept hd h ho rfl
    | none =>
      rw [nullModelFit_no_offset hd h ho]
      have hc : ∀ i, linPred raw false 0 i = 0 := fun i => by
        rw [linPred_zero, offset_none ho]
      simp only [Bool.false_eq_true, if_false, null_value (hW ho) hc]
      obtain ⟨q, rfl⟩ := Nat.exists_eq_succ_of_ne_zero hp
      have : (Fin.cons 0 fun _ => 0 : Vec ℝ (q + 1)) = 0 := by
        funext j; refine Fin.cases rfl (fun _ => rfl) j
      have h2 : Fit.firstParam (F := ℝ) (k := ncols false (q + 1)) 0
          = .ok (0 : Vec ℝ (ncols false (q + 1))) := (nullParam_eq 0).trans (by rw [this])
      simp only [Nat.succ_eq_add_one]
      rw [h2]; rfl
  exact ⟨key, by rw [Fit.nullLike, key]; rfl⟩

/-- A corner the code does not handle: a model with neither intercept, features nor offset can be
fitted, but every statistic based on the null model panics. -/
theorem C37_empty_panics {raw : Dataset ℝ n 0 false} {d : Dataset ℝ n 0 false}
    {options : FitOptions ℝ (ncols false 0)} {f : Fit ℝ n 0 false}
    (hd : raw.finalize std false = some d) (h : regression env fam.glm d options = .ok f)
    (ho : raw.linearOffset = none) :
    f.nullLike env' = .panic ∧ f.lrTest env' = .panic ∧ f.rSq env' = .panic := by
  have key : f.nullModelFit env' = .panic := by
    rw [nullModelFit_no_offset hd h ho]; rfl
  simp only [Fit.lrTest, Fit.rSq, Fit.nullLike, key]
  exact ⟨rfl, rfl, rfl⟩

theorem dropFeatures_finalize : ∃ d0, (dropFeatures raw).finalize false true = some d0 ∧
    d0.x = (fun _ _ => 1) ∧ d0.y = raw.y ∧ d0.linearOffset = raw.linearOffset ∧
    d0.weights = raw.weights ∧ d0.freqs = raw.freqs ∧ d0.standardizer = none := by
  refine ⟨_, rfl, ?_, rfl, rfl, rfl, rfl, rfl⟩
  funext i j
  refine Fin.cases ?_ (fun j => j.elim0) (j : Fin 1)
  rfl

theorem linPred_dropFeatures (β : Vec ℝ (ncols true 0)) (i : Fin n) :
    linPred (dropFeatures raw) true β i
      = linPred raw true (interceptOnly (p := p) (β (0 : Fin 1))) i := by
  have hβ : β = interceptOnly (p := 0) (β (0 : Fin 1)) := by
    funext j
    refine Fin.cases rfl (fun j => j.elim0) (j : Fin 1)
  rw [hβ, linPred_interceptOnly, linPred_interceptOnly]
  rfl

theorem logLik_dropFeatures (g : Glm ℝ) (β : Vec ℝ (ncols true 0)) :
    logLik g (dropFeatures raw) true β
      = logLik g raw true (interceptOnly (p := p) (β (0 : Fin 1))) := by
  simp only [logLik, logLikAt, linPred_dropFeatures]
  rfl

/-- **C37**: with an offset and an intercept the null model is the fit, by the same procedure and
without regularization, of the user's data without its features; `null_like()` is the log-likelihood
of the user's data at the coefficients reported for it.  If that fit fails the call panics. -/
theorem C37_offset {d : Dataset ℝ n p true} {options : FitOptions ℝ (ncols true p)}
    {f : Fit ℝ n p true} (hd : raw.finalize std true = some d)
    (h : regression env fam.glm d options = .ok f) {off : Vec ℝ n}
    (ho : raw.linearOffset = some off) :
    ∃ d0, (dropFeatures raw).finalize false true = some d0 ∧
      f.nullModelFit env' =
        match regression env' fam.glm d0
            { FitOptions.default env' with maxIter := options.maxIter } with
        | .ok nf => .ok (logLik fam.glm raw true (interceptOnly (nf.result (0 : Fin 1))),
            interceptOnly (nf.result (0 : Fin 1)))
        | .err _ => .panic
        | .panic => .panic
        | .diverge => .diverge := by
  obtain ⟨d0, h0, hx, hy, hof, hw, hfr, hst⟩ := dropFeatures_finalize (raw := raw)
  refine ⟨d0, h0, ?_⟩
  obtain ⟨hg, rfl, rfl, hf⟩ := regression_ofRaw hd h
  obtain ⟨c1, c2, c3, c4, -⟩ := Dataset.finalize_cases hd
  have ho' : f.data.linearOffset = some off := by rw [c2, ho]
  have hnd : f.nullDataset off = d0 := by
    cases d0
    simp only [Fit.nullDataset] at *
    rw [c1, c3, c4, hx, hy, hof, ho, hw, hfr, hst]
  unfold Fit.nullModelFit
  rw [ho']
  simp only [if_true, hg, hnd]
  generalize ho2 : ({ FitOptions.default env' with maxIter := f.options.maxIter } :
    FitOptions ℝ (ncols true 0)) = o2
  cases hr : regression env' fam.glm d0 o2 with
  | ok nf =>
    obtain ⟨hg2, hd2, ho3, hf2⟩ := regression_ofRaw h0 hr
    have e1 : nf.resultStd = nf.result := by
      rw [hf2.result, hd2]
      unfold Dataset.inverseTransformBeta
      dsimp only
      rw [hst]
    have e2 : nf.modelLike
        = logLik fam.glm raw true (interceptOnly (p := p) (nf.result (0 : Fin 1))) := by
      rw [hf2.like, hg2, ho3, ← ho2, penLogLik, logLik_dropFeatures]
      simp [FitOptions.default, penalty]
    dsimp only
    rw [e1, e2]
    rfl
  | err e => rfl
  | panic => rfl
  | diverge => rfl

/-- In all cases in which the null model is computed, it has zero slopes and the value is the
log-likelihood of the user's data at its parameters. -/
theorem C37_value {d : Dataset ℝ n p b} {options : FitOptions ℝ (ncols b p)} {f : Fit ℝ n p b}
    (hd : raw.finalize std b = some d) (h : regression env fam.glm d options = .ok f)
    (hW : raw.linearOffset = none → weightSum raw ≠ 0) {v : ℝ} {par : Vec ℝ (ncols b p)}
    (hn : f.nullModelFit env' = .ok (v, par)) :
    v = logLik fam.glm raw b par ∧ ∀ j, slopes b par j = 0 := by
  cases b with
  | true =>
    have hsl : ∀ c (j : Fin p), slopes true (interceptOnly c) j = 0 := fun c j => by
      simp [slopes, interceptOnly]
    cases ho : raw.linearOffset with
    | none =>
      rw [(C37_intercept hd h ho (hW ho)).1] at hn
      cases hn
      exact ⟨rfl, hsl _⟩
    | some off =>
      obtain ⟨d0, h0, hnull⟩ := C37_offset (env' := env') hd h ho
      rw [hnull] at hn
      split at hn <;> cases hn
      exact ⟨rfl, hsl _⟩
  | false =>
    rcases Nat.eq_zero_or_pos p with hp | hp
    · subst hp
      have hpar : ∀ β : Vec ℝ (ncols false 0), β = 0 := fun β => funext fun j => j.elim0
      cases ho : raw.linearOffset with
      | none =>
        rw [nullModelFit_no_offset hd h ho] at hn
        cases hn
      | some off =>
        rw [nullModelFit_offset_no_intercept hd h ho rfl] at hn
        cases hn
        exact ⟨rfl, fun j => rfl⟩
    · rw [(C37_no_intercept hd h hp.ne' hW).1] at hn
      cases hn
      exact ⟨rfl, fun j => rfl⟩

/-- **C37**: for linear regression with exact arithmetic and machine epsilon zero, the null model with
an offset is the least-squares intercept: the weighted mean of `y - offset`. -/
theorem C37_offset_linear {d : Dataset ℝ n p true} {options : FitOptions ℝ (ncols true p)}
    {f : Fit ℝ n p true} (hd : raw.finalize std true = some d)
    (h : regression env Family.linear.glm d options = .ok f) {off : Vec ℝ n}
    (ho : raw.linearOffset = some off) (he : env'.Exact) (heps : env'.eps = 0)
    (hm : 1 ≤ options.maxIter) (hw : ∀ i, 0 ≤ totalWt raw i) (hW : weightSum raw ≠ 0) :
    let c := (∑ i, totalWt raw i * (raw.y i - off i)) / weightSum raw
    f.nullModelFit env' = .ok (logLik Family.linear.glm raw true (interceptOnly c),
      interceptOnly c) := by
  intro c
  obtain ⟨d0, h0, hnull⟩ := C37_offset (env' := env') hd h ho
  have hoff : ∀ i, offset raw i = off i := fun i => by simp [offset, ho]
  have hw0 : ∀ i, 0 ≤ totalWt (dropFeatures raw) i := hw
  have hls : LinSetting env' (dropFeatures raw) false d0
      { FitOptions.default env' with maxIter := options.maxIter } (interceptOnly c) := by
    refine ⟨he, h0, le_rfl, le_rfl, hw0, ?_, ?_⟩
    · rw [isUnit_iff_ne_zero]
      change Matrix.det (n := Fin 1) _ ≠ 0
      rw [Matrix.det_fin_one]
      have : gram (dropFeatures raw) true (0 : Fin 1) (0 : Fin 1) = weightSum raw := by
        simp [gram, design, weightSum]; rfl
      rw [this]; exact hW
    · rw [isLeastSquares_iff hw0]
      funext j
      rw [lin_score]
      refine Fin.cases ?_ (fun j => j.elim0) (j : Fin 1)
      simp only [linPred_interceptOnly]
      have : ∀ i, totalWt (dropFeatures raw) i
          * ((dropFeatures raw).y i - (c + offset (dropFeatures raw) i))
          * design true (dropFeatures raw).x i (0 : Fin 1)
          = totalWt raw i * (raw.y i - off i) - totalWt raw i * c := by
        intro i
        change totalWt raw i * (raw.y i - (c + offset raw i)) * 1 = _
        rw [hoff]; ring
      simp only [this, Finset.sum_sub_distrib, ← Finset.sum_mul]
      change _ - weightSum raw * c = 0
      rw [mul_div_cancel₀ _ hW, sub_self]
  obtain ⟨nf, hnf, hr, -⟩ := C57_exact_least_squares hls heps hm
  rw [hnull, hnf]
  dsimp only
  rw [hr]
  rfl

/-- The example: `ȳ = 3/2`, so the null model is `(3/2, 0)`. -/
example (std : Bool) (env' : Env ℝ) : ∃ d f, (exRaw ![0, 1, 4]).finalize std true = some d ∧
    regression (exactEnv 0 0) Family.linear.glm d (exOpts 0 0 none 1) = .ok f ∧
    f.nullModelFit env' = .ok (logLik Family.linear.glm (exRaw ![0, 1, 4]) true
      (interceptOnly (3 / 2)), interceptOnly (3 / 2)) := by
  obtain ⟨d, f, hd, hf, hr⟩ := exLinFit std
  have hW : weightSum (exRaw ![0, 1, 4]) = 4 := by
    simp only [weightSum, exRaw_totalWt, Fin.sum_univ_three]; simp; norm_num
  have hy : meanY (exRaw ![0, 1, 4]) = 3 / 2 := by
    rw [meanY, hW]
    simp only [exRaw_totalWt, Fin.sum_univ_three]
    simp [exRaw]; norm_num
  refine ⟨d, f, hd, hf, ?_⟩
  have := (C37_intercept (env' := env') hd hf rfl (by rw [hW]; norm_num)).1
  rwa [hy] at this

/-! ### C38 -/

section
variable {d : Dataset ℝ n p b} {options : FitOptions ℝ (ncols b p)} {f : Fit ℝ n p b}
  (hd : raw.finalize std b = some d)
include hd

/-- `lr_test()` is `lr_test_against` the null model, with any regularization: the null model is not
penalized. -/
theorem C38_lr_null (h : regression env fam.glm d options = .ok f)
    (hW : raw.linearOffset = none → weightSum raw ≠ 0) {v : ℝ} {par : Vec ℝ (ncols b p)}
    (hn : f.nullModelFit env' = .ok (v, par)) :
    f.lrTest env' = .ok (f.lrTestAgainst par) ∧ f.waldTest env' = .ok (f.waldTestAgainst par) ∧
    f.scoreTest env' = (match f.scoreTestAgainst env' par with
      | .ok s => .ok s
      | .error e => .err e) := by
  obtain ⟨hv, hs⟩ := C37_value hd h hW hn
  have hp : ∀ l1 l2 (σ : Fin p → ℝ), penalty l1 l2 σ b par = 0 := by
    intro l1 l2 σ
    simp [penalty, hs]
  refine ⟨?_, ?_, ?_⟩
  · rw [C36_lr hd h]
    obtain ⟨hg, rfl, rfl, hf⟩ := regression_ofRaw hd h
    simp only [Fit.lrTest, Fit.nullLike, hn]
    change Outcome.ok _ = _
    rw [hf.like, hg, hv, two_real, penLogLik, penLogLik, hp]
    congr 1
    ring
  · simp only [Fit.waldTest, hn]; rfl
  · simp only [Fit.scoreTest, hn]
    cases f.scoreTestAgainst env' par <;> rfl

/-- **C38**: for an unregularized linear fit at which the score vanishes, with a design of full rank
and exact inversion, the three statistics agree for every alternative: each is the squared distance
of the coefficients in the metric `XᵀWX`. -/
theorem C38_linear (h : regression env Family.linear.glm d options = .ok f) (hl1 : options.l1 ≤ 0)
    (hl2 : options.l2 ≤ 0) (hs : f.score f.result = 0) (hrank : IsUnit (gram raw b).det)
    (he : env.Exact) (β : Vec ℝ (ncols b p)) :
    let q := (f.result - β) ⬝ᵥ (gram raw b *ᵥ (f.result - β))
    f.lrTestAgainst β = q ∧ f.waldTestAgainst β = q ∧ f.scoreTestAgainst env β = .ok q := by
  intro q
  obtain ⟨-, h2, h3, h4, h5, h6⟩ := C10_external (Family.lawfulAdj .linear) hd hl1 h
  have hr0 : ridgeMat options.l2 (scale d) b = 0 := by
    rw [ridgeMat, max_eq_right hl2]; simp [onSlopes_zero]
  have hp0 : ∀ β, penalty options.l1 options.l2 (scale d) b β = 0 := by
    intro β; simp [penalty, max_eq_right hl1, max_eq_right hl2]
  have hps : ∀ β, penScore Family.linear.glm raw b options.l1 options.l2 (scale d) β
      = scoreVec linG raw b β := by
    intro β
    funext j
    simp [penScore, max_eq_right hl1, max_eq_right hl2, onSlopes_zero]
  have hs0 : scoreVec linG raw b f.result = 0 := by rw [← hps, ← h2, hs]
  have hsβ : scoreVec linG raw b β = gram raw b *ᵥ (f.result - β) := by
    have := lin_score_add (raw := raw) f.result (β - f.result)
    rw [add_sub_cancel, hs0, zero_sub] at this
    rw [this, ← mulVec_neg, neg_sub]
  have hfish : fisherMat Family.linear.glm raw b β = gram raw b := lin_fisher β
  refine ⟨?_, ?_, ?_⟩
  · rw [h4, penLogLik, penLogLik, hp0, hp0, sub_zero, sub_zero]
    have e1 : logLik Family.linear.glm raw b f.result = _ := lin_logLik (raw := raw) f.result
    have e2 : logLik Family.linear.glm raw b β = _ := lin_logLik (raw := raw) β
    have e3 := sse_add (raw := raw) f.result (β - f.result)
    rw [add_sub_cancel, hs0, zero_dotProduct, mul_zero, sub_zero] at e3
    have e4 : (β - f.result) ⬝ᵥ (gram raw b *ᵥ (β - f.result)) = q := by
      rw [← neg_sub f.result β, mulVec_neg, neg_dotProduct, dotProduct_neg, neg_neg]
    rw [e1, e2, e3, e4]
    ring
  · rw [h5, hr0, add_zero, hfish]
  · have hF : Matrix.of (f.fisher β) = gram raw b := by rw [h3, hr0, add_zero, hfish]
    rw [h6, he.inv_eq (by rw [hF]; exact hrank), hF, hps, hsβ]
    change Except.ok _ = Except.ok _
    dsimp only
    rw [Equiv.apply_symm_apply, mulVec_mulVec, nonsing_inv_mul _ hrank, one_mulVec]
    congr 1
    exact dotProduct_comm _ _

/-- **C38**: likewise the three tests against the null model. -/
theorem C38_linear_null (h : regression env Family.linear.glm d options = .ok f)
    (hl1 : options.l1 ≤ 0) (hl2 : options.l2 ≤ 0) (hs : f.score f.result = 0)
    (hrank : IsUnit (gram raw b).det) (he : env.Exact)
    (hW : raw.linearOffset = none → weightSum raw ≠ 0) {v : ℝ} {par : Vec ℝ (ncols b p)}
    (hn : f.nullModelFit env = .ok (v, par)) :
    ∃ q, f.lrTest env = .ok q ∧ f.waldTest env = .ok q ∧ f.scoreTest env = .ok q := by
  obtain ⟨h1, h2, h3⟩ := C38_lr_null hd h hW hn
  obtain ⟨a1, a2, a3⟩ := C38_linear hd h hl1 hl2 hs hrank he par
  refine ⟨_, h1, ?_, ?_⟩
  · rw [h2, a2, a1]
  · rw [h3, a3, a1]

end

/-- The score of the example vanishes at its result. -/
theorem exLinFit_score (std : Bool) : ∃ d f, (exRaw ![0, 1, 4]).finalize std true = some d ∧
    regression (exactEnv 0 0) Family.linear.glm d (exOpts 0 0 none 1) = .ok f ∧
    f.result = ![-1 / 2, 2] ∧ f.score f.result = 0 := by
  obtain ⟨d, hd⟩ := exLinSetting' std 0 le_rfl 0 1 none
  obtain ⟨f, hf, hr, -⟩ := C57_exact_least_squares hd rfl le_rfl
  refine ⟨d, f, hd.built, hf, hr, ?_⟩
  obtain ⟨-, h2, -⟩ := C10_external (Family.lawfulAdj .linear) hd.built hd.noL1 hf
  rw [h2, hr]
  funext j
  have := congrFun hd.score_eq j
  simp only [penScore, max_eq_right hd.noL1, max_eq_right hd.noL2, zero_mul, add_zero,
    onSlopes_zero, sub_zero]
  exact this

/-- The example: all tests against the null model give 8. -/
theorem exLinFit_tests (std : Bool) : ∃ d f, (exRaw ![0, 1, 4]).finalize std true = some d ∧
    regression (exactEnv 0 0) Family.linear.glm d (exOpts 0 0 none 1) = .ok f ∧
    f.lrTest (exactEnv 0 0) = .ok 8 ∧ f.waldTest (exactEnv 0 0) = .ok 8 ∧
    f.scoreTest (exactEnv 0 0) = .ok 8 ∧ f.deviance = 1 := by
  obtain ⟨d, f, hd, hf, hr, hs⟩ := exLinFit_score std
  have hW : weightSum (exRaw ![0, 1, 4]) = 4 := by
    simp only [weightSum, exRaw_totalWt, Fin.sum_univ_three]; simp; norm_num
  have hy : meanY (exRaw ![0, 1, 4]) = 3 / 2 := by
    rw [meanY, hW]
    simp only [exRaw_totalWt, Fin.sum_univ_three]
    simp [exRaw]; norm_num
  have hW0 : weightSum (exRaw ![0, 1, 4]) ≠ 0 := by rw [hW]; norm_num
  have hn := (C37_intercept (env' := exactEnv 0 0) hd hf rfl hW0).1
  obtain ⟨h1, h2, h3⟩ := C38_lr_null hd hf (fun _ => hW0) hn
  obtain ⟨a1, a2, a3⟩ := C38_linear hd hf le_rfl le_rfl hs (exRaw_gram_det _)
    (exactEnv_exact le_rfl 0) (interceptOnly (linkFn Family.linear (meanY (exRaw ![0, 1, 4]))))
  have hq : (f.result - interceptOnly (linkFn Family.linear (meanY (exRaw ![0, 1, 4]))))
      ⬝ᵥ (gram (exRaw ![0, 1, 4]) true *ᵥ
        (f.result - interceptOnly (linkFn Family.linear (meanY (exRaw ![0, 1, 4]))))) = 8 := by
    rw [quad_gram, hr, hy]
    have h2 : ∀ β : Vec ℝ (ncols true 1), ∀ i, ∑ j, design true (exRaw ![0, 1, 4]).x i j * β j
        = β (0 : Fin 2) + ![0, 1, 2] i * β (1 : Fin 2) := by
      intro β i
      rw [← exRaw_linPred ![0, 1, 4], linPred, offset_none rfl, add_zero]
    simp only [h2, exRaw_totalWt, Fin.sum_univ_three, Pi.sub_apply]
    simp only [interceptOnly, linkFn, canonicalLink]
    have e0 : (Fin.cons (3 / 2) fun _ => 0 : Fin 2 → ℝ) 0 = 3 / 2 := rfl
    have e1 : (Fin.cons (3 / 2) fun _ => 0 : Fin 2 → ℝ) 1 = 0 := rfl
    rw [e0, e1]
    simp; norm_num
  refine ⟨d, f, hd, hf, ?_, ?_, ?_, ?_⟩
  · rw [h1, a1, hq]
  · rw [h2, a2, hq]
  · rw [h3, a3, hq]
  · obtain ⟨h1, h2⟩ := C36_linear hd hf
    rw [h1, h2, hr]
    simp only [exRaw_totalWt, exRaw_linPred, Fin.sum_univ_three]
    simp [exRaw]; norm_num

/-- Partial residuals of the example sum to zero. -/
example (std : Bool) : ∃ d f, (exRaw ![0, 1, 4]).finalize std true = some d ∧
    regression (exactEnv 0 0) Family.linear.glm d (exOpts 0 0 none 1) = .ok f ∧
    ∑ i, totalWt (exRaw ![0, 1, 4]) i * f.residPart i 0 = 0 := by
  obtain ⟨d, f, hd, hf, hr, hs⟩ := exLinFit_score std
  have hW : weightSum (exRaw ![0, 1, 4]) = 4 := by
    simp only [weightSum, exRaw_totalWt, Fin.sum_univ_three]; simp; norm_num
  exact ⟨d, f, hd, hf, C45_linear hd hf (by rw [hW]; norm_num) (by rw [hs]; rfl) 0⟩

/-! ### C39 -/

section
variable {d : Dataset ℝ n p b} {options : FitOptions ℝ (ncols b p)} {f : Fit ℝ n p b}
  (hd : raw.finalize std b = some d) (h : regression env fam.glm d options = .ok f)
  (hW : raw.linearOffset = none → weightSum raw ≠ 0) {v : ℝ} {par : Vec ℝ (ncols b p)}
  (hn : f.nullModelFit env' = .ok (v, par))
include hd h hW hn

/-- `r_sq()` in terms of the deviance `D` of the fit, the deviance `D₀` of the null model and the
penalty at the fit. -/
theorem C39_regularized : f.rSq env' = .ok
    ((devianceOf fam.glm raw b par - f.deviance
        - 2 * penalty options.l1 options.l2 (scale d) b f.result)
      / (devianceOf fam.glm raw b par
        - 2 * penalty options.l1 options.l2 (scale d) b f.result)) := by
  obtain ⟨hv, hs⟩ := C37_value hd h hW hn
  have hp : ∀ l1 l2 (σ : Fin p → ℝ), penalty l1 l2 σ b par = 0 := by
    intro l1 l2 σ
    simp [penalty, hs]
  obtain ⟨h1, -, -⟩ := C38_lr_null hd h hW hn
  rw [Fit.rSq, h1, C36_lr hd h, C36_deviance hd h]
  change Outcome.ok _ = _
  rw [penLogLik, penLogLik, hp, devianceOf]
  congr 2; ring

/-- **C39**: without regularization `r_sq()` is `1 - D/D₀`. -/
theorem C39_rsq (hl1 : options.l1 ≤ 0) (hl2 : options.l2 ≤ 0)
    (h0 : devianceOf fam.glm raw b par ≠ 0) :
    f.rSq env' = .ok (1 - f.deviance / devianceOf fam.glm raw b par) := by
  have hp0 : penalty options.l1 options.l2 (scale d) b f.result = 0 := by
    simp [penalty, max_eq_right hl1, max_eq_right hl2]
  rw [C39_regularized hd h hW hn, hp0, mul_zero, sub_zero, sub_zero, sub_div, div_self h0]

/-- **C39**: if moreover the score vanishes at the fit and the log-likelihood is concave (every pair
except inverse Gaussian with log link), `r_sq()` lies between 0 and 1. -/
theorem C39_range (hl1 : options.l1 ≤ 0) (hl2 : options.l2 ≤ 0)
    (h0 : devianceOf fam.glm raw b par ≠ 0) (hc : Spec.Concave fam raw)
    (hy : ∀ i, raw.y i ∈ yDom fam) (hfr : ∀ i, 0 ≤ freq raw i) (hvw : ∀ i, 0 ≤ varWt raw i)
    (ha : Admissible fam raw b f.result) (hpar : Admissible fam raw b par)
    (hs : f.score f.result = 0) :
    ∃ r, f.rSq env' = .ok r ∧ r = 1 - f.deviance / devianceOf fam.glm raw b par ∧
      0 ≤ r ∧ r ≤ 1 := by
  refine ⟨_, C39_rsq hd h hW hn hl1 hl2 h0, rfl, ?_⟩
  have hD := C36_nonneg hd h hc.valid hy hfr hvw ha
  obtain ⟨-, h2, -⟩ := C10_external (Family.lawfulAdj fam) hd hl1 h
  have hs' := h2 f.result
  rw [hs] at hs'
  have hopt := C29_global_optimum hc (fun j => Dataset.scale_pos hd j) ha hs'.symm par hpar
  have hp0 : ∀ β, penalty options.l1 options.l2 (scale d) b β = 0 := by
    intro β; simp [penalty, max_eq_right hl1, max_eq_right hl2]
  rw [penLogLik, penLogLik, hp0, hp0, sub_zero, sub_zero] at hopt
  have hle : f.deviance ≤ devianceOf fam.glm raw b par := by
    rw [C36_deviance hd h, devianceOf]; linarith
  have hpos : 0 < devianceOf fam.glm raw b par := lt_of_le_of_ne (hD.trans hle) (Ne.symm h0)
  constructor
  · rw [sub_nonneg, div_le_one hpos]; exact hle
  · rw [sub_le_self_iff]; exact div_nonneg hD hpos.le

end

/-- **C39**: an exact unregularized linear fit has `r_sq()` between 0 and 1. -/
theorem C39_linear {d : Dataset ℝ n p b} {options : FitOptions ℝ (ncols b p)} {f : Fit ℝ n p b}
    (hd : raw.finalize std b = some d) (h : regression env Family.linear.glm d options = .ok f)
    (hW : raw.linearOffset = none → weightSum raw ≠ 0) {v : ℝ} {par : Vec ℝ (ncols b p)}
    (hn : f.nullModelFit env' = .ok (v, par)) (hl1 : options.l1 ≤ 0) (hl2 : options.l2 ≤ 0)
    (h0 : devianceOf Family.linear.glm raw b par ≠ 0) (hfr : ∀ i, 0 ≤ freq raw i)
    (hvw : ∀ i, 0 ≤ varWt raw i) (hs : f.score f.result = 0) :
    ∃ r, f.rSq env' = .ok r ∧ r = 1 - f.deviance / devianceOf Family.linear.glm raw b par ∧
      0 ≤ r ∧ r ≤ 1 :=
  C39_range hd h hW hn hl1 hl2 h0
    ⟨trivial, trivial, Or.inl trivial, fun i => mul_nonneg (hfr i) (hvw i)⟩
    (fun _ => Set.mem_univ _) hfr hvw (fun _ => Set.mem_univ _) (fun _ => Set.mem_univ _) hs

/-- The example: `8/9 = 1 - 1/9`. -/
example (std : Bool) : ∃ d f, (exRaw ![0, 1, 4]).finalize std true = some d ∧
    regression (exactEnv 0 0) Family.linear.glm d (exOpts 0 0 none 1) = .ok f ∧
    f.rSq (exactEnv 0 0) = .ok (8 / 9) := by
  obtain ⟨d, f, hd, hf, h1, -, -, h2⟩ := exLinFit_tests std
  refine ⟨d, f, hd, hf, ?_⟩
  rw [Fit.rSq, h1, h2]
  change Outcome.ok _ = _
  norm_num

end GLM
