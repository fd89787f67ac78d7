/-
  C88: larger models and weaker penalties fit at least as well.
-/
import Verif.Spec.Compare
import Verif.Props.Tests
import Verif.Props.Lasso
import Verif.Props.RidgeLinear

namespace GLM
open Spec Matrix
variable {n p p' : ℕ} {b b' : Bool} {env env' envn : Env ℝ} {raw : Dataset ℝ n p false}
  {raw' : Dataset ℝ n p' false} {std std' : Bool} {d : Dataset ℝ n p b} {d' : Dataset ℝ n p' b'}
  {options : FitOptions ℝ (ncols b p)} {options' : FitOptions ℝ (ncols b' p')} {f : Fit ℝ n p b}
  {f' : Fit ℝ n p' b'} {fam : Family}

/-! ### When a fit is optimal -/

/-- C88 (criterion).  A fit without L1 penalty whose score vanishes is optimal, for every pair but
inverse Gaussian with the log link. -/
theorem C88_optimal (hc : Spec.Concave fam raw) (hd : raw.finalize std b = some d)
    (hl1 : options.l1 ≤ 0) (h : regression env fam.glm d options = .ok f)
    (ha : Admissible fam raw b f.result) (hs : f.score f.result = 0) : Optimal fam raw f := by
  intro β hβ
  rw [C36_lr hd h]
  have h2 := (C10_external (Family.lawfulAdj fam) hd hl1 h).2.1 f.result
  rw [hs] at h2
  have := C29_global_optimum hc (Dataset.scale_pos hd) ha h2.symm β hβ
  linarith

/-- C88 (criterion with L1).  So is a fit that satisfies the optimality conditions of the L1 (and L2)
penalty. -/
theorem C88_optimal_l1 (hc : Spec.Concave fam raw) (hd : raw.finalize std b = some d)
    (h : regression env fam.glm d options = .ok f) (ha : Admissible fam raw b f.result)
    (hk : KKT fam.glm raw b options.l1 options.l2 (scale d) f.result) : Optimal fam raw f := by
  intro β hβ
  rw [C36_lr hd h]
  have := C35_optimum hc (Dataset.scale_pos hd) ha hk β hβ
  linarith

/-! ### Nested models -/

namespace Spec.Nested
variable {T : Matrix (Fin (ncols b' p')) (Fin (ncols b p)) ℝ}

theorem totalWt (h : Nested (b := b) (b' := b') T raw raw') (i : Fin n) :
    totalWt raw' i = Spec.totalWt raw i := by
  simp only [Spec.totalWt, freq, varWt, h.weights, h.freqs]

theorem logLik (h : Nested (b := b) (b' := b') T raw raw') (g : Glm ℝ) (β : Vec ℝ (ncols b p)) :
    logLik g raw' b' (T *ᵥ β) = Spec.logLik g raw b β := by
  simp only [Spec.logLik, logLikAt, h.totalWt, h.y, h.pred]

theorem satLik (h : Nested (b := b) (b' := b') T raw raw') (g : Glm ℝ) :
    satLik g raw' = Spec.satLik g raw := by
  simp only [Spec.satLik, h.totalWt, h.y]

theorem admissible (h : Nested (b := b) (b' := b') T raw raw') {β : Vec ℝ (ncols b p)}
    (ha : Admissible fam raw b β) : Admissible fam raw' b' (T *ᵥ β) := fun i => by
  rw [h.pred]; exact ha i

theorem weightSum (h : Nested (b := b) (b' := b') T raw raw') :
    weightSum raw' = Spec.weightSum raw := by
  simp only [Spec.weightSum, h.totalWt]

theorem meanY (h : Nested (b := b) (b' := b') T raw raw') : meanY raw' = Spec.meanY raw := by
  simp only [Spec.meanY, h.weightSum, h.totalWt, h.y]

end Spec.Nested

theorem penalty_none {l1 l2 : ℝ} (hl1 : l1 ≤ 0) (hl2 : l2 ≤ 0) (σ : Fin p → ℝ)
    (β : Vec ℝ (ncols b p)) : penalty l1 l2 σ b β = 0 := by
  simp [penalty, max_eq_right hl1, max_eq_right hl2]

theorem penalty_nonneg' (l1 l2 : ℝ) (σ : Fin p → ℝ) (β : Vec ℝ (ncols b p)) :
    0 ≤ penalty l1 l2 σ b β :=
  add_nonneg (mul_nonneg (le_max_right _ _) (Finset.sum_nonneg fun _ _ => abs_nonneg _))
    (mul_nonneg (div_nonneg (le_max_right _ _) two_pos.le)
      (Finset.sum_nonneg fun _ _ => sq_nonneg _))

/-- C88 (nested models).  An optimal unpenalized fit of the larger model has at least the likelihood
and at most the deviance of every fit of the smaller model, whatever options produced that one. -/
theorem C88_nested {T : Matrix (Fin (ncols b' p')) (Fin (ncols b p)) ℝ} (hT : Nested T raw raw')
    (hd : raw.finalize std b = some d) (h : regression env fam.glm d options = .ok f)
    (ha : Admissible fam raw b f.result) (hd' : raw'.finalize std' b' = some d')
    (h' : regression env' fam.glm d' options' = .ok f') (hl1 : options'.l1 ≤ 0)
    (hl2 : options'.l2 ≤ 0) (ho : Optimal fam raw' f') :
    f.modelLike ≤ f'.modelLike ∧ f'.deviance ≤ f.deviance := by
  have h1 := ho _ (hT.admissible ha)
  rw [C36_lr hd' h', penLogLik, penLogLik, penalty_none hl1 hl2, penalty_none hl1 hl2, sub_zero,
    sub_zero, hT.logLik] at h1
  constructor
  · obtain ⟨hg, rfl, rfl, hf⟩ := regression_ofRaw hd h
    obtain ⟨hg', rfl, rfl, hf'⟩ := regression_ofRaw hd' h'
    rw [hf.like, hf'.like, hg, hg', penLogLik, penLogLik, penalty_none hl1 hl2]
    have := penalty_nonneg' f.options.l1 f.options.l2 (scale f.data) f.result
    linarith
  · rw [C36_deviance hd h, C36_deviance hd' h', hT.satLik]
    linarith

/-- C88 (no gain).  If the larger model, fitted with a vanishing score, does not reduce the deviance,
then it predicts the same mean for every observation that has weight. -/
theorem C88_no_gain {T : Matrix (Fin (ncols b' p')) (Fin (ncols b p)) ℝ} (hT : Nested T raw raw')
    (hc : Spec.Concave fam raw') (hd : raw.finalize std b = some d)
    (h : regression env fam.glm d options = .ok f) (ha : Admissible fam raw b f.result)
    (hd' : raw'.finalize std' b' = some d') (h' : regression env' fam.glm d' options' = .ok f')
    (hl1 : options'.l1 ≤ 0) (hl2 : options'.l2 ≤ 0) (ha' : Admissible fam raw' b' f'.result)
    (hs : f'.score f'.result = 0) (heq : f.deviance ≤ f'.deviance) (i : Fin n)
    (hi : 0 < totalWt raw i) : f.yHat i = f'.yHat i := by
  have h2 := (C10_external (Family.lawfulAdj fam) hd' hl1 h').2.1 f'.result
  rw [hs] at h2
  have h3 : penScore fam.glm raw' b' options'.l1 options'.l2 (scale d') f'.result
      = scoreVec fam.glm raw' b' f'.result := by
    funext j
    simp only [penScore, max_eq_right hl1, max_eq_right hl2, zero_mul, add_zero]
    rw [onSlopes_zero]
    exact sub_zero _
  rw [h3] at h2
  have hgap := logLik_gap (raw := raw') fam f'.result (T *ᵥ f.result)
  rw [← h2, zero_dotProduct, add_zero, hT.logLik] at hgap
  rw [C36_deviance hd h, C36_deviance hd' h', hT.satLik] at heq
  have hnn := fun k => gapAt_nonneg hc ha' (hT.admissible ha) k
  have hz : ∑ k, gapAt fam raw' b' f'.result (T *ᵥ f.result) k = 0 :=
    le_antisymm (by linarith) (Finset.sum_nonneg fun k _ => hnn k)
  rw [Finset.sum_eq_zero_iff_of_nonneg fun k _ => hnn k] at hz
  have hlin : linPred raw' b' (T *ᵥ f.result) i = linPred raw' b' f'.result i := by
    by_contra hne
    exact (gapAt_pos hc ha' (hT.admissible ha) (by rw [hT.totalWt]; exact hi) hne).ne'
      (hz i (Finset.mem_univ _))
  rw [hT.pred] at hlin
  obtain ⟨hg, rfl, rfl, hf⟩ := regression_ofRaw hd h
  obtain ⟨hg', rfl, rfl, hf'⟩ := regression_ofRaw hd' h'
  rw [hf.mean, hf'.mean, hg, hg']
  simp only [meanAt, hlin]

/-- C88 (R squared).  With an intercept and without an offset, unpenalized: `r_sq()` and `lr_test()` of
the larger model, fitted to the optimum, are at least those of the smaller model. -/
theorem C88_rsq {d : Dataset ℝ n p true} {options : FitOptions ℝ (ncols true p)} {f : Fit ℝ n p true}
    {d' : Dataset ℝ n p' true} {options' : FitOptions ℝ (ncols true p')} {f' : Fit ℝ n p' true}
    {T : Matrix (Fin (ncols true p')) (Fin (ncols true p)) ℝ} (hT : Nested T raw raw')
    (hd : raw.finalize std true = some d) (h : regression env fam.glm d options = .ok f)
    (ha : Admissible fam raw true f.result) (hd' : raw'.finalize std' true = some d')
    (h' : regression env' fam.glm d' options' = .ok f') (hm1 : options.l1 ≤ 0)
    (hm2 : options.l2 ≤ 0) (hl1 : options'.l1 ≤ 0) (hl2 : options'.l2 ≤ 0)
    (ho : Optimal fam raw' f') (hno : raw.linearOffset = none) (hno' : raw'.linearOffset = none)
    (hW : weightSum raw ≠ 0)
    (h0 : 0 < devianceOf fam.glm raw true (interceptOnly (linkFn fam (meanY raw)))) :
    ∃ r r' t t', f.rSq envn = .ok r ∧ f'.rSq envn = .ok r' ∧ r ≤ r' ∧
      f.lrTest envn = .ok t ∧ f'.lrTest envn = .ok t' ∧ t ≤ t' := by
  have hW' : weightSum raw' ≠ 0 := by rwa [hT.weightSum]
  have n1 := (C37_intercept (env' := envn) hd h hno hW).1
  have n2 := (C37_intercept (env' := envn) hd' h' hno' hW').1
  have hlik : logLik fam.glm raw' true (interceptOnly (linkFn fam (meanY raw')))
      = logLik fam.glm raw true (interceptOnly (linkFn fam (meanY raw))) := by
    have hoff : ∀ i, offset raw' i = offset raw i := fun i => by simp [offset, hno, hno']
    simp only [logLik, logLikAt, linPred_interceptOnly, hT.totalWt, hT.y, hT.meanY, hoff]
  have hdev : devianceOf fam.glm raw' true (interceptOnly (linkFn fam (meanY raw')))
      = devianceOf fam.glm raw true (interceptOnly (linkFn fam (meanY raw))) := by
    rw [devianceOf, devianceOf, hlik, hT.satLik]
  obtain ⟨hlike, hle⟩ := C88_nested hT hd h ha hd' h' hl1 hl2 ho
  refine ⟨_, _, _, _, C39_rsq hd h (fun _ => hW) n1 hm1 hm2 h0.ne',
    C39_rsq hd' h' (fun _ => hW') n2 hl1 hl2 (by rw [hdev]; exact h0.ne'), ?_,
    (C38_lr_null hd h (fun _ => hW) n1).1, (C38_lr_null hd' h' (fun _ => hW') n2).1, ?_⟩
  · rw [hdev]
    have := div_le_div_of_nonneg_right hle h0.le
    linarith
  · rw [C36_lr hd h, C36_lr hd' h']
    simp only [penLogLik, penalty_none hm1 hm2, penalty_none hl1 hl2, sub_zero]
    rw [C36_deviance hd h, C36_deviance hd' h', hT.satLik] at hle
    rw [hlik]
    linarith

/-! ### Strength of the penalty -/

/-- C88 (stronger L2).  Two optimal fits of the same dataset whose options differ in the L2 strength:
the stronger penalty gives smaller slopes (in the sense of what it penalizes) and a smaller objective;
without L1 it gives a larger deviance. -/
theorem C88_stronger_l2 {options₁ options₂ : FitOptions ℝ (ncols b p)} {f₁ f₂ : Fit ℝ n p b}
    (hd : raw.finalize std b = some d) (h₁ : regression env fam.glm d options₁ = .ok f₁)
    (h₂ : regression env' fam.glm d options₂ = .ok f₂) (hl1 : options₁.l1 = options₂.l1)
    (hl : options₁.l2 < options₂.l2) (hpos : 0 < options₂.l2) (a₁ : Admissible fam raw b f₁.result)
    (a₂ : Admissible fam raw b f₂.result) (o₁ : Optimal fam raw f₁) (o₂ : Optimal fam raw f₂) :
    slopeSq d f₂.result ≤ slopeSq d f₁.result ∧ f₂.modelLike ≤ f₁.modelLike ∧
      (options₁.l1 ≤ 0 → f₁.deviance ≤ f₂.deviance) := by
  have e1 := o₁ _ a₂
  have e2 := o₂ _ a₁
  rw [C36_lr hd h₁, penLogLik, penLogLik, penalty, penalty] at e1
  rw [C36_lr hd h₂, penLogLik, penLogLik, penalty, penalty, ← hl1] at e2
  change 0 ≤ 2 * ((logLik _ _ _ _ - (_ * slopeAbs d f₁.result + _ / 2 * slopeSq d f₁.result))
    - (logLik _ _ _ _ - (_ * slopeAbs d f₂.result + _ / 2 * slopeSq d f₂.result))) at e1
  change 0 ≤ 2 * ((logLik _ _ _ _ - (_ * slopeAbs d f₂.result + _ / 2 * slopeSq d f₂.result))
    - (logLik _ _ _ _ - (_ * slopeAbs d f₁.result + _ / 2 * slopeSq d f₁.result))) at e2
  rw [max_eq_left hpos.le] at e2
  have hlt : max options₁.l2 0 < options₂.l2 := max_lt hl hpos
  have hnn : 0 ≤ max options₁.l2 0 := le_max_right _ _
  have hsq : slopeSq d f₂.result ≤ slopeSq d f₁.result := by
    by_contra hcon
    push Not at hcon
    have := mul_pos (sub_pos.mpr hlt) (sub_pos.mpr hcon)
    nlinarith
  have hs2 : 0 ≤ slopeSq d f₂.result := Finset.sum_nonneg fun j _ => sq_nonneg _
  refine ⟨hsq, ?_, fun hl0 => ?_⟩
  · obtain ⟨hg, rfl, rfl, hf⟩ := regression_ofRaw hd h₁
    obtain ⟨hg', hd2, rfl, hf'⟩ := regression_ofRaw hd h₂
    rw [hf.like, hf'.like, hg, hg', hd2, penLogLik, penLogLik, penalty, penalty, ← hl1]
    change logLik _ _ _ _ - (_ * slopeAbs f₁.data f₂.result + _ / 2 * slopeSq f₁.data f₂.result)
      ≤ logLik _ _ _ _ - (_ * slopeAbs f₁.data f₁.result + _ / 2 * slopeSq f₁.data f₁.result)
    rw [max_eq_left hpos.le]
    nlinarith [mul_nonneg (sub_nonneg.mpr hlt.le) hs2]
  · rw [C36_deviance hd h₁, C36_deviance hd h₂]
    rw [max_eq_right hl0, zero_mul, zero_mul] at e1
    nlinarith [mul_nonneg hnn (sub_nonneg.mpr hsq)]

/-- C88 (stronger L1).  The same for the L1 strength. -/
theorem C88_stronger_l1 {options₁ options₂ : FitOptions ℝ (ncols b p)} {f₁ f₂ : Fit ℝ n p b}
    (hd : raw.finalize std b = some d) (h₁ : regression env fam.glm d options₁ = .ok f₁)
    (h₂ : regression env' fam.glm d options₂ = .ok f₂) (hl2 : options₁.l2 = options₂.l2)
    (hl : options₁.l1 < options₂.l1) (hpos : 0 < options₂.l1) (a₁ : Admissible fam raw b f₁.result)
    (a₂ : Admissible fam raw b f₂.result) (o₁ : Optimal fam raw f₁) (o₂ : Optimal fam raw f₂) :
    slopeAbs d f₂.result ≤ slopeAbs d f₁.result ∧ f₂.modelLike ≤ f₁.modelLike ∧
      (options₁.l2 ≤ 0 → f₁.deviance ≤ f₂.deviance) := by
  have e1 := o₁ _ a₂
  have e2 := o₂ _ a₁
  rw [C36_lr hd h₁, penLogLik, penLogLik, penalty, penalty] at e1
  rw [C36_lr hd h₂, penLogLik, penLogLik, penalty, penalty, ← hl2] at e2
  change 0 ≤ 2 * ((logLik _ _ _ _ - (_ * slopeAbs d f₁.result + _ / 2 * slopeSq d f₁.result))
    - (logLik _ _ _ _ - (_ * slopeAbs d f₂.result + _ / 2 * slopeSq d f₂.result))) at e1
  change 0 ≤ 2 * ((logLik _ _ _ _ - (_ * slopeAbs d f₂.result + _ / 2 * slopeSq d f₂.result))
    - (logLik _ _ _ _ - (_ * slopeAbs d f₁.result + _ / 2 * slopeSq d f₁.result))) at e2
  rw [max_eq_left hpos.le] at e2
  have hlt : max options₁.l1 0 < options₂.l1 := max_lt hl hpos
  have hnn : 0 ≤ max options₁.l1 0 := le_max_right _ _
  have hsq : slopeAbs d f₂.result ≤ slopeAbs d f₁.result := by
    by_contra hcon
    push Not at hcon
    have := mul_pos (sub_pos.mpr hlt) (sub_pos.mpr hcon)
    nlinarith
  have hs2 : 0 ≤ slopeAbs d f₂.result := Finset.sum_nonneg fun j _ => abs_nonneg _
  refine ⟨hsq, ?_, fun hl0 => ?_⟩
  · obtain ⟨hg, rfl, rfl, hf⟩ := regression_ofRaw hd h₁
    obtain ⟨hg', hd2, rfl, hf'⟩ := regression_ofRaw hd h₂
    rw [hf.like, hf'.like, hg, hg', hd2, penLogLik, penLogLik, penalty, penalty, ← hl2]
    change logLik _ _ _ _ - (_ * slopeAbs f₁.data f₂.result + _ / 2 * slopeSq f₁.data f₂.result)
      ≤ logLik _ _ _ _ - (_ * slopeAbs f₁.data f₁.result + _ / 2 * slopeSq f₁.data f₁.result)
    rw [max_eq_left hpos.le]
    nlinarith [mul_nonneg (sub_nonneg.mpr hlt.le) hs2]
  · rw [C36_deviance hd h₁, C36_deviance hd h₂]
    rw [max_eq_right hl0, zero_div, zero_mul, zero_mul] at e1
    nlinarith [mul_nonneg hnn (sub_nonneg.mpr hsq)]

/-- C88 (shrinkage).  What an optimal fit pays in penalty it must gain in deviance over the null
model: the slopes tend to zero as a strength grows, at a known rate. -/
theorem C88_shrinkage (hd : raw.finalize std b = some d)
    (h : regression env fam.glm d options = .ok f) (ho : Optimal fam raw f)
    (hW : raw.linearOffset = none → weightSum raw ≠ 0) {v : ℝ} {par : Vec ℝ (ncols b p)}
    (hn : f.nullModelFit envn = .ok (v, par)) (hp : Admissible fam raw b par) :
    max options.l2 0 * slopeSq d f.result + 2 * max options.l1 0 * slopeAbs d f.result
      ≤ devianceOf fam.glm raw b par - f.deviance := by
  have e := ho _ hp
  obtain ⟨-, hs⟩ := C37_value hd h hW hn
  have hp0 : penalty options.l1 options.l2 (scale d) b par = 0 := by simp [penalty, hs]
  rw [C36_lr hd h, penLogLik, penLogLik, hp0, penalty] at e
  change 0 ≤ 2 * ((logLik _ _ _ _ - (_ * slopeAbs d f.result + _ / 2 * slopeSq d f.result))
    - (logLik _ _ _ _ - 0)) at e
  rw [C36_deviance hd h, devianceOf]
  linarith

/-! ### The hypotheses are met -/

/-- The responses 0, 1, 4 with frequencies 1, 2, 1 and no features. -/
noncomputable def exPlain : Dataset ℝ 3 0 false where
  y := ![0, 1, 4]
  x := fun _ => Fin.elim0
  linearOffset := none
  weights := none
  freqs := some ![1, 2, 1]
  standardizer := none

/-- The straight line contains the constant. -/
theorem exPlain_nested : Nested (b := true) (b' := true)
    (fun i _ => if i = 0 then 1 else 0 : Matrix (Fin 2) (Fin 1) ℝ) exPlain (exRaw ![0, 1, 4]) where
  y := rfl
  weights := rfl
  freqs := rfl
  pred β i := by
    rw [exRaw_linPred, linPred]
    refine Eq.trans ?_ (congrArg (· + _) (Fin.sum_univ_one _).symm)
    simp only [mulVec, dotProduct]
    refine (congrArg₂ (fun u v => u + _ * v) (Fin.sum_univ_one _) (Fin.sum_univ_one _)).trans ?_
    simp [design, exPlain, offset]

theorem exPlain_totalWt (i : Fin 3) : totalWt exPlain i = ![1, 2, 1] i := by
  simp [totalWt, freq, varWt, exPlain]

theorem exPlain_linPred (c : ℝ) (i : Fin 3) : linPred exPlain true ![c] i = c := by
  rw [linPred]
  refine (congrArg (· + _) (Fin.sum_univ_one _)).trans ?_
  simp [design, exPlain, offset]

theorem exPlain_nonneg (i : Fin 3) : 0 ≤ totalWt exPlain i := by
  rw [exPlain_totalWt]; fin_cases i <;> norm_num

theorem exPlain_gram : IsUnit (gram exPlain true).det := by
  rw [isUnit_iff_ne_zero]
  refine ne_of_eq_of_ne (Matrix.det_fin_one _) ?_
  simp only [gram, exPlain_totalWt, Fin.sum_univ_three]
  simp [design]
  norm_num

theorem exPlain_solution : IsLeastSquares exPlain true ![3 / 2] := by
  rw [isLeastSquares_iff exPlain_nonneg]
  funext j
  rw [lin_score]
  simp only [exPlain_linPred, exPlain_totalWt, Fin.sum_univ_three]
  refine Fin.cases ?_ (fun j => j.elim0) (j : Fin 1)
  simp [design, exPlain]; norm_num

theorem exPlain_fit : ∃ d f, exPlain.finalize false true = some d ∧
    regression (exactEnv 0 0) Family.linear.glm d (exOpts 0 0 none 1) = .ok f ∧
    f.result = ![3 / 2] := by
  obtain ⟨d, hd⟩ : ∃ d, exPlain.finalize false true = some d := ⟨_, rfl⟩
  have hs := exPlain_solution
  generalize (![3 / 2] : Vec ℝ (ncols true 0)) = βs at hs ⊢
  have hset : LinSetting (exactEnv 0 0) exPlain false d (exOpts 0 0 none 1) βs :=
    ⟨exactEnv_exact le_rfl 0, hd, le_rfl, le_rfl, exPlain_nonneg, exPlain_gram, hs⟩
  obtain ⟨f, hf, hr, -⟩ := C57_exact_least_squares hset rfl le_rfl
  exact ⟨d, f, hd, hf, hr⟩

/-- `C88_nested` and `C88_rsq`: a constant and a straight line. -/
example : ∃ (d : Dataset ℝ 3 0 true) (f : Fit ℝ 3 0 true) (d' : Dataset ℝ 3 1 true)
    (f' : Fit ℝ 3 1 true), exPlain.finalize false true = some d ∧
    (exRaw ![0, 1, 4]).finalize true true = some d' ∧
    regression (exactEnv 0 0) Family.linear.glm d (exOpts 0 0 none 1) = .ok f ∧
    regression (exactEnv 0 0) Family.linear.glm d' (exOpts 0 0 none 1) = .ok f' ∧
    Optimal .linear (exRaw ![0, 1, 4]) f' ∧ f'.deviance ≤ f.deviance ∧
    ∃ r r', f.rSq (exactEnv 0 0) = .ok r ∧ f'.rSq (exactEnv 0 0) = .ok r' ∧ r ≤ r' := by
  obtain ⟨d, f, hd, h, hr⟩ := exPlain_fit
  obtain ⟨d', f', hd', h', hr', hs⟩ := exLinFit_score true
  have hc : Spec.Concave .linear (exRaw ![0, 1, 4]) :=
    ⟨trivial, trivial, Or.inl trivial, fun i => (exRaw_totalWt_pos _ i).le⟩
  have ho := C88_optimal hc hd' le_rfl h' (fun _ => trivial) hs
  have hW : weightSum exPlain = 4 := by
    simp only [weightSum, exPlain_totalWt, Fin.sum_univ_three]; simp; norm_num
  have hm : meanY exPlain = 3 / 2 := by
    simp only [meanY, hW, exPlain_totalWt, Fin.sum_univ_three]; simp [exPlain]; norm_num
  have hD : 0 < devianceOf Family.linear.glm exPlain true
      (interceptOnly (linkFn .linear (meanY exPlain))) := by
    have e := C36_deviance hd h
    rw [hr] at e
    have hi : (interceptOnly (linkFn .linear (meanY exPlain)) : Vec ℝ (ncols true 0)) = ![3 / 2] := by
      funext j
      refine Fin.cases ?_ (fun j => j.elim0) (j : Fin 1)
      rw [hm]
      simp [interceptOnly, linkFn, canonicalLink]
    rw [devianceOf, hi, ← e, (C36_linear hd h).1, (C36_linear hd h).2, hr]
    simp only [exPlain_linPred, exPlain_totalWt, Fin.sum_univ_three]
    simp [exPlain]
    norm_num
  obtain ⟨r, r', -, -, h1, h2, h3, -⟩ := C88_rsq (envn := exactEnv 0 0) exPlain_nested hd h
    (fun _ => trivial) hd' h' le_rfl le_rfl le_rfl le_rfl ho rfl rfl (by rw [hW]; norm_num) hD
  exact ⟨d, f, d', f', hd, hd', h, h', ho,
    (C88_nested exPlain_nested hd h (fun _ => trivial) hd' h' le_rfl le_rfl ho).2, r, r', h1, h2, h3⟩

/-- Optimal fits of every L2 strength, to any responses. -/
theorem exRidge_optimal (y : Vec ℝ 3) (l2 : ℝ) {d : Dataset ℝ 3 1 true}
    (hd : (exRaw y).finalize true true = some d) : ∃ f,
    regression (exactEnv 0 0) Family.linear.glm d (exOpts 0 l2 none 1) = .ok f ∧
      Admissible .linear (exRaw y) true f.result ∧ Optimal .linear (exRaw y) f := by
  have hw : ∀ i, 0 ≤ totalWt (exRaw y) i := fun i => (exRaw_totalWt_pos y i).le
  obtain ⟨βs, h, -⟩ := C78_solution (raw := exRaw y) (b := true) (l2 := l2)
    (Dataset.scale_pos hd) hw (Or.inl (exRaw_gram_det y))
  have hs : RidgeSetting (exactEnv 0 0) (exRaw y) true d (exOpts 0 l2 none 1) βs :=
    ⟨exactEnv_exact le_rfl 0, hd, le_rfl, hw, Or.inl (exRaw_gram_det y), h⟩
  obtain ⟨f, hf, hr, -⟩ := C78_exact_ridge hs rfl le_rfl
  refine ⟨f, hf, fun _ => trivial, ?_⟩
  refine C88_optimal ⟨trivial, trivial, Or.inl trivial, hw⟩ hd le_rfl hf (fun _ => trivial) ?_
  rw [(C10_external (Family.lawfulAdj .linear) hd le_rfl hf).2.1, hr]
  exact hs.score_eq

/-- `C88_stronger_l2`: strengths 1 and 2. -/
example (y : Vec ℝ 3) : ∃ (d : Dataset ℝ 3 1 true) (f₁ f₂ : Fit ℝ 3 1 true),
    (exRaw y).finalize true true = some d ∧
    regression (exactEnv 0 0) Family.linear.glm d (exOpts 0 1 none 1) = .ok f₁ ∧
    regression (exactEnv 0 0) Family.linear.glm d (exOpts 0 2 none 1) = .ok f₂ ∧
    slopeSq d f₂.result ≤ slopeSq d f₁.result ∧ f₁.deviance ≤ f₂.deviance := by
  obtain ⟨d, hd⟩ := exRaw_finalize y true true
  obtain ⟨f₁, h₁, a₁, o₁⟩ := exRidge_optimal y 1 hd
  obtain ⟨f₂, h₂, a₂, o₂⟩ := exRidge_optimal y 2 hd
  obtain ⟨e1, -, e3⟩ := C88_stronger_l2 hd h₁ h₂ rfl (by norm_num [exOpts]) (by norm_num [exOpts])
    a₁ a₂ o₁ o₂
  exact ⟨d, f₁, f₂, hd, h₁, h₂, e1, e3 le_rfl⟩

/-- `C88_optimal_l1`, `C88_stronger_l1`: two L1 fits of Poisson counts, all one. -/
theorem exL1_optimal (l1 : ℝ) (hl : 0 < l1) {d : Dataset ℝ 3 1 true}
    (hd : (exRaw ![1, 1, 1]).finalize true true = some d) : ∃ f,
    regression (exactEnv (1 / 1000) 7) Family.poisson.glm d (exOpts l1 0 (some 0) 5) = .ok f ∧
      Admissible .poisson (exRaw ![1, 1, 1]) true f.result ∧
      Optimal .poisson (exRaw ![1, 1, 1]) f := by
  have hs : scoreVec Family.poisson.glm (exRaw ![1, 1, 1]) true 0 = 0 := by
    have := exPoisson_stationary (fun _ => 1) 0
    unfold penScore at this
    funext j
    have h := congrFun this j
    simpa [onSlopes_zero] using h
  obtain ⟨f, h1, -, h2⟩ := C35_zero_start (options := exOpts l1 0 (some 0) 5)
    (exactEnv_exact (by norm_num : (0 : ℝ) ≤ 1 / 1000) 7) (Family.lawfulAdj .poisson) hd
    hl (by norm_num [exOpts]) (fun i => (exRaw_totalWt_pos _ i).le)
    (Family.variance_nonneg .poisson trivial) (by norm_num) rfl hs
  have ha : Admissible .poisson (exRaw ![1, 1, 1]) true f.result := fun _ => trivial
  refine ⟨f, h1, ha, C88_optimal_l1 ⟨trivial, trivial, Or.inl trivial,
    fun i => (exRaw_totalWt_pos _ i).le⟩ hd h1 ha ?_⟩
  rw [h2]
  refine ⟨fun _ => 0, fun j => ⟨?_, by simp [slopes]⟩, ?_⟩
  · rw [abs_zero]
    exact mul_nonneg (le_max_right _ _) (Dataset.scale_pos hd j).le
  · rw [hs]
    funext j
    refine Fin.cases ?_ (fun j => ?_) (j : Fin 2) <;> simp [onSlopes, slopes]

example : ∃ (d : Dataset ℝ 3 1 true) (f₁ f₂ : Fit ℝ 3 1 true),
    (exRaw ![1, 1, 1]).finalize true true = some d ∧
    regression (exactEnv (1 / 1000) 7) Family.poisson.glm d (exOpts 1 0 (some 0) 5) = .ok f₁ ∧
    regression (exactEnv (1 / 1000) 7) Family.poisson.glm d (exOpts 2 0 (some 0) 5) = .ok f₂ ∧
    slopeAbs d f₂.result ≤ slopeAbs d f₁.result ∧ f₁.deviance ≤ f₂.deviance := by
  obtain ⟨d, hd⟩ := exRaw_finalize ![1, 1, 1] true true
  obtain ⟨f₁, h₁, a₁, o₁⟩ := exL1_optimal 1 one_pos hd
  obtain ⟨f₂, h₂, a₂, o₂⟩ := exL1_optimal 2 two_pos hd
  obtain ⟨e1, -, e3⟩ := C88_stronger_l1 hd h₁ h₂ rfl (by norm_num [exOpts]) (by norm_num [exOpts])
    a₁ a₂ o₁ o₂
  exact ⟨d, f₁, f₂, hd, h₁, h₂, e1, e3 le_rfl⟩

/-- `C88_shrinkage`: the ridge fits above. -/
example (y : Vec ℝ 3) (l2 : ℝ) (hl : 0 < l2) : ∃ (d : Dataset ℝ 3 1 true) (f : Fit ℝ 3 1 true),
    (exRaw y).finalize true true = some d ∧
    regression (exactEnv 0 0) Family.linear.glm d (exOpts 0 l2 none 1) = .ok f ∧
    l2 * slopeSq d f.result
      ≤ devianceOf Family.linear.glm (exRaw y) true (interceptOnly (meanY (exRaw y))) - f.deviance := by
  obtain ⟨d, hd⟩ := exRaw_finalize y true true
  obtain ⟨f, h, -, o⟩ := exRidge_optimal y l2 hd
  have hW : weightSum (exRaw y) ≠ 0 := by
    simp only [weightSum, exRaw_totalWt, Fin.sum_univ_three]; simp; norm_num
  have e := C88_shrinkage hd h o (fun _ => hW) (C37_intercept (env' := exactEnv 0 0) hd h rfl hW).1
    (fun _ => trivial)
  refine ⟨d, f, hd, h, ?_⟩
  simpa [exOpts, max_eq_left hl.le, linkFn, canonicalLink] using e

/-- The model without intercept is contained in the one with it. -/
theorem exRaw_nested (y : Vec ℝ 3) : Nested (b := false) (b' := true)
    (fun i _ => if i = 0 then 0 else 1 : Matrix (Fin 2) (Fin 1) ℝ) (exRaw y) (exRaw y) where
  y := rfl
  weights := rfl
  freqs := rfl
  pred β i := by
    rw [exRaw_linPred, linPred]
    refine Eq.trans ?_ (congrArg (· + _) (Fin.sum_univ_one _).symm)
    simp only [mulVec, dotProduct]
    refine (congrArg₂ (fun u v => u + _ * v) (Fin.sum_univ_one _) (Fin.sum_univ_one _)).trans ?_
    simp [design, exRaw, offset]

theorem exRaw_linPred' (y : Vec ℝ 3) (β : Vec ℝ 1) (i : Fin 3) :
    linPred (exRaw y) false β i = ![0, 1, 2] i * β 0 := by
  rw [linPred]
  refine (congrArg (· + _) (Fin.sum_univ_one _)).trans ?_
  simp [design, exRaw, offset]

theorem exRaw_gram' (y : Vec ℝ 3) : IsUnit (gram (exRaw y) false).det := by
  rw [isUnit_iff_ne_zero]
  refine ne_of_eq_of_ne (Matrix.det_fin_one _) ?_
  simp only [gram, exRaw_totalWt, Fin.sum_univ_three]
  simp [design, exRaw]
  norm_num

/-- Responses on a line through the origin, fitted without an intercept. -/
theorem exOrigin_small : ∃ d f, (exRaw ![0, 2, 4]).finalize true false = some d ∧
    regression (exactEnv 0 0) Family.linear.glm d (exOpts 0 0 none 1) = .ok f ∧
    f.deviance = 0 := by
  obtain ⟨d, hd⟩ := exRaw_finalize ![0, 2, 4] true false
  have hw : ∀ i, 0 ≤ totalWt (exRaw ![0, 2, 4]) i := fun i => (exRaw_totalWt_pos _ i).le
  have hs : IsLeastSquares (exRaw ![0, 2, 4]) false ![2] := by
    rw [isLeastSquares_iff hw]
    funext j
    rw [lin_score]
    simp only [exRaw_linPred', exRaw_totalWt, Fin.sum_univ_three]
    refine Fin.cases ?_ (fun j => j.elim0) (j : Fin 1)
    simp [design, exRaw]; norm_num
  have hdev : ∑ i, totalWt (exRaw ![0, 2, 4]) i
      * ((exRaw ![0, 2, 4]).y i - linPred (exRaw ![0, 2, 4]) false ![2] i) ^ 2 = 0 := by
    simp only [exRaw_linPred', exRaw_totalWt, Fin.sum_univ_three]
    simp [exRaw]; norm_num
  generalize (![2] : Vec ℝ (ncols false 1)) = βs at hs hdev
  have hset : LinSetting (exactEnv 0 0) (exRaw ![0, 2, 4]) true d (exOpts 0 0 none 1) βs :=
    ⟨exactEnv_exact le_rfl 0, hd, le_rfl, le_rfl, hw, exRaw_gram' _, hs⟩
  obtain ⟨f, hf, hr, -⟩ := C57_exact_least_squares hset rfl le_rfl
  refine ⟨d, f, hd, hf, ?_⟩
  rw [(C36_linear hd hf).1, (C36_linear hd hf).2, hr]
  exact hdev

/-- The same with an intercept. -/
theorem exOrigin_large : ∃ d f, (exRaw ![0, 2, 4]).finalize true true = some d ∧
    regression (exactEnv 0 0) Family.linear.glm d (exOpts 0 0 none 1) = .ok f ∧
    f.deviance = 0 ∧ f.score f.result = 0 := by
  obtain ⟨d, hd⟩ := exRaw_finalize ![0, 2, 4] true true
  have hw : ∀ i, 0 ≤ totalWt (exRaw ![0, 2, 4]) i := fun i => (exRaw_totalWt_pos _ i).le
  have hs : IsLeastSquares (exRaw ![0, 2, 4]) true ![0, 2] := by
    rw [isLeastSquares_iff hw]
    funext j
    rw [lin_score]
    simp only [exRaw_linPred, exRaw_totalWt, Fin.sum_univ_three]
    refine Fin.cases ?_ (fun j => ?_) (j : Fin 2)
    · simp [design, exRaw]; norm_num
    · fin_cases j
      simp [design, exRaw]; norm_num
  have hdev : ∑ i, totalWt (exRaw ![0, 2, 4]) i
      * ((exRaw ![0, 2, 4]).y i - linPred (exRaw ![0, 2, 4]) true ![0, 2] i) ^ 2 = 0 := by
    simp only [exRaw_linPred, exRaw_totalWt, Fin.sum_univ_three]
    simp [exRaw]; norm_num
  generalize (![0, 2] : Vec ℝ (ncols true 1)) = βs at hs hdev
  have hset : LinSetting (exactEnv 0 0) (exRaw ![0, 2, 4]) true d (exOpts 0 0 none 1) βs :=
    ⟨exactEnv_exact le_rfl 0, hd, le_rfl, le_rfl, hw, exRaw_gram_det _, hs⟩
  obtain ⟨f, hf, hr, -⟩ := C57_exact_least_squares hset rfl le_rfl
  refine ⟨d, f, hd, hf, ?_, ?_⟩
  · rw [(C36_linear hd hf).1, (C36_linear hd hf).2, hr]
    exact hdev
  · rw [(C10_external (Family.lawfulAdj .linear) hd le_rfl hf).2.1, hr]
    funext j
    have := congrFun hset.score_eq j
    simp only [penScore, max_eq_right hset.noL1, max_eq_right hset.noL2, zero_mul, add_zero,
      onSlopes_zero, sub_zero]
    exact this

/-- `C88_no_gain`: the intercept does not help there. -/
example : ∃ (d : Dataset ℝ 3 1 false) (f : Fit ℝ 3 1 false) (d' : Dataset ℝ 3 1 true)
    (f' : Fit ℝ 3 1 true), (exRaw ![0, 2, 4]).finalize true false = some d ∧
    (exRaw ![0, 2, 4]).finalize true true = some d' ∧
    regression (exactEnv 0 0) Family.linear.glm d (exOpts 0 0 none 1) = .ok f ∧
    regression (exactEnv 0 0) Family.linear.glm d' (exOpts 0 0 none 1) = .ok f' ∧
    ∀ i, f.yHat i = f'.yHat i := by
  obtain ⟨d, f, hd, h, hz⟩ := exOrigin_small
  obtain ⟨d', f', hd', h', hz', hs⟩ := exOrigin_large
  exact ⟨d, f, d', f', hd, hd', h, h', fun i => C88_no_gain (fam := .linear) (exRaw_nested _)
    ⟨trivial, trivial, Or.inl trivial, fun i => (exRaw_totalWt_pos _ i).le⟩ hd h (fun _ => trivial)
    hd' h' le_rfl le_rfl (fun _ => trivial) hs (by rw [hz, hz']) i (exRaw_totalWt_pos _ i)⟩

end GLM
