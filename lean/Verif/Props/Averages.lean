/-
  C111: observations with equal features may be averaged.
-/
import Verif.Spec.Averages
import Verif.Props.Exposure
import Verif.Props.TwoArms

namespace GLM
open Spec Matrix
variable {n m p : ℕ} {b : Bool} {env env' env'' : Env ℝ} {fam : Family}
  {c : Fin n → Fin m} {raw : Dataset ℝ n p false} {agg : Dataset ℝ m p false}

section
variable (h : Averages c raw agg)
include h

theorem avg_design (i : Fin n) (j : Fin (ncols b p)) : design b raw.x i j = design b agg.x (c i) j := by
  cases b
  · exact congrFun (h.features i) j
  · refine Fin.cases rfl (fun j => ?_) j
    exact congrFun (h.features i) j

theorem avg_linPred (β : Vec ℝ (ncols b p)) (i : Fin n) : linPred raw b β i = linPred agg b β (c i) := by
  simp only [linPred, avg_design h, h.offsets]

/-- Sums of terms that are linear in the response. -/
theorem avg_sum (A B : Fin m → ℝ) :
    ∑ i, totalWt raw i * (raw.y i * A (c i) + B (c i)) = ∑ k, totalWt agg k * (agg.y k * A k + B k) := by
  rw [sum_cells c]
  refine Finset.sum_congr rfl fun k _ => ?_
  rw [mul_add, ← mul_assoc, h.response, h.weight, Finset.sum_mul, Finset.sum_mul, ← Finset.sum_add_distrib]
  refine Finset.sum_congr rfl fun i hi => ?_
  rw [(Finset.mem_filter.mp hi).2]; ring

/-- **C111** (averaging).  Putting one observation, with their mean response and total weight, in the place of
several with equal features and offsets changes neither the log-likelihood nor the score nor the information
at any coefficients, for every family and link. -/
theorem C111_average (fam : Family) (b : Bool) (β : Vec ℝ (ncols b p)) :
    logLik fam.glm raw b β = logLik fam.glm agg b β ∧
    scoreVec fam.glm raw b β = scoreVec fam.glm agg b β ∧
    fisherMat fam.glm raw b β = fisherMat fam.glm agg b β := by
  refine ⟨?_, funext fun j => ?_, ?_⟩
  · have := avg_sum h (fun k => (fam.glm (F := ℝ)).link.natParam (linPred agg b β k))
      (fun k => -cumulant fam ((fam.glm (F := ℝ)).link.natParam (linPred agg b β k)))
    simp only [logLik, logLikAt, logLikeNatural_real, avg_linPred h]
    simpa only [sub_eq_add_neg] using this
  · have := avg_sum h (fun k => (fam.glm (F := ℝ)).link.dNatParam (linPred agg b β k) * design b agg.x k j)
      (fun k => -((fam.glm (F := ℝ)).link.dNatParam (linPred agg b β k) * meanAt fam.glm agg b β k
        * design b agg.x k j))
    simp only [scoreVec, meanAt, avg_linPred h, avg_design h]
    refine Eq.trans ?_ (this.trans ?_)
    · exact Finset.sum_congr rfl fun i _ => by rw [meanAt]; ring
    · exact Finset.sum_congr rfl fun i _ => by rw [meanAt]; ring
  · ext j k'
    have := avg_sum h (fun _ => 0) (fun k => (fam.glm (F := ℝ)).link.dNatParam (linPred agg b β k) ^ 2
      * (fam.glm (F := ℝ)).variance (meanAt fam.glm agg b β k) * design b agg.x k j * design b agg.x k k')
    simp only [fisherMat, meanAt, avg_linPred h, avg_design h]
    refine Eq.trans ?_ (this.trans ?_)
    · exact Finset.sum_congr rfl fun i _ => by rw [meanAt]; ring
    · exact Finset.sum_congr rfl fun i _ => by rw [meanAt]; ring

end

/-- Two fits are penalized alike: without penalties, or with the same L2 penalty and without standardization
(which depends on the number of observations). -/
def AlikePenalized (std std' : Bool) (o o' : FitOptions ℝ (ncols b p)) : Prop :=
  o.l1 ≤ 0 ∧ o'.l1 ≤ 0 ∧ (o.l2 ≤ 0 ∧ o'.l2 ≤ 0 ∨ std = false ∧ std' = false ∧ o.l2 = o'.l2)

theorem scale_false {d : Dataset ℝ n p b} (hd : raw.finalize false b = some d) : scale d = fun _ => 1 := by
  simp only [Dataset.finalize, Bool.false_eq_true, if_false, Option.some.injEq] at hd
  subst hd
  rfl

theorem alike_penalties {std std' : Bool} {d : Dataset ℝ n p b} {d' : Dataset ℝ m p b}
    {o o' : FitOptions ℝ (ncols b p)} (hd : raw.finalize std b = some d) (hd' : agg.finalize std' b = some d')
    (hp : AlikePenalized std std' o o') :
    (∀ j, max o.l2 0 * scale d j ^ 2 = max o'.l2 0 * scale d' j ^ 2) ∧ max o.l1 0 = 0 ∧ max o'.l1 0 = 0 := by
  obtain ⟨h1, h1', h2 | ⟨rfl, rfl, h2⟩⟩ := hp
  · exact ⟨fun j => by rw [max_eq_right h2.1, max_eq_right h2.2, zero_mul, zero_mul], max_eq_right h1,
      max_eq_right h1'⟩
  · exact ⟨fun j => by rw [scale_false hd, scale_false hd', h2], max_eq_right h1, max_eq_right h1'⟩

/-- **C111** (averaged fits).  Fits of the observations and of their averages that are penalized alike, at
which the score vanishes, have the same coefficients when the features are linearly independent, and the same
score, information and test statistics against any alternative.  Their deviances differ by a number that does
not depend on the model. -/
theorem C111_average_fit (h : Averages c raw agg) {std std' : Bool} {d : Dataset ℝ n p b}
    {d' : Dataset ℝ m p b} {o o' : FitOptions ℝ (ncols b p)} {f : Fit ℝ n p b} {f' : Fit ℝ m p b}
    (hd : raw.finalize std b = some d) (hd' : agg.finalize std' b = some d')
    (hf : regression env fam.glm d o = .ok f) (hf' : regression env' fam.glm d' o' = .ok f')
    (hp : AlikePenalized std std' o o') (hc : Spec.Concave fam raw) (hrank : IsUnit (gram raw b).det)
    (ha : Admissible fam raw b f.result) (ha' : Admissible fam agg b f'.result)
    (hs : f.score f.result = 0) (hs' : f'.score f'.result = 0) :
    f'.result = f.result ∧ f.deviance = f'.deviance + withinCells fam raw agg ∧
    (∀ β, f'.score β = f.score β ∧ f'.fisher β = f.fisher β ∧ f'.lrTestAgainst β = f.lrTestAgainst β ∧
      f'.waldTestAgainst β = f.waldTestAgainst β ∧
      f'.scoreTestAgainst env'' β = f.scoreTestAgainst env'' β) ∧
    ∀ C C', f.covariance env'' = .ok C → f'.covariance env'' = .ok C' →
      ∀ i j, f.dispersion * C' i j = f'.dispersion * C i j := by
  have hav := C111_average h fam b
  obtain ⟨hl2, l1, l1'⟩ := alike_penalties hd hd' hp
  have hlf := Family.lawfulAdj fam
  obtain ⟨-, a2, a3, a4, a5, -⟩ := C10_external hlf hd hp.1 hf
  obtain ⟨-, c2, c3, c4, c5, -⟩ := C10_external hlf hd' hp.2.1 hf'
  have ps : ∀ β, penScore fam.glm agg b o'.l1 o'.l2 (scale d') β
      = penScore fam.glm raw b o.l1 o.l2 (scale d) β := by
    intro β
    funext j
    simp only [penScore, l1, l1', zero_mul, zero_add, ← mul_assoc, hl2, (hav β).2.1]
  have pl : ∀ β, penLogLik fam.glm agg b o'.l1 o'.l2 (scale d') β
      = penLogLik fam.glm raw b o.l1 o.l2 (scale d) β := by
    intro β
    have e : ∀ (l2 : ℝ) (σ : Fin p → ℝ), l2 / 2 * ∑ j, (σ j * slopes b β j) ^ 2
        = ∑ j, l2 * σ j ^ 2 * (slopes b β j ^ 2 / 2) := fun l2 σ => by
      rw [Finset.mul_sum]; exact Finset.sum_congr rfl fun j _ => by ring
    simp only [penLogLik, penalty, l1, l1', zero_mul, zero_add, e, hl2, (hav β).1]
  have rm : ridgeMat o'.l2 (scale d') b = ridgeMat o.l2 (scale d) b := by
    simp only [ridgeMat, hl2]
  have sc : ∀ β, f'.score β = f.score β := fun β => by rw [a2, c2, ps]
  have fi : ∀ β, f'.fisher β = f.fisher β := fun β => by
    have : Matrix.of (f'.fisher β) = Matrix.of (f.fisher β) := by rw [a3, c3, rm, (hav β).2.2]
    exact Matrix.of.injective this
  have hσ := Dataset.scale_pos hd
  have hpd : (gram raw b + ridgeMat o.l2 (scale d) b).PosDef := by
    refine PosDef.of_dotProduct_mulVec_pos
      (isHermitian_of_symm (gram_symm.add (isSymm_diagonal _))) fun x hx => ?_
    rw [show star x = x from by ext; simp, add_mulVec, dotProduct_add]
    have h1 := gram_pos hc.weights hrank hx
    have h2 := ridge_nonneg (b := b) o.l2 (scale d) x
    linarith
  have hr : f'.result = f.result := by
    by_contra hne
    have hadm : Admissible fam raw b f'.result := fun i => by rw [avg_linPred h]; exact ha' (c i)
    have h1 := C29_unique_optimum hc hσ hpd ha (by rw [← a2]; exact hs) hadm hne
    have h2 := C29_unique_optimum hc hσ hpd hadm (by rw [← a2, ← sc]; exact hs') ha (Ne.symm hne)
    exact lt_asymm h1 h2
  refine ⟨hr, ?_, fun β => ⟨sc β, fi β, ?_, ?_, ?_⟩, ?_⟩
  · rw [C36_deviance hd hf, C36_deviance hd' hf', hr, (hav _).1, withinCells, satLik, satLik]
    ring
  · rw [a4, c4, pl, pl, hr]
  · rw [a5, c5, rm, (hav β).2.2, hr]
  · unfold Fit.scoreTestAgainst
    rw [sc, fi]
  · intro C C' hC hC' i j
    have dat : ∀ {n : ℕ} {raw : Dataset ℝ n p false} {std : Bool} {d : Dataset ℝ n p b}
        {o : FitOptions ℝ (ncols b p)} {f : Fit ℝ n p b} {env : Env ℝ}, raw.finalize std b = some d →
        regression env fam.glm d o = .ok f →
        Matrix.of (f.data.inverseTransformFisher (f.fisherDataStd f.resultStd))
          = fisherMat fam.glm raw b f.result := by
      intro n raw std d o f env hd h
      obtain ⟨hg, rfl, rfl, hf⟩ := regression_ofRaw hd h
      rw [← hg, ← Dataset.finalize_fisher (hg ▸ hlf) hd, ← hf.resultStd]
      exact f.data.inverseTransformFisher_eq _
    have dd : f'.data.inverseTransformFisher (f'.fisherDataStd f'.resultStd)
        = f.data.inverseTransformFisher (f.fisherDataStd f.resultStd) := by
      have e := dat hd hf
      have e' := dat hd' hf'
      rw [hr, ← (hav f.result).2.2, ← e] at e'
      exact Matrix.of.injective e'
    unfold Fit.covariance Fit.fisherInv at hC hC'
    rw [fi, hr, dd] at hC'
    cases hF : env''.inv (f.fisher f.result) with
    | error e => rw [hF] at hC; simp [bind, Except.bind] at hC
    | ok a =>
      rw [hF] at hC hC'
      simp only [bind, Except.bind, pure, Except.pure, Except.ok.injEq] at hC hC'
      rw [← hC, ← hC']
      ring

/-- The proportions of successes of `exArms`: one in two and two in three. -/
noncomputable def exProportions : Dataset ℝ 2 1 false where
  y := ![1 / 2, 2 / 3]
  x := fun i _ => (![0, 1] : Fin 2 → ℝ) i
  linearOffset := none
  weights := some ![2, 3]
  freqs := none
  standardizer := none

theorem exProportions_averages : Averages (![0, 0, 1, 1, 1] : Fin 5 → Fin 2) exArms exProportions where
  features i := by funext j; fin_cases i <;> simp [exArms, exProportions]
  offsets i := by simp [offset, exArms, exProportions]
  weight k := by
    simp only [exArms_totalWt, Finset.sum_filter, Fin.sum_univ_five]
    fin_cases k
    · simp [totalWt, freq, varWt, exProportions]; norm_num
    · simp [totalWt, freq, varWt, exProportions]; norm_num
  response k := by
    simp only [exArms_totalWt, Finset.sum_filter, Fin.sum_univ_five]
    fin_cases k <;> (simp [totalWt, freq, varWt, exProportions, exArms]; try norm_num)

/-- `C111_average_fit`: logistic regression of five successes and failures and of two proportions. -/
theorem C111_example (m : ℕ) : ∃ d f d' f',
    exArms.finalize false true = some d ∧ exProportions.finalize false true = some d' ∧
    regression (exactEnv (1 / 1000) 7) Family.logisticLogit.glm d
      (exOpts 0 0 (some (![0, Real.log 2] : Fin 2 → ℝ)) m) = .ok f ∧
    regression (exactEnv (1 / 1000) 7) Family.logisticLogit.glm d'
      (exOpts 0 0 (some (![0, Real.log 2] : Fin 2 → ℝ)) m) = .ok f' ∧
    f.score f.result = 0 ∧ f'.score f'.result = 0 ∧
    f'.result = f.result ∧ diff f'.result = Real.log 2 ∧
    f.deviance = f'.deviance + withinCells .logisticLogit exArms exProportions ∧
    f'.scoreTestAgainst (exactEnv 0 0) 0 = f.scoreTestAgainst (exactEnv 0 0) 0 := by
  obtain ⟨d, f, h, hs⟩ := exArms_fit .logisticLogit trivial false m (β := (![0, Real.log 2] : Fin 2 → ℝ))
    (by rw [funcInv_real]; simp [icpt]; norm_num)
    (by rw [funcInv_real]; simp [icpt, diff, Real.exp_neg, Real.exp_log]; norm_num)
  have hav := C111_average exProportions_averages .logisticLogit true
  have hp : ∀ {k : ℕ} {r : Dataset ℝ k 1 false} {σ} (β : Vec ℝ (ncols true 1)),
      penScore Family.logisticLogit.glm r true 0 0 σ β = scoreVec Family.logisticLogit.glm r true β := by
    intro k r σ β
    funext j
    simp only [penScore, max_self, zero_mul, add_zero, onSlopes_zero, sub_zero]
  have hst : scoreVec Family.logisticLogit.glm exProportions true (![0, Real.log 2] : Fin 2 → ℝ) = 0 := by
    rw [← (hav _).2.1, scoreVec_arms exArms_arms rfl]
    have e0 : armScore .logisticLogit exArms (![0, Real.log 2] : Fin 2 → ℝ) 0 = 0 := by
      rw [armScore, exArms_sum.1, exArms_wt.1, funcInv_real]; simp [icpt]; norm_num
    have e1 : armScore .logisticLogit exArms (![0, Real.log 2] : Fin 2 → ℝ) 1 = 0 := by
      rw [armScore, exArms_sum.2, exArms_wt.2, funcInv_real]
      simp [icpt, diff, Real.exp_neg, Real.exp_log]; norm_num
    rw [e0, e1, add_zero]
    funext j
    change Fin 2 at j
    fin_cases j <;> rfl
  have hw : ∀ i, 0 ≤ totalWt exProportions i := fun i => by
    fin_cases i <;> simp [totalWt, freq, varWt, exProportions]
  have hg : IsUnit (gram exProportions true).det := by
    rw [isUnit_iff_ne_zero]
    refine (Matrix.det_fin_two _).trans_ne ?_
    simp only [gram, Fin.sum_univ_two]
    simp [design, totalWt, freq, varWt, exProportions]
    norm_num
  obtain ⟨f', hf', -, -, hr'⟩ := C22_stationary_start
    (options := exOpts 0 0 (some (![0, Real.log 2] : Fin 2 → ℝ) : Option (Vec ℝ (ncols true 1))) m)
    (exactEnv_exact (by norm_num : (0 : ℝ) ≤ 1 / 1000) 7) (Family.lawfulAdj .logisticLogit)
    (rfl : exProportions.finalize false true = some _) le_rfl rfl
    ((isUnit_iff_isUnit_det _).mp
      (C30_fullRank_posDef (by norm_num [exactEnv]) hw
      (fun _ => Family.variance_nonneg .logisticLogit trivial _) hg).isUnit) ((hp _).trans hst)
  have hs' : f'.score f'.result = 0 := by
    rw [(C10_external (Family.lawfulAdj .logisticLogit)
      (rfl : exProportions.finalize false true = some _) le_rfl hf').2.1 f'.result, hr']
    exact (hp _).trans hst
  have hc : Spec.Concave .logisticLogit exArms :=
    ⟨trivial, trivial, .inl trivial, fun i => by rw [exArms_totalWt]; norm_num⟩
  obtain ⟨e1, e2, e3, -⟩ := C111_average_fit (env'' := exactEnv 0 0) exProportions_averages h.built
    (rfl : exProportions.finalize false true = some _) h.fit hf' ⟨le_rfl, le_rfl, .inl ⟨le_rfl, le_rfl⟩⟩ hc
    exArms_gram (fun _ => trivial) (fun _ => trivial) hs hs'
  exact ⟨d, f, _, f', h.built, rfl, h.fit, hf', hs, hs', e1, by rw [hr']; rfl, e2, (e3 0).2.2.2.2⟩

end GLM
