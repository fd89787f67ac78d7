/-
  C80: fitted means balance the responses.
-/
import Verif.Props.Coding
import Verif.Props.Tests
import Verif.Props.Ascent

namespace GLM
open Spec Matrix
variable {n p : ℕ} {b : Bool} {env : Env ℝ} {raw : Dataset ℝ n p false} {std : Bool}

theorem dNatParam_canonical {fam : Family} (hc : IsCanonical fam) (w : ℝ) :
    (fam.glm (F := ℝ)).link.dNatParam w = 1 := by
  cases fam <;> first | rfl | exact hc.elim

section intercept
variable {fam : Family} {d : Dataset ℝ n p true} {options : FitOptions ℝ (ncols true p)}
  {f : Fit ℝ n p true}

theorem design_intercept (x : Mat ℝ n p) (i : Fin n) :
    design true x i (0 : Fin (p + 1)) = 1 := rfl

/-- The first entry of the score, with any penalties: they spare the intercept. -/
theorem score_intercept (hd : raw.finalize std true = some d)
    (h : regression env fam.glm d options = .ok f) (β : Vec ℝ (ncols true p)) :
    f.score β (0 : Fin (p + 1)) = ∑ i, totalWt raw i
      * (fam.glm (F := ℝ)).link.dNatParam (linPred raw true β i)
      * (raw.y i - meanAt fam.glm raw true β i) := by
  obtain ⟨rfl', rfl, rfl, hf⟩ := regression_ofRaw hd h
  have hs := Fit.score_ext hd (rfl' ▸ Family.lawfulAdj fam) hf.same β
  rw [hs, rfl']
  change scoreVec fam.glm raw true β (0 : Fin (p + 1)) - (0 : ℝ) = _
  rw [sub_zero]
  refine Finset.sum_congr rfl fun i _ => ?_
  rw [design_intercept, mul_one]

/-- **C80** (balance).  With an intercept and a canonical link, the intercept entry of `score(β)` is the
weighted sum of the responses minus that of the means at `β`, whatever the penalties. -/
theorem C80_balance (hc : IsCanonical fam) (hd : raw.finalize std true = some d)
    (h : regression env fam.glm d options = .ok f) (β : Vec ℝ (ncols true p)) :
    f.score β (0 : Fin (p + 1)) = ∑ i, totalWt raw i * raw.y i
      - ∑ i, totalWt raw i * meanAt fam.glm raw true β i := by
  rw [score_intercept hd h, ← Finset.sum_sub_distrib]
  refine Finset.sum_congr rfl fun i _ => ?_
  rw [dNatParam_canonical hc]
  ring

/-- **C80** (means).  If that entry vanishes at the result, the fitted values have the same weighted sum
as the responses; in general they differ by at most the size of the entry. -/
theorem C80_means (hc : IsCanonical fam) (hd : raw.finalize std true = some d)
    (h : regression env fam.glm d options = .ok f) {τ : ℝ}
    (hs : |f.score f.result (0 : Fin (p + 1))| ≤ τ) :
    |∑ i, totalWt raw i * f.yHat i - ∑ i, totalWt raw i * raw.y i| ≤ τ := by
  have e := C80_balance hc hd h f.result
  obtain ⟨g1, -, -, hf⟩ := regression_ofRaw hd h
  have hy : ∀ i, f.yHat i = meanAt fam.glm raw true f.result i := fun i => by rw [hf.mean, g1]
  simp only [hy]
  rw [abs_sub_comm, ← e]
  exact hs

/-- **C80** (log link).  For the Exponential and Gamma families with a logarithmic link, a vanishing
intercept entry means that the ratios of responses to fitted values average to one. -/
theorem C80_ratios (hl : fam = .exponentialLog ∨ fam = .gammaLog)
    (hd : raw.finalize std true = some d) (h : regression env fam.glm d options = .ok f)
    (hs : f.score f.result (0 : Fin (p + 1)) = 0) :
    ∑ i, totalWt raw i * (raw.y i / f.yHat i) = weightSum raw := by
  have e := score_intercept hd h f.result
  obtain ⟨g1, -, -, hf⟩ := regression_ofRaw hd h
  rw [hs] at e
  have hterm : ∀ i, totalWt raw i * (fam.glm (F := ℝ)).link.dNatParam (linPred raw true f.result i)
      * (raw.y i - meanAt fam.glm raw true f.result i)
      = totalWt raw i * (raw.y i / f.yHat i) - totalWt raw i := by
    intro i
    have hm : meanAt fam.glm raw true f.result i = Real.exp (linPred raw true f.result i) := by
      rcases hl with rfl | rfl <;> rfl
    have hη : (fam.glm (F := ℝ)).link.dNatParam (linPred raw true f.result i)
        = Real.exp (-linPred raw true f.result i) := by
      rcases hl with rfl | rfl <;> rfl
    rw [hf.mean, g1, hm, hη, Real.exp_neg]
    have := Real.exp_ne_zero (linPred raw true f.result i)
    field_simp
  simp only [hterm, Finset.sum_sub_distrib] at e
  exact (sub_eq_zero.mp e.symm)

end intercept

/-- **C80** (features).  Without penalties and with a canonical link, `score(β)` is the weighted sum of
each column times the difference of responses and means; where it vanishes, responses and fitted values
have the same weighted product with every feature. -/
theorem C80_features {fam : Family} {d : Dataset ℝ n p b} {options : FitOptions ℝ (ncols b p)}
    {f : Fit ℝ n p b} (hc : IsCanonical fam) (hd : raw.finalize std b = some d)
    (hl1 : options.l1 ≤ 0) (hl2 : options.l2 ≤ 0) (h : regression env fam.glm d options = .ok f)
    (hs : f.score f.result = 0) (j : Fin (ncols b p)) :
    ∑ i, totalWt raw i * f.yHat i * design b raw.x i j
      = ∑ i, totalWt raw i * raw.y i * design b raw.x i j := by
  have e := congrFun ((C10_external (Family.lawfulAdj fam) hd hl1 h).2.1 f.result) j
  obtain ⟨g1, -, -, hf⟩ := regression_ofRaw hd h
  rw [hs] at e
  simp only [penScore, max_eq_right hl1, max_eq_right hl2, zero_mul, add_zero, onSlopes_zero,
    Pi.zero_apply, sub_zero] at e
  have e1 : scoreVec fam.glm raw b f.result j
      = ∑ i, totalWt raw i * raw.y i * design b raw.x i j
        - ∑ i, totalWt raw i * f.yHat i * design b raw.x i j := by
    rw [← Finset.sum_sub_distrib]
    refine Finset.sum_congr rfl fun i _ => ?_
    rw [dNatParam_canonical hc, hf.mean, g1]
    ring
  rw [e1] at e
  exact (sub_eq_zero.mp e.symm).symm

/-- **C80** (groups).  If the features are the indicators of groups, there is no intercept, offset or
penalty, and the score vanishes at the result, then the fitted value of every observation is the
weighted mean of the responses of its group, for every family and link. -/
theorem C80_groups {fam : Family} {d : Dataset ℝ n p false} {options : FitOptions ℝ (ncols false p)}
    {f : Fit ℝ n p false} (grp : Fin n → Fin p)
    (hx : raw.x = fun i k => if grp i = k then 1 else 0) (ho : raw.linearOffset = none)
    (hd : raw.finalize std false = some d) (hl1 : options.l1 ≤ 0) (hl2 : options.l2 ≤ 0)
    (h : regression env fam.glm d options = .ok f) (hs : f.score f.result = 0) (i : Fin n)
    (hw : ∑ k with grp k = grp i, totalWt raw k ≠ 0) :
    f.yHat i = (∑ k with grp k = grp i, totalWt raw k * raw.y k)
      / ∑ k with grp k = grp i, totalWt raw k := by
  have e := congrFun ((C10_external (Family.lawfulAdj fam) hd hl1 h).2.1 f.result) (grp i)
  obtain ⟨g1, -, -, hf⟩ := regression_ofRaw hd h
  rw [hs] at e
  simp only [penScore, max_eq_right hl1, max_eq_right hl2, zero_mul, add_zero, onSlopes_zero,
    Pi.zero_apply, sub_zero] at e
  have hlin : ∀ k, linPred raw false f.result k = f.result (grp k) := by
    intro k
    have : ∑ j : Fin p, raw.x k j * f.result j = f.result (grp k) := by
      rw [hx]; simp
    refine (congrArg (· + offset raw k) this).trans ?_
    simp [offset, ho]
  have hm : ∀ k, grp k = grp i → meanAt fam.glm raw false f.result k = f.yHat i := by
    intro k hk
    rw [hf.mean, g1, meanAt, meanAt, hlin, hlin, hk]
  set c := (fam.glm (F := ℝ)).link.dNatParam (f.result (grp i)) with hcdef
  have e1 : scoreVec fam.glm raw false f.result (grp i)
      = c * (∑ k with grp k = grp i, totalWt raw k * raw.y k
        - f.yHat i * ∑ k with grp k = grp i, totalWt raw k) := by
    rw [Finset.mul_sum, ← Finset.sum_sub_distrib, Finset.mul_sum, Finset.sum_filter]
    refine Finset.sum_congr rfl fun k _ => ?_
    have hdk : design false raw.x k (grp i) = if grp k = grp i then 1 else 0 := by
      change raw.x k (grp i) = _
      rw [hx]
    rw [hdk]
    split
    · rename_i hk
      rw [hm k hk, hlin, hk, hcdef]
      ring
    · rw [mul_zero]
  rw [e1] at e
  have hpos := dNatParam_pos fam (f.result (grp i))
  rcases mul_eq_zero.mp e.symm with h0 | h0
  · exact absurd h0 hpos.ne'
  · rw [eq_div_iff hw]
    exact (sub_eq_zero.mp h0).symm

/-- **C80** (explained variance).  For a least-squares fit with an intercept, without penalty, whose
score vanishes, the weighted sum of squares of the responses about their mean is that of the fitted
values about it plus the residual sum of squares. -/
theorem C80_explained {d : Dataset ℝ n p true} {options : FitOptions ℝ (ncols true p)}
    {f : Fit ℝ n p true} (hd : raw.finalize std true = some d) (hl1 : options.l1 ≤ 0)
    (hl2 : options.l2 ≤ 0) (h : regression env Family.linear.glm d options = .ok f)
    (ho : raw.linearOffset = none) (hs : f.score f.result = 0) :
    ∑ i, totalWt raw i * (raw.y i - meanY raw) ^ 2
      = ∑ i, totalWt raw i * (f.yHat i - meanY raw) ^ 2 + f.rss := by
  have hfe := C80_features (fam := .linear) trivial hd hl1 hl2 h hs
  obtain ⟨g1, -, -, hf⟩ := regression_ofRaw hd h
  have hy : ∀ i, f.yHat i = ∑ j, design true raw.x i j * f.result j := by
    intro i
    rw [hf.mean, g1]
    change linPred raw true f.result i = _
    simp [linPred, offset, ho]
  have hrss : f.rss = ∑ i, totalWt raw i * (raw.y i - f.yHat i) ^ 2 := by
    rw [hf.rss]
    exact Finset.sum_congr rfl fun i _ => by rw [hf.mean]
  have h1 : ∑ i, totalWt raw i * (raw.y i - f.yHat i) = 0 := by
    have := hfe (0 : Fin (p + 1))
    simp only [design_intercept, mul_one] at this
    simp only [mul_sub, Finset.sum_sub_distrib, this, sub_self]
  have h2 : ∑ i, totalWt raw i * (raw.y i - f.yHat i) * f.yHat i = 0 := by
    have e : ∀ i, totalWt raw i * (raw.y i - f.yHat i) * f.yHat i
        = ∑ j, f.result j * (totalWt raw i * raw.y i * design true raw.x i j
          - totalWt raw i * f.yHat i * design true raw.x i j) := by
      intro i
      conv_lhs => rw [hy i, Finset.mul_sum]
      refine Finset.sum_congr rfl fun j _ => ?_
      rw [← hy i]
      ring
    simp only [e]
    rw [Finset.sum_comm]
    refine Finset.sum_eq_zero fun j _ => ?_
    rw [← Finset.mul_sum, Finset.sum_sub_distrib, hfe j, sub_self, mul_zero]
  have e : ∀ i, totalWt raw i * (raw.y i - meanY raw) ^ 2
      = totalWt raw i * (f.yHat i - meanY raw) ^ 2 + totalWt raw i * (raw.y i - f.yHat i) ^ 2
        + 2 * (totalWt raw i * (raw.y i - f.yHat i) * f.yHat i)
        - 2 * meanY raw * (totalWt raw i * (raw.y i - f.yHat i)) := fun i => by ring
  simp only [e, Finset.sum_sub_distrib, Finset.sum_add_distrib, ← Finset.mul_sum, h1, h2, hrss]
  ring

/-- **C80** (share explained).  Then `r_sq()` is the weighted sum of squares of the fitted values about
the mean of the responses, divided by that of the responses. -/
theorem C80_rsq {env' : Env ℝ} {d : Dataset ℝ n p true} {options : FitOptions ℝ (ncols true p)}
    {f : Fit ℝ n p true} (hd : raw.finalize std true = some d) (hl1 : options.l1 ≤ 0)
    (hl2 : options.l2 ≤ 0) (h : regression env Family.linear.glm d options = .ok f)
    (ho : raw.linearOffset = none) (hW : weightSum raw ≠ 0) (hs : f.score f.result = 0)
    (h0 : ∑ i, totalWt raw i * (raw.y i - meanY raw) ^ 2 ≠ 0) :
    f.rSq env' = .ok ((∑ i, totalWt raw i * (f.yHat i - meanY raw) ^ 2)
      / ∑ i, totalWt raw i * (raw.y i - meanY raw) ^ 2) := by
  have hdev : ∀ β, devianceOf Family.linear.glm raw true β = sse raw true β := by
    intro β
    have hsat : satLik Family.linear.glm raw = (∑ i, totalWt raw i * raw.y i ^ 2) / 2 := by
      rw [satLik, Finset.sum_div]
      refine Finset.sum_congr rfl fun i _ => ?_
      rw [show (Family.linear.glm (F := ℝ)).logLikeSat (raw.y i) = raw.y i ^ 2 / 2 from ?_]
      · ring
      · rw [logLikeSat_real]
    rw [devianceOf, lin_logLik, hsat]
    ring
  have hnull : sse raw true (interceptOnly (linkFn .linear (meanY raw)))
      = ∑ i, totalWt raw i * (raw.y i - meanY raw) ^ 2 := by
    refine Finset.sum_congr rfl fun i _ => ?_
    rw [linPred_interceptOnly, offset_none ho, add_zero]
    rfl
  have hn := (C37_intercept (env' := env') (fam := .linear) hd h ho hW).1
  have hr := C39_rsq hd h (fun _ => hW) hn hl1 hl2 (by rw [hdev, hnull]; exact h0)
  rw [hr, hdev, hnull, C36_deviance hd h]
  have hexp := C80_explained hd hl1 hl2 h ho hs
  obtain ⟨g1, -, -, hf⟩ := regression_ofRaw hd h
  have hrss : f.rss = devianceOf Family.linear.glm raw true f.result := by
    rw [hf.rss, hdev, g1]
    rfl
  rw [hrss] at hexp
  refine congrArg Outcome.ok ?_
  rw [eq_div_iff h0, sub_mul, div_mul_cancel₀ _ h0, one_mul, hexp]
  exact add_sub_cancel_right _ _

/-! ### Non-vacuity -/

/-- Least squares: `C80_means`, `C80_features`, `C80_explained` and `C80_rsq`. -/
example (std : Bool) : ∃ d f, (exRaw ![0, 1, 4]).finalize std true = some d ∧
    regression (exactEnv 0 0) Family.linear.glm d (exOpts 0 0 none 1) = .ok f ∧
    |∑ i, totalWt (exRaw ![0, 1, 4]) i * f.yHat i
      - ∑ i, totalWt (exRaw ![0, 1, 4]) i * (exRaw ![0, 1, 4]).y i| ≤ 0 ∧
    (∀ j, ∑ i, totalWt (exRaw ![0, 1, 4]) i * f.yHat i * design true (exRaw ![0, 1, 4]).x i j
      = ∑ i, totalWt (exRaw ![0, 1, 4]) i * (exRaw ![0, 1, 4]).y i
          * design true (exRaw ![0, 1, 4]).x i j) ∧
    (∑ i, totalWt (exRaw ![0, 1, 4]) i * (f.yHat i - meanY (exRaw ![0, 1, 4])) ^ 2) + f.rss = 9 := by
  obtain ⟨d, f, hd, hf, hr, hs⟩ := exLinFit_score std
  refine ⟨d, f, hd, hf, C80_means (fam := .linear) trivial hd hf (by rw [hs]; simp),
    C80_features (fam := .linear) trivial hd le_rfl le_rfl hf hs, ?_⟩
  rw [← C80_explained hd le_rfl le_rfl hf rfl hs]
  simp only [meanY, weightSum, exRaw_totalWt, Fin.sum_univ_three]
  simp [exRaw]
  norm_num

/-- Gamma regression with a logarithmic link, started where its score vanishes. -/
theorem exGammaLogFit (std : Bool) (m : ℕ) :
    ∃ d f, (exRaw ![3 / 2, 1 / 2, 3 / 2]).finalize std true = some d ∧
    regression (exactEnv (1 / 1000) 7) Family.gammaLog.glm d (exOpts 0 0 (some 0) m) = .ok f ∧
    f.score f.result = 0 := by
  obtain ⟨d, hd⟩ := exRaw_finalize ![3 / 2, 1 / 2, 3 / 2] std true
  have hlin : ∀ i, linPred (exRaw ![3 / 2, 1 / 2, 3 / 2]) true 0 i = 0 := fun i => by
    rw [exRaw_linPred]; simp
  have hst : ∀ σ, penScore Family.gammaLog.glm (exRaw ![3 / 2, 1 / 2, 3 / 2]) true 0 0 σ 0 = 0 := by
    intro σ
    funext j
    have h0 : slopes true (0 : Vec ℝ (ncols true 1)) = 0 := rfl
    have hη : (Family.gammaLog.glm (F := ℝ)).link.dNatParam 0 = 1 := by
      change Real.exp (-0) = 1
      simp
    have hm : (Family.gammaLog.glm (F := ℝ)).link.funcInv 0 = 1 := Real.exp_zero
    simp only [penScore, scoreVec, meanAt, hlin, h0, hη, hm, Fin.sum_univ_three, exRaw_totalWt,
      max_self, zero_mul, add_zero, onSlopes_zero]
    change Fin 2 at j
    fin_cases j <;> simp [design, exRaw] <;> norm_num
  obtain ⟨f, h1, -, -, h2⟩ := C22_stationary_start (options := exOpts 0 0 (some 0) m)
    (exactEnv_exact (by norm_num : (0 : ℝ) ≤ 1 / 1000) 7) (Family.lawfulAdj .gammaLog) hd le_rfl rfl
    ((isUnit_iff_isUnit_det _).mp
      (C30_fullRank_posDef (by norm_num [exactEnv]) (fun i => (exRaw_totalWt_pos _ i).le)
      (fun _ => Family.variance_nonneg .gammaLog trivial _) (exRaw_gram_det _)).isUnit) (hst _)
  refine ⟨d, f, hd, h1, ?_⟩
  rw [(C10_external (Family.lawfulAdj .gammaLog) hd le_rfl h1).2.1 f.result, h2]
  exact hst _

/-- `C80_ratios` for it. -/
example (std : Bool) (m : ℕ) : ∃ d f, (exRaw ![3 / 2, 1 / 2, 3 / 2]).finalize std true = some d ∧
    regression (exactEnv (1 / 1000) 7) Family.gammaLog.glm d (exOpts 0 0 (some 0) m) = .ok f ∧
    ∑ i, totalWt (exRaw ![3 / 2, 1 / 2, 3 / 2]) i * ((exRaw ![3 / 2, 1 / 2, 3 / 2]).y i / f.yHat i)
      = weightSum (exRaw ![3 / 2, 1 / 2, 3 / 2]) := by
  obtain ⟨d, f, hd, h1, h2⟩ := exGammaLogFit std m
  exact ⟨d, f, hd, h1, C80_ratios (.inr rfl) hd h1 (congrFun h2 _)⟩

theorem exGroups'_totalWt (i : Fin 5) : totalWt exGroups' i = 1 := by
  simp [totalWt, freq, varWt, exGroups', exGroups]

theorem exGroups'_gram : IsUnit (gram exGroups' false).det := by
  rw [isUnit_iff_ne_zero]
  refine (Matrix.det_fin_two _).trans_ne ?_
  simp only [gram, exGroups'_totalWt, Fin.sum_univ_five]
  simp [design, exGroups']
  norm_num

theorem exGroups'_score (σ : Fin 2 → ℝ) :
    penScore Family.logisticLogit.glm exGroups' false 0 0 σ ![0, Real.log 2] = 0 := by
  have hlin : ∀ i, linPred exGroups' false ![0, Real.log 2] i
      = ![0, 0, Real.log 2, Real.log 2, Real.log 2] i := by
    intro i
    rw [linPred]
    refine (congrArg (· + _) (Fin.sum_univ_two _)).trans ?_
    fin_cases i <;> simp [design, exGroups', exGroups, offset]
  have hm0 : (Family.logisticLogit.glm (F := ℝ)).link.funcInv 0 = 1 / 2 := by
    rw [funcInv_real]; norm_num
  have hm1 : (Family.logisticLogit.glm (F := ℝ)).link.funcInv (Real.log 2) = 2 / 3 := by
    rw [funcInv_real]; norm_num [Real.exp_neg, Real.exp_log]
  funext j
  simp only [penScore, scoreVec, meanAt, hlin, Fin.sum_univ_five, exGroups'_totalWt,
    dNatParam_canonical (fam := .logisticLogit) trivial, max_self, zero_mul, add_zero, onSlopes_zero]
  change Fin 2 at j
  fin_cases j <;> simp [design, exGroups', exGroups, hm0, hm1] <;> norm_num

/-- Logistic regression on the indicators of two groups: `C80_groups`. -/
example (m : ℕ) : ∃ d f, exGroups'.finalize false false = some d ∧
    regression (exactEnv (1 / 1000) 7) Family.logisticLogit.glm d
      (exOpts 0 0 (some ![0, Real.log 2]) m) = .ok f ∧
    f.yHat 0 = 1 / 2 ∧ f.yHat 4 = 2 / 3 := by
  obtain ⟨d, hd⟩ : ∃ d, exGroups'.finalize false false = some d := ⟨_, rfl⟩
  obtain ⟨f, h1, -, -, h2⟩ := C22_stationary_start (raw := exGroups') (b := false) (std := false)
    (options := exOpts 0 0 (some ![0, Real.log 2]) m) (β := ![0, Real.log 2])
    (exactEnv_exact (by norm_num : (0 : ℝ) ≤ 1 / 1000) 7) (Family.lawfulAdj .logisticLogit) hd le_rfl
    rfl ((isUnit_iff_isUnit_det _).mp
      (C30_fullRank_posDef (by norm_num [exactEnv]) (fun i => by rw [exGroups'_totalWt]; norm_num)
      (fun _ => Family.variance_nonneg .logisticLogit trivial _) exGroups'_gram).isUnit)
    (exGroups'_score _)
  have hs : f.score f.result = 0 := by
    rw [(C10_external (Family.lawfulAdj .logisticLogit) hd le_rfl h1).2.1 f.result, h2]
    exact exGroups'_score _
  have hg : (![0, 0, 1, 1, 1] : Fin 5 → Fin 2) 2 = 1 ∧ (![0, 0, 1, 1, 1] : Fin 5 → Fin 2) 3 = 1 ∧
      (![0, 0, 1, 1, 1] : Fin 5 → Fin 2) 4 = 1 := ⟨rfl, rfl, rfl⟩
  have hy : (![0, 1, 0, 1, 1] : Vec ℝ 5) 2 = 0 ∧ (![0, 1, 0, 1, 1] : Vec ℝ 5) 3 = 1 ∧
      (![0, 1, 0, 1, 1] : Vec ℝ 5) 4 = 1 := ⟨rfl, rfl, rfl⟩
  have key := C80_groups (fam := .logisticLogit) (![0, 0, 1, 1, 1] : Fin 5 → Fin 2) rfl
    rfl hd le_rfl le_rfl h1 hs
  refine ⟨d, f, hd, h1, (key 0 ?_).trans ?_, (key 4 ?_).trans ?_⟩ <;>
  simp only [exGroups'_totalWt, Finset.sum_filter, Fin.sum_univ_five] <;>
  norm_num [exGroups', exGroups, hg, hy]

end GLM
