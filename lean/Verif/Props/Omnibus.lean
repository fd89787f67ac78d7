/-
  C115: the comparisons with the null model are not divided by the dispersion.
-/
import Verif.Props.Sampling
import Verif.Props.ResponseUnits
import Verif.Props.PValues
import Verif.Lemmas.Quantile

open MeasureTheory ProbabilityTheory

namespace GLM
open Spec
open Matrix hiding gram
variable {n p : ℕ} {b : Bool} {env env' : Env ℝ} {raw : Dataset ℝ n p false} {std : Bool}
  {Ω : Type*} [MeasurableSpace Ω] {P : Measure Ω} {Y : Ω → Vec ℝ n}

section
variable {d : Ω → Dataset ℝ n p b} {options : FitOptions ℝ (ncols b p)} {f : Ω → Fit ℝ n p b}
  {φ : ℝ} {β : Vec ℝ (ncols b p)}
  (hfr : raw.freqs = none) (hw : ∀ i, 0 < varWt raw i) (hr : IsUnit (gram raw b).det)
  (hY : RandomResponses P Y (linPred raw b β) fun i => φ / varWt raw i)
  (hd : ∀ ω, (withResponses raw (Y ω)).finalize std b = some (d ω))
  (h : ∀ ω, regression env Family.linear.glm (d ω) options = .ok (f ω))
  (hl1 : options.l1 ≤ 0) (hl2 : options.l2 ≤ 0) (hs : ∀ ω, (f ω).score (f ω).result = 0)

omit [MeasurableSpace Ω] in
include hd h hl1 hl2 in
/-- Twice the difference of the likelihoods is the difference of the sums of squares. -/
theorem lr_sse (γ : Vec ℝ (ncols b p)) (ω : Ω) : (f ω).lrTestAgainst γ
    = sse (withResponses raw (Y ω)) b γ - (f ω).deviance := by
  rw [C36_lr (hd ω) (h ω), (C36_linear (hd ω) (h ω)).1]
  have hp : ∀ γ, penLogLik linG (withResponses raw (Y ω)) b options.l1 options.l2 (scale (d ω)) γ
      = logLik linG (withResponses raw (Y ω)) b γ := fun γ => by
    rw [penLogLik, penalty, max_eq_right hl1, max_eq_right hl2]; ring
  have he := (C36_linear (hd ω) (h ω)).2
  rw [show Family.linear.glm = linG from rfl, hp, hp, lin_logLik, lin_logLik, he, sse, sse]
  ring

include hfr hw hr hY hd h hl1 hl2 hs

/-- **C115**.  For the Linear family the likelihood ratio against the true coefficients has the expectation
`φ K`, with `φ` the variance of the responses and `K` the number of coefficients. -/
theorem C115_against : Integrable (fun ω => (f ω).lrTestAgainst β) P ∧
    ∫ ω, (f ω).lrTestAgainst β ∂P = φ * (ncols b p : ℕ) := by
  have hwt : ∀ i, totalWt raw i = varWt raw i := fun i => by simp [totalWt, freq, hfr]
  have := hY.prob
  have hcen : ∀ i, MemLp (fun ω => Y ω i - linPred raw b β i) 2 P := fun i =>
    (hY.sq i).sub (memLp_const _)
  have hsq : ∀ i, ∫ ω, (Y ω i - linPred raw b β i) ^ 2 ∂P = φ / varWt raw i := by
    intro i
    rw [← hY.var i, variance_eq_integral (hY.sq i).aestronglyMeasurable.aemeasurable, hY.mean]
  have hi : ∀ i, Integrable (fun ω => varWt raw i * (Y ω i - linPred raw b β i) ^ 2) P := fun i =>
    ((hcen i).integrable_sq).const_mul _
  have h1 : ∫ ω, ∑ i, varWt raw i * (Y ω i - linPred raw b β i) ^ 2 ∂P = φ * n := by
    rw [integral_finsetSum _ fun i _ => hi i]
    have : ∀ i, ∫ ω, varWt raw i * (Y ω i - linPred raw b β i) ^ 2 ∂P = φ := fun i => by
      rw [integral_const_mul, hsq, mul_div_cancel₀ _ (hw i).ne']
    simp only [this, Finset.sum_const, Finset.card_univ, Fintype.card_fin, nsmul_eq_mul]
    ring
  have hdi : Integrable (fun ω => (f ω).deviance) P := by
    have hdev : ∀ ω, (f ω).deviance = ∑ i, varWt raw i * (f ω).residResp i ^ 2 := by
      intro ω
      obtain ⟨h1, h2⟩ := C36_linear (hd ω) (h ω)
      rw [h1, h2]
      refine Finset.sum_congr rfl fun i _ => ?_
      rw [(C51_linear (hd ω) (h ω) (fun i => (hw i).le) i).1, ← hwt]
      rfl
    simp only [hdev]
    exact integrable_finsetSum _ fun i _ =>
      ((resid_moments hfr hw hr hY hd h hl1 hl2 hs i i).1.integrable_sq).const_mul _
  have hlr : ∀ ω, (f ω).lrTestAgainst β
      = ∑ i, varWt raw i * (Y ω i - linPred raw b β i) ^ 2 - (f ω).deviance := fun ω => by
    rw [lr_sse hd h hl1 hl2]
    refine congrArg (· - _) (Finset.sum_congr rfl fun i _ => ?_)
    change totalWt raw i * (Y ω i - linPred raw b β i) ^ 2 = _
    rw [hwt]
  simp only [hlr]
  refine ⟨(integrable_finsetSum _ fun i _ => hi i).sub hdi, ?_⟩
  rw [integral_sub (integrable_finsetSum _ fun i _ => hi i) hdi, h1,
    C76_linear_deviance hfr hw hr hY hd h hl1 hl2 hs]
  ring

end

/-- **C115**.  If no feature matters, the likelihood ratio, Wald and score statistics of a linear model with
intercept, which are equal, have the expectation `φ p`, with `p` the number of features, instead of the
expectation `p` of the chi-squared distribution with `p` degrees of freedom. -/
theorem C115_null {d : Ω → Dataset ℝ n p true} {options : FitOptions ℝ (ncols true p)} {f : Ω → Fit ℝ n p true}
    {φ μ : ℝ} (hfr : raw.freqs = none) (ho : raw.linearOffset = none) (hw : ∀ i, 0 < varWt raw i)
    (hr : IsUnit (gram raw true).det)
    (hY : RandomResponses P Y (fun _ => μ) fun i => φ / varWt raw i)
    (hd : ∀ ω, (withResponses raw (Y ω)).finalize std true = some (d ω)) (he : env.Exact)
    (h : ∀ ω, regression env Family.linear.glm (d ω) options = .ok (f ω))
    (hl1 : options.l1 ≤ 0) (hl2 : options.l2 ≤ 0) (hs : ∀ ω, (f ω).score (f ω).result = 0) :
    ∃ q : Ω → ℝ, (∀ ω, (f ω).lrTest env = .ok (q ω) ∧ (f ω).waldTest env = .ok (q ω) ∧
      (f ω).scoreTest env = .ok (q ω) ∧ (f ω).testNdf = p) ∧ ∫ ω, q ω ∂P = φ * p := by
  have hwt : ∀ i, totalWt raw i = varWt raw i := fun i => by simp [totalWt, freq, hfr]
  have := hY.prob
  set W := ∑ i, varWt raw i with hWdef
  have hW0 : 0 < W := by
    refine Finset.sum_pos (fun i _ => hw i) ?_
    by_contra hne
    rw [Finset.not_nonempty_iff_eq_empty] at hne
    have : gram raw true = 0 := by
      funext k l
      rw [gram, hne]; rfl
    have : Nonempty (Fin (ncols true p)) := ⟨(0 : Fin (p + 1))⟩
    rw [‹gram raw true = 0›, det_zero] at hr
    exact not_isUnit_zero hr
  have hWs : ∀ ω, weightSum (withResponses raw (Y ω)) = W := fun ω =>
    Finset.sum_congr rfl fun i _ => hwt i
  have ho' : ∀ ω, (withResponses raw (Y ω)).linearOffset = none := fun _ => ho
  have hnull := fun ω => C37_intercept (env' := env) (hd ω) (h ω) (ho' ω) (by rw [hWs]; exact hW0.ne')
  have hb : ∀ i, linPred raw true (interceptOnly μ) i = μ := fun i => by
    rw [linPred_interceptOnly, offset_none ho, add_zero]
  have hY' : RandomResponses P Y (linPred raw true (interceptOnly μ)) fun i => φ / varWt raw i := by
    rw [show linPred raw true (interceptOnly μ) = fun _ => μ from funext hb]; exact hY
  obtain ⟨hint, hexp⟩ := C115_against hfr hw hr hY' hd h hl1 hl2 hs
  set m : Ω → ℝ := fun ω => meanY (withResponses raw (Y ω)) with hm
  have hmean : ∀ ω, m ω = 0 + ∑ i, varWt raw i / W * Y ω i := fun ω => by
    rw [hm]
    simp only [meanY]
    rw [hWs, zero_add, Finset.sum_div]
    refine Finset.sum_congr rfl fun i _ => ?_
    change totalWt raw i * Y ω i / W = _
    rw [hwt]; ring
  have hmL : MemLp m 2 P := by
    rw [show m = fun ω => 0 + ∑ i, varWt raw i / W * Y ω i from funext hmean]
    exact hY.memLp_affine 0 _
  have hm1 : ∫ ω, m ω ∂P = μ := by
    simp only [hmean]
    rw [hY.mean_affine, zero_add, ← Finset.sum_mul, ← Finset.sum_div, ← hWdef, div_self hW0.ne', one_mul]
  have hm2 : ∫ ω, (m ω - μ) ^ 2 ∂P = φ / W := by
    rw [← hm1, ← variance_eq_integral hmL.aestronglyMeasurable.aemeasurable,
      ← covariance_self hmL.aestronglyMeasurable.aemeasurable,
      show m = fun ω => 0 + ∑ i, varWt raw i / W * Y ω i from funext hmean, hY.cov_affine]
    have : ∀ i, varWt raw i / W * (varWt raw i / W) * (φ / varWt raw i) = φ / W ^ 2 * varWt raw i := fun i => by
      have := (hw i).ne'
      field_simp
    simp only [this, ← Finset.mul_sum, ← hWdef]
    field_simp
  have hsse : ∀ c ω, sse (withResponses raw (Y ω)) true (interceptOnly c) = ∑ i, varWt raw i * (Y ω i - c) ^ 2 :=
    fun c ω => by
      refine Finset.sum_congr rfl fun i _ => ?_
      have : linPred (withResponses raw (Y ω)) true (interceptOnly c) i = c := by
        rw [linPred_interceptOnly, offset_none (ho' ω), add_zero]
      rw [this]
      change totalWt raw i * _ = _
      rw [hwt]; rfl
  have hdec : ∀ ω, (f ω).lrTestAgainst (interceptOnly (m ω))
      = (f ω).lrTestAgainst (interceptOnly μ) - W * (m ω - μ) ^ 2 := by
    intro ω
    rw [lr_sse hd h hl1 hl2, lr_sse hd h hl1 hl2, hsse, hsse]
    have e : ∑ i, varWt raw i * Y ω i = W * m ω := by
      rw [hmean, zero_add, Finset.mul_sum]
      exact Finset.sum_congr rfl fun i _ => by field_simp
    have e2 : ∀ c, ∑ i, varWt raw i * (Y ω i - c) ^ 2
        = ∑ i, varWt raw i * Y ω i ^ 2 - 2 * c * (W * m ω) + W * c ^ 2 := fun c => by
      rw [← e, hWdef, Finset.mul_sum, Finset.sum_mul, ← Finset.sum_sub_distrib, ← Finset.sum_add_distrib]
      exact Finset.sum_congr rfl fun i _ => by ring
    rw [e2, e2]; ring
  refine ⟨fun ω => (f ω).lrTestAgainst (interceptOnly (m ω)), fun ω => ?_, ?_⟩
  · have hn : (f ω).nullModelFit env = .ok (_, interceptOnly (m ω)) := (hnull ω).1
    obtain ⟨c1, c2, c3⟩ := C38_lr_null (hd ω) (h ω) (fun _ => by rw [hWs]; exact hW0.ne') hn
    obtain ⟨a1, a2, a3⟩ := C38_linear (hd ω) (h ω) hl1 hl2 (hs ω) hr he (interceptOnly (m ω))
    refine ⟨c1, by rw [c2, a2, ← a1], by rw [c3, a3, ← a1], rfl⟩
  · simp only [hdec]
    have hi2 : Integrable (fun ω => W * (m ω - μ) ^ 2) P :=
      ((hmL.sub (memLp_const μ)).integrable_sq).const_mul W
    rw [integral_sub hint hi2, hexp, integral_const_mul, hm2, mul_div_cancel₀ _ hW0.ne']
    simp only [ncols]
    push_cast
    ring

/-- **C115**.  The p-value of the likelihood ratio test of a linear model is a matter of the unit in which the
responses are given.  If the statistic is positive, then for each `q` between 0 and 1 there is a unit in which
`pvalue_lr_test` is `q`, although the same model is fitted: the coefficients are converted, and the coefficient
of determination and the Wald statistics of the features are the same. -/
theorem C115_units {d : Dataset ℝ n p true} {o : FitOptions ℝ (ncols true p)} {f : Fit ℝ n p true} {v q : ℝ}
    (he : env.Exact) (hdec : env.Decides) (heps : env.eps = 0) (hd : raw.finalize std true = some d)
    (hf : regression env Family.linear.glm d o = .ok f) (ho : raw.linearOffset = none)
    (hw : ∀ i, 0 ≤ totalWt raw i) (hW : weightSum raw ≠ 0) (hr : IsUnit (gram raw true).det)
    (h1 : o.l1 ≤ 0) (h2 : o.l2 ≤ 0) (hm : 1 ≤ o.maxIter) (hp : p ≠ 0)
    (hv : f.lrTest env = .ok v) (hv0 : 0 < v) (hq0 : 0 < q) (hq1 : q < 1) :
    ∃ a > 0, ∃ f' : Fit ℝ n p true,
      regression env Family.linear.glm { d with y := fun i => a * d.y i } o = .ok f' ∧
      f'.pvalueLrTest realDists env = .ok q ∧
      f'.result = a • f.result ∧ f'.rSq env = f.rSq env ∧
      ∀ z, f.waldZ env = .ok z → ∃ z', f'.waldZ env = .ok z' ∧ ∀ j, slope z' j = slope z j := by
  have hν : (0 : ℝ) < p := by exact_mod_cast Nat.pos_of_ne_zero hp
  have := chi2Law_prob hν
  have hcont := cdfReal_continuous (chi2Law p) fun x => gammaMeasure_singleton _ _ x
  obtain ⟨hi, hhi⟩ := cdfReal_above (chi2Law p) (t := 1 - q) (by linarith)
  obtain ⟨lo, hlo⟩ := cdfReal_below (chi2Law p) (t := 1 - q) (by linarith)
  obtain ⟨x, hx⟩ := mem_range_of_exists_le_of_exists_ge hcont ⟨lo, hlo.le⟩ ⟨hi, hhi.le⟩
  have hx0 : 0 < x := by
    by_contra hneg
    have : (chi2Law p).real (Set.Iic x) = 0 := by
      rw [measureReal_def, measure_mono_null (Set.Iic_subset_Iic.mpr (not_lt.mp hneg)) (chi2Law_Iic p)]
      rfl
    simp only at hx
    linarith
  set a := √(x / v) with hadef
  have ha : 0 < a := Real.sqrt_pos.mpr (by positivity)
  have ha2 : a ^ 2 * v = x := by
    rw [hadef, Real.sq_sqrt (by positivity), div_mul_cancel₀ _ hv0.ne']
  obtain ⟨f₀, f', hf₀, hf', hres⟩ := C82_linear (s := 0) (o := o) (o' := o) ha.ne' (Or.inl rfl) he heps hd hw
    hr h1 h2 hm h1 h2 hm
  obtain rfl : f = f₀ := Outcome.ok.inj (hf.symm.trans hf₀)
  have hc : ResponseChange .linear (fun y => a * y + 0) a 0 a (a ^ 2) := .linear ha.ne' 0
  have h2' : o.l2 = a ^ 2 / a ^ 2 * o.l2 := by rw [div_self (by positivity), one_mul]
  have hT := C82_tests (fam := .linear) hc (Or.inl rfl) hd hf hf' hres he hdec trivial (fun _ => trivial)
    h1 h1 h2' hW (Or.inl ⟨rfl, ho, trivial⟩)
  have hE := C82_errors (fam := .linear) hc (Or.inl rfl) hd hf hf' hres he hdec trivial (fun _ => trivial)
    h1 h1 h2' (Or.inl rfl)
  have hod : d.linearOffset = none := (Dataset.finalize_cases hd).2.1.trans ho
  have hdd : changeResponse (fun y => a * y + 0) a d = { d with y := fun i => a * d.y i } := by
    unfold changeResponse
    rw [hod]
    simp only [add_zero]
    congr 1
  refine ⟨a, ha, f', by rw [← hdd]; exact hf', ?_, ?_, ?_, ?_⟩
  · obtain ⟨v', hv', hlr⟩ := hT.lr
    obtain rfl : v = v' := Outcome.ok.inj (hv.symm.trans hv')
    unfold Fit.pvalueLrTest
    rw [hlr, ha2]
    have hn : f'.testNdf = p := rfl
    simp only [Outcome.bind, hn, if_neg hp]
    have : realDists.chi2 (Scalar.ofNat p) = some (fun x => (chi2Law p).real (Set.Iic x),
        fun x => (chi2Law p).real (Set.Ioi x)) := if_pos hν
    rw [this]
    simp only [Fit.unwrapDist, Outcome.map]
    change Outcome.ok ((chi2Law p).real (Set.Ioi x)) = _
    rw [← Set.compl_Iic, probReal_compl_eq_one_sub measurableSet_Iic]
    simp only at hx
    rw [hx]; ring_nf
  · rw [hres]
    funext j
    refine Fin.cases ?_ (fun j => ?_) j
    · simp [changeCoef]
    · simp [changeCoef]
  · obtain ⟨r, h1, h2⟩ := hT.rSq
    rw [h1, h2]
  · intro z hz
    obtain ⟨z', hz', h⟩ := hE.waldZ z hz
    exact ⟨z', hz', fun j => by rw [h, abs_of_pos ha, div_self ha.ne', one_mul]⟩

/-! ### Non-vacuity -/

/-- Normal responses that do not depend on the feature, with the variance 100: the three statistics have the
expectation 100, while the chi-squared distribution with one degree of freedom has the expectation 1. -/
example : ∃ (P : Measure (Fin 3 → ℝ)) (f : (Fin 3 → ℝ) → Fit ℝ 3 1 true) (q : (Fin 3 → ℝ) → ℝ),
    (∀ ω, (f ω).lrTest (exactEnv 0 0) = .ok (q ω) ∧ (f ω).waldTest (exactEnv 0 0) = .ok (q ω) ∧
      (f ω).scoreTest (exactEnv 0 0) = .ok (q ω) ∧ (f ω).testNdf = 1) ∧ ∫ ω, q ω ∂P = 100 := by
  have hw : ∀ i, 0 < varWt (smRaw none) i := fun i => by norm_num [varWt, smRaw]
  have hr : IsUnit (gram (smRaw none) true).det := by
    rw [isUnit_iff_ne_zero, Matrix.det_fin_two]
    simp [gram, totalWt, freq, varWt, smRaw, Fin.sum_univ_three, design]
    norm_num
  obtain ⟨d, f, h1, h2, h3⟩ := smRaw_fits _ hw hr
  have hG := gaussian_responses (n := 3) (fun _ => 5) fun _ => 100
  have hv : (fun i : Fin 3 => ((100 : NNReal) : ℝ)) = fun i => (100 : ℝ) / varWt (smRaw none) i := by
    funext i; simp [varWt, smRaw]
  rw [hv] at hG
  obtain ⟨q, hq, hE⟩ := C115_null rfl rfl hw hr hG h1 (exactEnv_exact le_rfl 0) h2 le_rfl le_rfl h3
  exact ⟨_, f, q, hq, by rw [hE]; norm_num⟩

/-- The responses 0, 1, 4 at 0, 1, 2: with a suitable unit the p-value is one in a million, with another it is
one half. -/
example : ∃ (d : Dataset ℝ 3 1 true) (a a' : ℝ) (f f' : Fit ℝ 3 1 true),
    (exRaw ![0, 1, 4]).finalize false true = some d ∧ 0 < a ∧ 0 < a' ∧
    regression (exactEnv 0 0) Family.linear.glm { d with y := fun i => a * d.y i } (exOpts 0 0 none 1)
      = .ok f ∧
    regression (exactEnv 0 0) Family.linear.glm { d with y := fun i => a' * d.y i } (exOpts 0 0 none 1)
      = .ok f' ∧
    f.pvalueLrTest realDists (exactEnv 0 0) = .ok (1 / 10 ^ 6) ∧
    f'.pvalueLrTest realDists (exactEnv 0 0) = .ok (1 / 2) := by
  obtain ⟨d, f, hd, hf, hlr, -⟩ := exLinFit_tests false
  have key := fun {q : ℝ} => C115_units (q := q) (exactEnv_exact le_rfl 0) (exactEnv_decides 0 0) rfl hd hf rfl
    (fun i => (exRaw_totalWt_pos _ i).le) exRaw_meanY_014 (exRaw_gram_det _) le_rfl le_rfl le_rfl
    one_ne_zero hlr (by norm_num)
  obtain ⟨a, ha, f1, h1, q1, -⟩ := key (q := 1 / 10 ^ 6) (by norm_num) (by norm_num)
  obtain ⟨a', ha', f2, h2, q2, -⟩ := key (q := 1 / 2) (by norm_num) (by norm_num)
  exact ⟨d, a, a', f1, f2, hd, ha, ha', h1, h2, q1, q2⟩

end GLM
