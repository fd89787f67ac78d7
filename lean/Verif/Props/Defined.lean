/-
  Properties C60-C63: no undefined operation.

  The other theorems about numbers are over `ℝ`, where division by zero and the logarithm of a
  non-positive number are given arbitrary values.  Here the same model is run in the arithmetic
  `NReal` of `Verif.Spec.Strict`, where those operations give not-a-number and not-a-number
  propagates through arithmetic and fails every comparison.
-/
import Verif.Lemmas.StrictBuild
import Verif.Lemmas.Saturation
import Verif.Props.Families

namespace GLM
open Set Spec Scalar NReal

/-! ### C60: the families -/

/-- C60: the link is defined at every admissible mean and is the documented function. -/
theorem C60_link (fam : Family) {μ : ℝ} (h : μ ∈ meanDom fam) :
    (fam.glm (F := NReal)).link.func (val μ) = val (linkFn fam μ) := by
  rw [← func_eq_linkFn fam μ]
  cases fam
  case linear => rfl
  case logisticLogit =>
    have h0 : (1 : ℝ) - μ ≠ 0 := (sub_pos.mpr h.2).ne'
    have h1 : 0 < μ / (1 - μ) := div_pos h.1 (sub_pos.mpr h.2)
    simp only [Family.glm, logisticGlm, linkLogit, one_eq, sub_val, div_val _ h0, ln_val h1]
  case logisticCloglog =>
    have h0 : -1 < -μ := neg_lt_neg h.2
    have h1 : 0 < -ln1p (-μ) := by
      rw [ln1p_real, neg_pos]
      exact Real.log_neg (by linarith [h.2]) (by linarith [h.1])
    simp only [Family.glm, logisticGlm, linkCloglog, neg_val, ln1p_val h0, ln_val h1]
  case poisson => exact ln_val h
  case binomial N =>
    have h0 : (ofNat N : ℝ) - μ ≠ 0 := (sub_pos.mpr h.2).ne'
    have h1 : 0 < μ / (ofNat N - μ) := div_pos h.1 (sub_pos.mpr h.2)
    simp only [Family.glm, binomialGlm, linkBinLogit, ofNat_val, sub_val, div_val _ h0, ln_val h1]
  case exponentialLog => exact ln_val h
  case gammaLog => exact ln_val h
  case invGaussLog => exact ln_val h
  case exponentialNegRec => exact congrArg (-·) (recip_val (ne_of_gt h))
  case gammaNegRec => exact congrArg (-·) (recip_val (ne_of_gt h))
  case invGaussNegRecSq =>
    have h0 : two * μ * μ ≠ 0 := by
      have : (0 : ℝ) < μ := h
      simp only [two_real]; positivity
    exact congrArg (-·) (recip_val h0)

/-- C60: everything the crate computes from a linear predictor is defined on the predictor domain:
the mean, the natural parameter and its derivative, and the working errors and variances, whatever
the response and variance. -/
theorem C60_predictor (fam : Family) {ω : ℝ} (h : ω ∈ predDom fam) (e v : ℝ) :
    (fam.glm (F := NReal)).link.funcInv (val ω) = val ((fam.glm (F := ℝ)).link.funcInv ω) ∧
    (fam.glm (F := NReal)).link.natParam (val ω) = val ((fam.glm (F := ℝ)).link.natParam ω) ∧
    (fam.glm (F := NReal)).link.dNatParam (val ω) = val ((fam.glm (F := ℝ)).link.dNatParam ω) ∧
    (fam.glm (F := NReal)).link.adjustErrors (val e) (val ω)
      = val ((fam.glm (F := ℝ)).link.adjustErrors e ω) ∧
    (fam.glm (F := NReal)).link.adjustVariance (val v) (val ω)
      = val ((fam.glm (F := ℝ)).link.adjustVariance v ω) ∧
    (fam.glm (F := NReal)).link.adjustErrorsVariance (val e) (val v) (val ω)
      = (val ((fam.glm (F := ℝ)).link.adjustErrorsVariance e v ω).1,
         val ((fam.glm (F := ℝ)).link.adjustErrorsVariance e v ω).2) := by
  have hp : (1 : ℝ) + exp (-ω) ≠ 0 := by simp only [exp_real]; positivity
  cases fam
  case linear => exact ⟨rfl, rfl, rfl, rfl, rfl, rfl⟩
  case logisticLogit => exact ⟨recip_val hp, rfl, rfl, rfl, rfl, rfl⟩
  case logisticCloglog =>
    have h0 : 0 < expm1 (exp ω) := by
      simp only [exp_real, expm1_real, sub_pos]
      exact Real.one_lt_exp_iff.mpr (Real.exp_pos ω)
    have h1 : expm1 (-(exp ω)) ≠ 0 := by
      simp only [exp_real, expm1_real]
      have := Real.exp_pos ω
      have := Real.exp_lt_one_iff.mpr (neg_lt_zero.mpr this)
      linarith
    have hn : ln (expm1 (exp (val ω))) = val (ln (expm1 (exp ω))) := ln_val h0
    have hd : (-(exp (val ω))) / expm1 (-(exp (val ω))) = val ((-(exp ω)) / expm1 (-(exp ω))) :=
      div_val _ h1
    refine ⟨rfl, hn, hd, ?_, ?_, ?_⟩ <;>
      simp only [Family.glm, logisticGlm, linkCloglog, Transform.ofNatParam, hd, mul_val]
  case poisson => exact ⟨rfl, rfl, rfl, rfl, rfl, rfl⟩
  case binomial N => exact ⟨div_val _ hp, rfl, rfl, rfl, rfl, rfl⟩
  case exponentialLog => exact ⟨rfl, rfl, rfl, rfl, rfl, rfl⟩
  case gammaLog => exact ⟨rfl, rfl, rfl, rfl, rfl, rfl⟩
  case invGaussLog => exact ⟨rfl, rfl, rfl, rfl, rfl, rfl⟩
  case exponentialNegRec =>
    exact ⟨congrArg (-·) (recip_val (ne_of_lt h)), rfl, rfl, rfl, rfl, rfl⟩
  case gammaNegRec => exact ⟨congrArg (-·) (recip_val (ne_of_lt h)), rfl, rfl, rfl, rfl, rfl⟩
  case invGaussNegRecSq =>
    have hω : ω < 0 := h
    have h0 : (0 : ℝ) < -two * ω := by simp only [two_real]; linarith
    have h1 : sqrt (-two * ω) ≠ 0 := (Real.sqrt_pos.mpr h0).ne'
    have h2 : sqrt (-two * val ω) = val (sqrt (-two * ω)) := sqrt_val h0.le
    refine ⟨?_, rfl, rfl, rfl, rfl, rfl⟩
    simp only [Family.glm, invGaussGlm, linkNegRecSq, h2, recip_val h1]

/-- C60: the variance function is defined at every admissible mean. -/
theorem C60_variance (fam : Family) (hv : ValidFamily fam) (μ : ℝ) :
    (fam.glm (F := NReal)).variance (val μ) = val (varianceFn fam μ) := by
  rw [← variance_real]
  cases fam
  case binomial N =>
    have h0 : (ofNat N : ℝ) ≠ 0 := by
      have : 0 < N := hv
      simp only [ofNat_real]; positivity
    exact div_val _ h0
  all_goals rfl

/-- C60: the log-likelihood of any response is defined on the natural parameter space, and is
`y η - A(η)`. -/
theorem C60_log_like (fam : Family) {η : ℝ} (h : η ∈ natDom fam) (y : ℝ) :
    (fam.glm (F := NReal)).logPartition (val η) = val (cumulant fam η) ∧
    (fam.glm (F := NReal)).logLikeNatural (val y) (val η) = val (y * η - cumulant fam η) := by
  have hA : (fam.glm (F := NReal)).logPartition (val η) = val (cumulant fam η) := by
    rw [← logPartition_real]
    have he : (-1 : ℝ) < exp η := lt_trans (by norm_num) (Real.exp_pos η)
    cases fam
    case linear => rfl
    case poisson => rfl
    case logisticLogit => exact ln1p_val he
    case logisticCloglog => exact ln1p_val he
    case binomial N => exact congrArg (ofNat N * ·) (ln1p_val he)
    case exponentialLog => exact congrArg (-·) (ln_val (neg_pos.mpr h))
    case gammaLog => exact congrArg (-·) (ln_val (neg_pos.mpr h))
    case exponentialNegRec => exact congrArg (-·) (ln_val (neg_pos.mpr h))
    case gammaNegRec => exact congrArg (-·) (ln_val (neg_pos.mpr h))
    all_goals
      have hω : η < 0 := h
      have h0 : (0 : ℝ) ≤ -two * η := by simp only [two_real]; linarith
      exact congrArg (-·) (sqrt_val h0)
  refine ⟨hA, ?_⟩
  have hl : ∀ x : ℝ, (-1 : ℝ) < exp x := fun x => lt_trans (by norm_num) (Real.exp_pos x)
  have hlog : logisticLogLikeNatural (val y) (val η) = val (logisticLogLikeNatural y η) := by
    unfold logisticLogLikeNatural
    by_cases hc : lt η 0 = true
    · have hc' : lt (val η) 0 = true := hc
      simp only [if_pos hc, if_pos hc', exp_val, ln1p_val (hl _), mul_val, sub_val]
    · have hc' : ¬ lt (val η) 0 = true := hc
      simp only [if_neg hc, if_neg hc', neg_val, exp_val, ln1p_val (hl _), one_eq, mul_val, sub_val]
  cases fam
  case logisticLogit => exact hlog.trans (congrArg val (logLikeNatural_real .logisticLogit y η))
  case logisticCloglog => exact hlog.trans (congrArg val (logLikeNatural_real .logisticCloglog y η))
  all_goals exact congrArg (val (y * η) - ·) hA

/-- C60: the saturated log-likelihood of every admissible response, including boundary values, is
defined, and is the least upper bound of the log-likelihood over the natural parameter space. -/
theorem C60_saturated (fam : Family) (hv : ValidFamily fam) {y : ℝ} (h : y ∈ yDom fam) :
    ∃ s : ℝ, (fam.glm (F := NReal)).logLikeSat (val y) = val s ∧
      IsLUB ((fun η => y * η - cumulant fam η) '' natDom fam) s := by
  refine ⟨(fam.glm (F := ℝ)).logLikeSat y, ?_, ?_⟩
  · cases fam
    case linear => rfl
    case logisticLogit =>
      exact congrArg₂ (· + ·) (prodLog_val h.1) (prodLog_val (sub_nonneg.mpr h.2))
    case logisticCloglog =>
      exact congrArg₂ (· + ·) (prodLog_val h.1) (prodLog_val (sub_nonneg.mpr h.2))
    case poisson => exact congrArg (· - val y) (prodLog_val h)
    case binomial N =>
      have hN : (0 : ℝ) ≤ ofNat N := by simp
      exact congrArg₂ (· - ·) (congrArg₂ (· + ·) (prodLog_val h.1)
        (prodLog_val (sub_nonneg.mpr h.2))) (prodLog_val hN)
    case exponentialLog => exact congrArg (fun t => -(1 + t)) (ln_val h)
    case gammaLog => exact congrArg (fun t => -(1 + t)) (ln_val h)
    case exponentialNegRec => exact congrArg (fun t => -(1 + t)) (ln_val h)
    case gammaNegRec => exact congrArg (fun t => -(1 + t)) (ln_val h)
    all_goals exact congrArg (half * ·) (recip_val (ne_of_gt h))
  · have h1 := logLikeSat_isLUB fam hv h
    have h2 : (fam.glm (F := ℝ)).logLikeNatural y = fun η => y * η - cumulant fam η :=
      funext fun η => logLikeNatural_real fam y η
    rwa [h2] at h1

/-- C60: outside the closure of the natural parameter space the log-likelihood is not a number, so
no comparison with it succeeds. -/
theorem C60_outside (fam : Family) {η : ℝ} (h : η ∉ closure (natDom fam)) (y : NReal) :
    (fam.glm (F := NReal)).logLikeNatural y (val η) = nan := by
  have hη : natDom fam = Iio 0 → 0 < η := by
    intro hd
    rw [hd, closure_Iio] at h
    exact not_le.mp h
  cases fam
  case linear => exact absurd (by simp [natDom]) h
  case logisticLogit => exact absurd (by simp [natDom]) h
  case logisticCloglog => exact absurd (by simp [natDom]) h
  case poisson => exact absurd (by simp [natDom]) h
  case binomial N => exact absurd (by simp [natDom]) h
  case invGaussNegRecSq =>
    have h0 : -two * η < 0 := by have := hη rfl; simp only [two_real]; linarith
    have h1 : -(sqrt (-two * val η)) = nan := congrArg (-·) (sqrt_neg h0)
    exact (congrArg (y * val η - ·) h1).trans (sub_nan _)
  case invGaussLog =>
    have h0 : -two * η < 0 := by have := hη rfl; simp only [two_real]; linarith
    have h1 : -(sqrt (-two * val η)) = nan := congrArg (-·) (sqrt_neg h0)
    exact (congrArg (y * val η - ·) h1).trans (sub_nan _)
  all_goals
    have h1 : -(ln (-(val η))) = nan := congrArg (-·) (ln_nonpos (neg_nonpos.mpr (hη rfl).le))
    exact (congrArg (y * val η - ·) h1).trans (sub_nan _)

/-- The hypotheses are met: a complementary log-log mean, a boundary response, and a natural
parameter outside the gamma family's space. -/
example : (1 / 2 : ℝ) ∈ meanDom .logisticCloglog ∧ (0 : ℝ) ∈ yDom .poisson ∧
    (1 : ℝ) ∉ closure (natDom .gammaLog) := by
  refine ⟨by simp only [meanDom, mem_Ioo]; norm_num, le_refl (0 : ℝ), ?_⟩
  simp only [natDom, closure_Iio, mem_Iic]; norm_num

theorem tracks (fam : Family) (hv : ValidFamily fam) :
    Tracks (fam.glm (F := NReal)) (fam.glm (F := ℝ)) (predDom fam) where
  dispersed := by cases fam <;> rfl
  funcInv ω h := (C60_predictor fam h 0 0).1
  variance ω _ := by rw [C60_variance fam hv, variance_real]
  natParam ω h := (C60_predictor fam h 0 0).2.1
  dNatParam ω h := (C60_predictor fam h 0 0).2.2.1
  adjustErrors ω h e := (C60_predictor fam h e 0).2.2.2.1
  adjustVariance ω h v := (C60_predictor fam h 0 v).2.2.2.2.1
  adjustErrorsVariance ω h e v := (C60_predictor fam h e v).2.2.2.2.2
  logLike ω h y := by
    rw [(C60_log_like fam (natParam_mem fam h) y).2, logLikeNatural_real]

/-! ### C61: building and fitting -/

section fitting
variable {n p : ℕ} {b std : Bool} {raw : Dataset ℝ n p false} {d : Dataset ℝ n p b}
  {fam : Family} {env : Env ℝ} {options : FitOptions ℝ (ncols b p)}

/-- C61: building a data set, standardized or not, computes no undefined value (a single observation
must have a non-zero weight): it panics when it panics in exact arithmetic and otherwise gives the
same numbers. -/
theorem C61_build (raw : Dataset ℝ n p false) (std b : Bool)
    (h1 : std = true → n = 1 → ∀ i, totalWt raw i ≠ 0) :
    raw.strict.finalize std b = (raw.finalize std b).map Dataset.strict :=
  finalize_strict raw std b h1

/-- C61: for every family whose link accepts all predictors, every data set, weights, offset,
penalties, tolerance and budget: the whole fit, run in the arithmetic where undefined operations give
not-a-number, takes the same course and returns the same numbers as in exact arithmetic, so that no
undefined operation is ever performed.  The start is given by the caller or computed from
response means where the link is defined. -/
theorem C61_fit (hv : ValidFamily fam) (hp : predDom fam = univ)
    (hd : raw.finalize std b = some d)
    (hs : options.initGuess = none → ∀ i, (raw.y i + (∑ k, raw.y k) / n) / 2 ∈ meanDom fam) :
    regression env.strict fam.glm d.strict options.strict
      = (regression env fam.glm d options).mapBoth FitError.strict (Fit.strict fam.glm) := by
  have ht := tracks fam hv
  rw [hp] at ht
  refine ht.regression d env options ?_ ?_
  · intro ho i
    have h := hs ho i
    have e : half * (d.y i + vsum d.y / ofNat n) = (raw.y i + (∑ k, raw.y k) / n) / 2 := by
      rw [Dataset.finalize_y hd, half_real, vsum_real, ofNat_real]; ring
    rw [e, C60_link fam h, func_eq_linkFn]
  · intro s hs j
    exact ((Dataset.finalize_wf hd).scales_pos s hs j).ne'

/-- C61: the computed start is defined as soon as the responses are admissible and their mean is
strictly inside the mean domain, that is, unless all responses are at the same boundary. -/
theorem C61_start (hy : ∀ i, raw.y i ∈ yDom fam) (hm : (∑ k, raw.y k) / n ∈ meanDom fam) (i : Fin n) :
    (raw.y i + (∑ k, raw.y k) / n) / 2 ∈ meanDom fam := by
  have h := hy i
  generalize (∑ k, raw.y k) / (n : ℝ) = m at hm
  cases fam <;> simp only [yDom, meanDom, mem_univ, mem_Ioo, mem_Icc, mem_Ioi, mem_Ici] at * <;>
    first | trivial | (constructor <;> linarith) | linarith

/-- C61: and it is defined only then: if all responses are the same boundary value, the link is
applied to that boundary value and gives no number, for every observation. -/
theorem C61_boundary_start (c : ℝ) (hc : c ∈ yDom fam) (hb : c ∉ meanDom fam) :
    (fam.glm (F := NReal)).link.func (val ((c + c) / 2)) = nan := by
  have e : (c + c) / 2 = c := by ring
  rw [e]
  cases fam
  case linear => exact absurd (mem_univ _) hb
  case poisson =>
    have h0 : c ≤ 0 := not_lt.mp hb
    exact ln_nonpos h0
  case logisticLogit =>
    rcases hc.1.eq_or_lt with h0 | h0
    · rw [← h0]
      have h1 : val 0 / (1 - val 0) = val (0 / (1 - 0)) := div_val 0 (by norm_num)
      exact (congrArg ln h1).trans (ln_nonpos (by norm_num))
    · have h1 : c = 1 := le_antisymm hc.2 (not_lt.mp fun h => hb ⟨h0, h⟩)
      rw [h1]
      have h2 : val 1 / (1 - val 1) = nan := by rw [one_eq, sub_val, sub_self, div_val_zero]
      exact congrArg ln h2
  case logisticCloglog =>
    rcases hc.1.eq_or_lt with h0 | h0
    · rw [← h0]
      have h1 : ln1p (-(val 0)) = val (ln1p (-0)) := ln1p_val (by norm_num)
      have h2 : -(ln1p (-(val 0))) = val (-(ln1p (-0))) := congrArg (-·) h1
      exact (congrArg ln h2).trans (ln_nonpos (by simp))
    · have h1 : c = 1 := le_antisymm hc.2 (not_lt.mp fun h => hb ⟨h0, h⟩)
      rw [h1]
      have h2 : ln1p (-(val 1)) = nan := if_pos (le_refl (-1 : ℝ))
      exact congrArg (fun t => ln (-t)) h2
  case binomial N =>
    by_cases h1 : c = N
    · rw [h1]
      have h2 : val (N : ℝ) / (ofNat N - val (N : ℝ)) = nan := by
        rw [ofNat_val, ofNat_real, sub_val, sub_self, div_val_zero]
      exact congrArg ln h2
    · have h0 : c = 0 :=
        le_antisymm (not_lt.mp fun h => hb ⟨h, lt_of_le_of_ne hc.2 h1⟩) hc.1
      subst h0
      have h3 : (ofNat N - 0 : ℝ) ≠ 0 := by
        rw [ofNat_real, sub_zero]; exact fun h => h1 h.symm
      have h2 : val 0 / (ofNat N - val 0) = val (0 / (ofNat N - 0)) := div_val 0 h3
      exact (congrArg ln h2).trans (ln_nonpos (by simp))
  all_goals exact absurd hc hb

/-- The hypotheses of the fitting theorems are met by a Poisson regression with a zero response. -/
example : predDom .poisson = univ ∧ (∀ i : Fin 3, (![0, 1, 4] : Fin 3 → ℝ) i ∈ yDom .poisson) ∧
    (∑ k : Fin 3, (![0, 1, 4] : Fin 3 → ℝ) k) / (3 : ℕ) ∈ meanDom .poisson ∧
    (∃ d : Dataset ℝ 3 1 true, Dataset.finalize (F := ℝ)
      { y := ![0, 1, 4], x := fun i _ => ((i : ℕ) : ℝ), linearOffset := none, weights := none, freqs := none,
        standardizer := none } false true = some d) := by
  refine ⟨rfl, ?_, ?_, _, rfl⟩
  · intro i; fin_cases i <;> simp [yDom]
  · simp [meanDom, Fin.sum_univ_three]; norm_num

/-- Boundary responses exist. -/
example : (1 : ℝ) ∈ yDom .logisticLogit ∧ (1 : ℝ) ∉ meanDom .logisticLogit := by
  simp [yDom, meanDom]

end fitting

end GLM
