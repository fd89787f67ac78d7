/-
  C66: the response distribution and the quantile residuals.
-/
import Verif.Spec.Response
import Verif.Lemmas.Quantile
import Verif.Lemmas.Seq
import Verif.Props.ExactWald
import Verif.Lemmas.Strict

open MeasureTheory ProbabilityTheory

namespace GLM
open Scalar Spec Set

namespace NReal
theorem nan_lt (x : NReal) : lt nan x = false := rfl
theorem lt_nan (x : NReal) : lt x nan = false := by cases x <;> rfl
theorem nan_le (x : NReal) : le nan x = false := rfl
theorem le_nan (x : NReal) : le x nan = false := by cases x <;> rfl
theorem nan_eq (x : NReal) : eq nan x = false := rfl
theorem nan_div (x : NReal) : nan / x = nan := by cases x <;> rfl
theorem div_nan (x : NReal) : x / nan = nan := by cases x <;> rfl
end NReal

theorem fmax_of_le {a b : ℝ} (h : b ≤ a) : fmax a b = a := by
  simp only [fmax, lt_real, eq_real, if_neg (not_lt.mpr h), if_pos]

theorem le_fmax (a b : ℝ) : b ≤ fmax a b := by
  by_cases h : a < b
  · simp [fmax, lt_real, h]
  · rw [fmax_of_le (not_lt.mp h)]; exact not_lt.mp h

theorem fclamp_of_mem {x lo hi : ℝ} (h1 : lo ≤ x) (h2 : x ≤ hi) : fclamp x lo hi = x := by
  simp only [fclamp, lt_real, if_neg (not_lt.mpr h1), if_neg (not_lt.mpr h2)]

theorem le_fclamp {x lo hi : ℝ} (h : lo ≤ hi) : lo ≤ fclamp x lo hi := by
  by_cases h1 : x < lo
  · simp [fclamp, lt_real, h1]
  · by_cases h2 : hi < x
    · simpa [fclamp, lt_real, h1, h2] using h
    · simpa [fclamp, lt_real, h1, h2] using not_lt.mp h1

theorem gamma_args (c : F64Consts ℝ) (hc : F64Consts.Sane c) {μ φ : ℝ} (hμ : 0 < μ)
    (hr : InRange c .gammaLog μ φ) :
    (Distribution.gamma (1 / fmax φ c.epsilon)
        (fclamp (1 / fmax φ c.epsilon / μ) c.minPositive c.max)).accepted = true ∧
    HasMoments (Distribution.gamma (1 / fmax φ c.epsilon)
        (fclamp (1 / fmax φ c.epsilon / μ) c.minPositive c.max)).law μ (φ * μ ^ 2) := by
  obtain ⟨h1, h2, h3⟩ := hr
  have hφ : 0 < φ := hc.epsilon.trans_le h1
  rw [fmax_of_le h1]
  rw [← div_div] at h2 h3
  rw [fclamp_of_mem h2 h3]
  have ha : (Distribution.gamma (1 / φ) (1 / φ / μ)).accepted = true := by
    have h4 : 0 < 1 / φ := by positivity
    have h5 : 0 < 1 / φ / μ := by positivity
    simp only [Distribution.accepted, lt_real, Bool.and_eq_true]
    exact ⟨h4, h5⟩
  refine ⟨ha, ?_⟩
  convert law_moments _ ha using 1
  · field_simp
  · field_simp

/-- C66: away from underflow, the distribution built from a mean `μ` and a dispersion `φ` exists, has
mean `μ`, and has the variance the family prescribes: `φ V(μ)` for the families with free dispersion,
`V(μ)` for the others. -/
theorem C66_moments (c : F64Consts ℝ) (hc : F64Consts.Sane c) (fam : Family) (hv : ValidFamily fam)
    {dist : ℝ → ℝ → Distribution ℝ} (hd : fam.distributionArgs c = some dist)
    {μ φ : ℝ} (hμ : μ ∈ meanDom fam) (hr : InRange c fam μ φ) :
    (dist μ φ).new = some (dist μ φ) ∧
    HasMoments (dist μ φ).law μ ((if freeDispersion fam then φ else 1) * varianceFn fam μ) := by
  suffices h : (dist μ φ).accepted = true ∧
      HasMoments (dist μ φ).law μ ((if freeDispersion fam then φ else 1) * varianceFn fam μ) from
    ⟨if_pos h.1, h.2⟩
  cases fam
  case linear =>
    obtain rfl := Option.some.inj hd
    have hφ : c.minPositive ≤ φ := hr
    have hp : 0 < φ := hc.minPositive.trans_le hφ
    have ha : (Distribution.normal μ (sqrt (fmax φ c.minPositive))).accepted = true := by
      rw [fmax_of_le hφ]
      simpa [Distribution.accepted] using hp
    refine ⟨ha, ?_⟩
    convert law_moments _ ha using 1
    simp [freeDispersion, varianceFn, fmax_of_le hφ, Real.sq_sqrt hp.le]
  case logisticLogit =>
    obtain rfl := Option.some.inj hd
    have ha : (Distribution.bernoulli μ).accepted = true := by
      simpa [Distribution.accepted] using And.intro hμ.1.le hμ.2.le
    refine ⟨ha, ?_⟩
    convert law_moments _ ha using 1
    simp [freeDispersion, varianceFn]
  case logisticCloglog =>
    obtain rfl := Option.some.inj hd
    have ha : (Distribution.bernoulli μ).accepted = true := by
      simpa [Distribution.accepted] using And.intro hμ.1.le hμ.2.le
    refine ⟨ha, ?_⟩
    convert law_moments _ ha using 1
    simp [freeDispersion, varianceFn]
  case poisson =>
    obtain rfl := Option.some.inj hd
    have hφ : c.minPositive ≤ μ := hr
    have hμ' : 0 < μ := hμ
    have ha : (Distribution.poisson (fmax μ c.minPositive)).accepted = true := by
      rw [fmax_of_le hφ]
      simpa [Distribution.accepted] using hμ'
    refine ⟨ha, ?_⟩
    convert law_moments _ ha using 1 <;> simp [freeDispersion, varianceFn, fmax_of_le hφ]
  case binomial N =>
    obtain rfl := Option.some.inj hd
    have hN : (0 : ℝ) < N := by exact_mod_cast (hv : 0 < N)
    have ha : (Distribution.binomial (μ / ofNat N) N).accepted = true := by
      have h1 : 0 ≤ μ / N := div_nonneg hμ.1.le hN.le
      have h2 : μ / N ≤ 1 := (div_le_one hN).mpr hμ.2.le
      simpa [Distribution.accepted] using And.intro h1 h2
    refine ⟨ha, ?_⟩
    convert law_moments _ ha using 1
    · simp only [ofNat_real]; field_simp
    · simp only [freeDispersion, varianceFn, ofNat_real]; simp only [Bool.false_eq_true, if_false]
      field_simp
  case exponentialNegRec =>
    obtain rfl := Option.some.inj hd
    have hφ : c.minPositive ≤ μ := hr
    have hμ' : 0 < μ := hμ
    have ha : (Distribution.exponential (recip (fmax μ c.minPositive))).accepted = true := by
      rw [fmax_of_le hφ]
      simpa [Distribution.accepted, recip] using hμ'
    refine ⟨ha, ?_⟩
    convert law_moments _ ha using 1 <;>
      simp [freeDispersion, varianceFn, fmax_of_le hφ, recip]
  case exponentialLog =>
    obtain rfl := Option.some.inj hd
    have hφ : c.minPositive ≤ μ := hr
    have hμ' : 0 < μ := hμ
    have ha : (Distribution.exponential (recip (fmax μ c.minPositive))).accepted = true := by
      rw [fmax_of_le hφ]
      simpa [Distribution.accepted, recip] using hμ'
    refine ⟨ha, ?_⟩
    convert law_moments _ ha using 1 <;>
      simp [freeDispersion, varianceFn, fmax_of_le hφ, recip]
  case gammaNegRec =>
    obtain rfl := Option.some.inj hd
    exact gamma_args c hc hμ hr
  case gammaLog =>
    obtain rfl := Option.some.inj hd
    exact gamma_args c hc hμ hr
  case invGaussNegRecSq => exact absurd hd (by simp [Family.distributionArgs])
  case invGaussLog => exact absurd hd (by simp [Family.distributionArgs])

theorem fmax_strict (x : NReal) (a : ℝ) : ∃ s, a ≤ s ∧ fmax x (.val a) = .val s := by
  cases x with
  | nan => exact ⟨a, le_rfl, by simp [fmax, NReal.nan_lt, NReal.nan_eq]⟩
  | val x =>
    refine ⟨fmax x a, le_fmax x a, ?_⟩
    by_cases h1 : lt x a = true
    · exact (if_pos h1).trans (congrArg _ (if_pos h1).symm)
    · by_cases h2 : eq x x = true
      · exact ((if_neg h1).trans (if_pos h2)).trans (congrArg _ ((if_neg h1).trans (if_pos h2)).symm)
      · exact ((if_neg h1).trans (if_neg h2)).trans (congrArg _ ((if_neg h1).trans (if_neg h2)).symm)

theorem gamma_accepts (c : F64Consts ℝ) (hc : F64Consts.Sane c) (μ φ : NReal) (h0 : μ ≠ .val 0) :
    (Distribution.gamma (1 / fmax φ c.strict.epsilon)
        (fclamp (1 / fmax φ c.strict.epsilon / μ) c.strict.minPositive c.strict.max)).accepted = true
      ↔ toleratesNan .gammaLog = true ∨ ∃ m ∈ acceptDom .gammaLog, μ = .val m := by
  obtain ⟨s, hs, hs'⟩ := fmax_strict φ c.epsilon
  have hp : 0 < s := hc.epsilon.trans_le hs
  have hp' : 0 < 1 / s := by positivity
  simp only [Distribution.accepted, F64Consts.strict, hs', NReal.one_eq, NReal.div_val _ hp.ne']
  cases μ with
  | nan => simp [toleratesNan, NReal.div_nan, fclamp, NReal.nan_lt, NReal.lt_nan]
  | val m =>
    have hm : m ≠ 0 := fun h => h0 (by rw [h])
    have h1 := hc.minPositive.trans_le (le_fclamp (x := 1 / s / m) hc.max)
    have h2 : fclamp (NReal.val (1 / s / m)) (NReal.val c.minPositive) (NReal.val c.max)
        = NReal.val (fclamp (1 / s / m) c.minPositive c.max) := by
      by_cases h1 : lt (1 / s / m) c.minPositive = true
      · exact (if_pos h1).trans (congrArg _ (if_pos h1).symm)
      · by_cases h2 : lt c.max (1 / s / m) = true
        · exact ((if_neg h1).trans (if_pos h2)).trans (congrArg _ ((if_neg h1).trans (if_pos h2)).symm)
        · exact ((if_neg h1).trans (if_neg h2)).trans (congrArg _ ((if_neg h1).trans (if_neg h2)).symm)
    rw [NReal.div_val _ hm, h2]
    simp only [NReal.zero_eq, NReal.lt_val, lt_real, Bool.and_eq_true]
    exact ⟨fun _ => Or.inr ⟨m, mem_univ _, rfl⟩, fun _ => ⟨hp', h1⟩⟩

/-- C66: over the arithmetic with not-a-number, for every mean and every dispersion (not-a-number
included): the distribution exists, so that `get_distribution` does not panic, exactly when the mean is
a number in the closed range of the family's means; for the linear and the gamma family this is every
number, and the Poisson and exponential families do not need the mean to be a number at all.  A mean of
zero is left out for the gamma family, where `alpha / 0` is an infinity. -/
theorem C66_accepts (c : F64Consts ℝ) (hc : F64Consts.Sane c) (fam : Family) (hv : ValidFamily fam)
    {dist : NReal → NReal → Distribution NReal} (hd : fam.distributionArgs c.strict = some dist)
    (μ φ : NReal) (h0 : fam = .gammaNegRec ∨ fam = .gammaLog → μ ≠ .val 0) :
    (dist μ φ).new ≠ none ↔ toleratesNan fam = true ∨ ∃ m ∈ acceptDom fam, μ = .val m := by
  have hnew : ∀ D : Distribution NReal, D.new ≠ none ↔ D.accepted = true := by
    intro D
    unfold Distribution.new
    split <;> simp_all
  rw [hnew]
  have hunit : ∀ x : NReal, (le 0 x && le x 1) = true ↔ ∃ m ∈ Icc (0 : ℝ) 1, x = .val m := by
    intro x
    cases x with
    | nan => simp [NReal.le_nan, NReal.nan_le]
    | val m => simp [NReal.zero_eq, NReal.one_eq]
  cases fam
  case linear =>
    obtain rfl := Option.some.inj hd
    obtain ⟨s, hs, hs'⟩ := fmax_strict φ c.minPositive
    have hp : 0 < s := hc.minPositive.trans_le hs
    simp only [Distribution.accepted, F64Consts.strict, hs', NReal.sqrt_val hp.le]
    cases μ with
    | nan => simp [acceptDom, toleratesNan, NReal.nan_eq]
    | val m => simp [acceptDom, toleratesNan, NReal.zero_eq, hp]
  case logisticLogit =>
    obtain rfl := Option.some.inj hd
    simpa [acceptDom, toleratesNan, Distribution.accepted] using hunit μ
  case logisticCloglog =>
    obtain rfl := Option.some.inj hd
    simpa [acceptDom, toleratesNan, Distribution.accepted] using hunit μ
  case poisson =>
    obtain rfl := Option.some.inj hd
    obtain ⟨s, hs, hs'⟩ := fmax_strict μ c.minPositive
    have hp : 0 < s := hc.minPositive.trans_le hs
    simp [Distribution.accepted, F64Consts.strict, hs', NReal.zero_eq, toleratesNan, hp]
  case binomial N =>
    obtain rfl := Option.some.inj hd
    have hN : (0 : ℝ) < N := by exact_mod_cast (hv : 0 < N)
    have hN' : (ofNat N : ℝ) ≠ 0 := by rw [ofNat_real]; exact hN.ne'
    refine (hunit (μ / ofNat N)).trans ?_
    cases μ with
    | nan => simp [toleratesNan, NReal.nan_div]
    | val m =>
      rw [NReal.ofNat_val, NReal.div_val _ hN']
      simp only [NReal.val_inj, toleratesNan, Bool.false_eq_true, false_or, acceptDom, ofNat_real,
        exists_eq_right', mem_Icc, div_nonneg_iff, div_le_one hN]
      constructor
      · rintro ⟨h1 | h1, h2⟩
        · exact ⟨h1.1, h2⟩
        · exact absurd h1.2 (not_le.mpr hN)
      · rintro ⟨h1, h2⟩
        exact ⟨Or.inl ⟨h1, hN.le⟩, h2⟩
  case exponentialNegRec =>
    obtain rfl := Option.some.inj hd
    obtain ⟨s, hs, hs'⟩ := fmax_strict μ c.minPositive
    have hp : 0 < s := hc.minPositive.trans_le hs
    simp only [Distribution.accepted, F64Consts.strict, hs', NReal.recip_val hp.ne', NReal.zero_eq,
      toleratesNan, NReal.lt_val, true_or, iff_true]
    simpa [recip] using hp
  case exponentialLog =>
    obtain rfl := Option.some.inj hd
    obtain ⟨s, hs, hs'⟩ := fmax_strict μ c.minPositive
    have hp : 0 < s := hc.minPositive.trans_le hs
    simp only [Distribution.accepted, F64Consts.strict, hs', NReal.recip_val hp.ne', NReal.zero_eq,
      toleratesNan, NReal.lt_val, true_or, iff_true]
    simpa [recip] using hp
  case gammaNegRec =>
    obtain rfl := Option.some.inj hd
    exact gamma_accepts c hc μ φ (h0 (Or.inl rfl))
  case gammaLog =>
    obtain rfl := Option.some.inj hd
    exact gamma_accepts c hc μ φ (h0 (Or.inr rfl))
  case invGaussNegRecSq => exact absurd hd (by simp [Family.distributionArgs])
  case invGaussLog => exact absurd hd (by simp [Family.distributionArgs])

/-- C66: in the arithmetic with not-a-number, the quantile residuals of a fit whose fitted means are
numbers other than zero never panic, whatever the dispersion and the weights are. -/
theorem C66_no_panic {n p : ℕ} {b : Bool} (c : F64Consts ℝ) (hc : F64Consts.Sane c) (fam : Family)
    (hf : fam.continuousResponse = true) (ds : Dists NReal) (f : Fit NReal n p b) (m : Vec ℝ n)
    (hm : ∀ i, f.yHat i = .val (m i)) (h0 : ∀ i, m i ≠ 0) :
    ∃ dist, fam.distributionArgs c.strict = some dist ∧ ∃ q, f.residQuantile ds dist = .ok q := by
  have hd : ∃ dist, fam.distributionArgs c.strict = some dist := by
    cases fam <;> first | exact ⟨_, rfl⟩ | simp [Family.continuousResponse] at hf
  obtain ⟨dist, hd⟩ := hd
  have hv : ValidFamily fam := by
    cases fam <;> trivial
  have hdom : acceptDom fam = univ := by
    cases fam <;> first | rfl | simp [Family.continuousResponse] at hf
  refine ⟨dist, hd, fun i => ds.normalInvCdf (ds.cdf
    (dist (f.yHat i) (f.dispersion / f.data.getVarianceWeights i)) (f.data.y i)), ?_⟩
  refine seqOutcome_ok.mpr fun i => ?_
  have h1 := (C66_accepts c hc fam hv hd (f.yHat i)
    (f.dispersion / f.data.getVarianceWeights i) (fun _ h => h0 i (NReal.val_inj.mp
      ((hm i).symm.trans h)))).mpr (Or.inr ⟨m i, hdom ▸ mem_univ _, hm i⟩)
  unfold Distribution.new at h1 ⊢
  split
  · rfl
  · rename_i hn
    exact absurd (if_neg hn) h1

theorem quantile_normal {n p : ℕ} {b : Bool} (c : F64Consts ℝ) (fam : Family)
    (hf : fam.continuousResponse = true) {dist : ℝ → ℝ → Distribution ℝ}
    (hd : fam.distributionArgs c = some dist) (f : Fit ℝ n p b) (q : Vec ℝ n)
    (hq : f.residQuantile realDists dist = .ok q) (i : Fin n) :
    ∃ Q : ℝ → ℝ, q i = Q (f.data.y i) ∧
      (∀ y u, (dist (f.yHat i) (f.dispersion / f.data.getVarianceWeights i)).law.real (Iic y) = u →
        0 < u → u < 1 → (gaussianReal 0 1).real (Iic (Q y)) = u) ∧
      ∀ z, (dist (f.yHat i) (f.dispersion / f.data.getVarianceWeights i)).law.real {y | Q y ≤ z}
        = (gaussianReal 0 1).real (Iic z) := by
  have hi := seqOutcome_ok.mp hq i
  set D := dist (f.yHat i) (f.dispersion / f.data.getVarianceWeights i) with hD
  have ha : D.accepted = true := by
    by_contra hn
    change (Fit.unwrapDist D.new).map _ = _ at hi
    rw [Distribution.new, if_neg hn] at hi
    cases hi
  change (Fit.unwrapDist D.new).map _ = _ at hi
  rw [Distribution.new, if_pos ha] at hi
  refine ⟨fun y => realDists.normalInvCdf (realDists.cdf D y), (Outcome.ok.inj hi).symm,
    fun y u hu h0 h1 => by rw [← hu] at h0 h1; rw [← hu]; exact cdf_invCdf h0 h1, ?_⟩
  have := (law_moments D ha).prob
  refine quantile_transform D.law ?_
  cases fam
  case linear =>
    obtain rfl := Option.some.inj hd
    intro x
    have hs : (sqrt (fmax (f.dispersion / f.data.getVarianceWeights i) c.minPositive)) ^ 2 ≠ (0:ℝ) := by
      have : 0 < sqrt (fmax (f.dispersion / f.data.getVarianceWeights i) c.minPositive) := by
        simpa [D, Distribution.accepted] using ha
      positivity
    have : NullSingletonClass D.law := by
      refine nullSingletonClass_gaussianReal ?_
      rw [Ne, Real.toNNReal_eq_zero, not_le]
      positivity
    exact measure_singleton x
  case exponentialNegRec => obtain rfl := Option.some.inj hd; exact gammaMeasure_singleton _ _
  case exponentialLog => obtain rfl := Option.some.inj hd; exact gammaMeasure_singleton _ _
  case gammaNegRec => obtain rfl := Option.some.inj hd; exact gammaMeasure_singleton _ _
  case gammaLog => obtain rfl := Option.some.inj hd; exact gammaMeasure_singleton _ _
  all_goals simp [Family.continuousResponse] at hf

theorem quantile_linear {n p : ℕ} {b : Bool} (c : F64Consts ℝ) (hc : F64Consts.Sane c)
    {dist : ℝ → ℝ → Distribution ℝ} (hd : Family.linear.distributionArgs c = some dist)
    (f : Fit ℝ n p b) (hr : ∀ i, c.minPositive ≤ f.dispersion / f.data.getVarianceWeights i) :
    f.residQuantile realDists dist = .ok fun i =>
      (f.data.y i - f.yHat i) / √(f.dispersion / f.data.getVarianceWeights i) := by
  refine seqOutcome_ok.mpr fun i => ?_
  obtain rfl := Option.some.inj hd
  have hp := hc.minPositive.trans_le (hr i)
  have ha : (Distribution.normal (f.yHat i) √(f.dispersion / f.data.getVarianceWeights i)).accepted
      = true := by
    simpa [Distribution.accepted] using hp
  dsimp only
  rw [fmax_of_le (hr i), sqrt_real, Distribution.new, if_pos ha]
  change Outcome.ok _ = Outcome.ok _
  congr 1
  change realDists.normalInvCdf ((Distribution.normal _ _).law.real (Iic _)) = _
  rw [normal_standardize _ (Real.sqrt_pos.mpr hp), invCdf_cdf]

section
variable {n p : ℕ} {b std : Bool} {raw : Dataset ℝ n p false} {d : Dataset ℝ n p b}
  {env : Env ℝ} {options : FitOptions ℝ (ncols b p)} {f : Fit ℝ n p b}

/-- C66: for the families with a continuous response, if observation `i` follows the distribution
built from the mean at the reported coefficients and the dispersion divided by its variance weight
(`C66_moments` says which this is), its quantile residual is standard normal: the residual is a
function `Q` of the response with `P(Q(Y) ≤ z) = Φ(z)` for all `z`.  The function is the one with
`Φ(Q(y)) = P(Y ≤ y)` for every `y` where this probability is not 0 or 1. -/
theorem C66_quantile (c : F64Consts ℝ) (fam : Family)
    (hcont : fam.continuousResponse = true) {dist : ℝ → ℝ → Distribution ℝ}
    (hdist : fam.distributionArgs c = some dist) (hd : raw.finalize std b = some d)
    (hf : regression env fam.glm d options = .ok f) {q : Vec ℝ n}
    (hq : f.residQuantile realDists dist = .ok q) (i : Fin n) :
    ∃ Q : ℝ → ℝ, q i = Q (raw.y i) ∧
      (∀ y u, (dist (meanAt fam.glm raw b f.result i) (f.dispersion / varWt raw i)).law.real (Iic y)
          = u →
        0 < u → u < 1 → (gaussianReal 0 1).real (Iic (Q y)) = u) ∧
      ∀ z, (dist (meanAt fam.glm raw b f.result i) (f.dispersion / varWt raw i)).law.real {y | Q y ≤ z}
        = (gaussianReal 0 1).real (Iic z) := by
  obtain ⟨hg, rfl, rfl, ho⟩ := regression_ofRaw hd hf
  have := quantile_normal c fam hcont hdist f q hq i
  rwa [ho.mean, hg, Dataset.getVarianceWeights_real, Dataset.finalize_varWt hd,
    Dataset.finalize_y hd] at this

/-- C66: for the linear family the quantile residual is `(yᵢ - xᵢβ) / √(φ / wᵢ)`. -/
theorem C66_linear (c : F64Consts ℝ) (hc : F64Consts.Sane c)
    {dist : ℝ → ℝ → Distribution ℝ} (hdist : Family.linear.distributionArgs c = some dist)
    (hd : raw.finalize std b = some d) (hf : regression env Family.linear.glm d options = .ok f)
    (hr : ∀ i, c.minPositive ≤ f.dispersion / varWt raw i) :
    f.residQuantile realDists dist = .ok fun i =>
      (raw.y i - linPred raw b f.result i) / √(f.dispersion / varWt raw i) := by
  obtain ⟨hg, rfl, rfl, ho⟩ := regression_ofRaw hd hf
  have hw : ∀ i, f.data.getVarianceWeights i = varWt raw i := fun i => by
    rw [Dataset.getVarianceWeights_real, Dataset.finalize_varWt hd]
  rw [quantile_linear c hc hdist f (fun i => by rw [hw]; exact hr i)]
  congr 1
  funext i
  rw [hw, ho.mean, hg, Dataset.finalize_y hd]
  rfl
end

/-- Constants of `f64` (up to rounding) and a gamma mean and dispersion in range. -/
example : F64Consts.Sane ⟨2⁻¹ ^ 1022, 2⁻¹ ^ 52, 2 ^ 1024⟩ ∧
    InRange ⟨2⁻¹ ^ 1022, 2⁻¹ ^ 52, 2 ^ 1024⟩ .gammaLog 3 (1 / 2) ∧
    (3 : ℝ) ∈ meanDom .gammaLog := by
  have h1 : (2⁻¹ : ℝ) ^ 1022 ≤ 2⁻¹ := pow_le_of_le_one (by norm_num) (by norm_num) (by norm_num)
  have h2 : (1 : ℝ) ≤ 2 ^ 1024 := one_le_pow₀ (by norm_num)
  refine ⟨⟨by positivity, by positivity, (h1.trans (by norm_num)).trans h2⟩,
    ⟨by norm_num, h1.trans (by norm_num), le_trans (by norm_num) h2⟩, ?_⟩
  change (0 : ℝ) < 3
  norm_num

/-- A linear fit whose quantile residuals exist. -/
example (std : Bool) : ∃ (c : F64Consts ℝ) (d : Dataset ℝ 3 1 true) (f : Fit ℝ 3 1 true)
    (dist : ℝ → ℝ → Distribution ℝ) (q : Vec ℝ 3), F64Consts.Sane c ∧
    Family.linear.continuousResponse = true ∧ Family.linear.distributionArgs c = some dist ∧
    (exRaw ![0, 1, 4]).finalize std true = some d ∧
    regression (exactEnv 0 0) Family.linear.glm d (exOpts 0 0 none 1) = .ok f ∧
    (∀ i, c.minPositive ≤ f.dispersion / varWt (exRaw ![0, 1, 4]) i) ∧
    f.residQuantile realDists dist = .ok q := by
  obtain ⟨d, f, hd, hf, hpos⟩ := exLin_dispersion_pos std
  have hc : F64Consts.Sane ⟨f.dispersion, 1, f.dispersion⟩ := ⟨hpos, one_pos, le_rfl⟩
  have hr : ∀ i, f.dispersion ≤ f.dispersion / varWt (exRaw ![0, 1, 4]) i := fun i => by
    simp [varWt, exRaw]
  exact ⟨_, d, f, _, _, hc, rfl, rfl, hd, hf, hr, C66_linear _ hc rfl hd hf hr⟩

end GLM
