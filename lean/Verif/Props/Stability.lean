/-
  C94: fits follow the responses and the weights of the observations.
-/
import Verif.Spec.Stability
import Verif.Props.UnitDeviance
import Verif.Props.Selection
import Verif.Props.Compare

namespace GLM
open Spec Matrix Set
variable {n p : ℕ} {b : Bool} {env env' : Env ℝ} {fam : Family} {raw raw' : Dataset ℝ n p false}
  {std : Bool} {d d' : Dataset ℝ n p b} {options options' : FitOptions ℝ (ncols b p)}
  {f f' : Fit ℝ n p b} {y' : Vec ℝ n}

theorem canonicalLink_lt {μ μ' : ℝ} (h : μ ∈ meanDom fam) (h' : μ' ∈ meanDom fam) (hlt : μ < μ') :
    canonicalLink fam μ < canonicalLink fam μ' := by
  have hlogit : ∀ N : ℝ, 0 < μ → μ' < N → Real.log (μ / (N - μ)) < Real.log (μ' / (N - μ')) := by
    intro N h0 h1
    refine Real.log_lt_log (div_pos h0 (by linarith)) ?_
    exact div_lt_div₀ hlt (by linarith) (by linarith) (by linarith)
  have hrec : 0 < μ → -1 / μ < -1 / μ' := fun h0 => by
    rw [neg_div, neg_div, neg_lt_neg_iff]
    exact one_div_lt_one_div_of_lt h0 hlt
  have hsq : 0 < μ → -1 / (2 * μ ^ 2) < -1 / (2 * μ' ^ 2) := fun h0 => by
    rw [neg_div, neg_div, neg_lt_neg_iff]
    exact one_div_lt_one_div_of_lt (by positivity) (by nlinarith)
  cases fam <;> simp only [meanDom, mem_Ioo, mem_Ioi, mem_univ] at h h' <;> simp only [canonicalLink]
  case linear => exact hlt
  case logisticLogit => exact hlogit 1 h.1 h'.2
  case logisticCloglog => exact hlogit 1 h.1 h'.2
  case binomial N => exact hlogit N h.1 h'.2
  case poisson => exact Real.log_lt_log h hlt
  case invGaussNegRecSq => exact hsq h
  case invGaussLog => exact hsq h
  all_goals exact hrec h

theorem withResponses_finalize (raw : Dataset ℝ n p false) (y' : Vec ℝ n) (std : Bool) :
    (withResponses raw y').finalize std b = (raw.finalize std b).map fun d => { d with y := y' } := by
  unfold Dataset.finalize
  cases std
  · rfl
  · have : Standardizer.fromDataset (withResponses raw y') b = Standardizer.fromDataset raw b := rfl
    simp only [this, if_true, Option.map_map]
    rfl

theorem withResponses_scale (hd : raw.finalize std b = some d)
    (hd' : (withResponses raw y').finalize std b = some d') : scale d' = scale d := by
  rw [withResponses_finalize, hd, Option.map_some, Option.some.injEq] at hd'
  rw [← hd']
  rfl

/-- Optimality in terms of the objective. -/
theorem optimal_le (hd : raw.finalize std b = some d) (h : regression env fam.glm d options = .ok f)
    (ho : Optimal fam raw f) {β : Vec ℝ (ncols b p)} (hβ : Admissible fam raw b β) :
    penLogLik fam.glm raw b options.l1 options.l2 (scale d) β
      ≤ penLogLik fam.glm raw b options.l1 options.l2 (scale d) f.result := by
  have := ho β hβ
  rw [C36_lr hd h] at this
  linarith

theorem yHat_mean (hd : raw.finalize std b = some d) (h : regression env fam.glm d options = .ok f)
    (i : Fin n) : f.yHat i = meanAt fam.glm raw b f.result i := by
  obtain ⟨g1, -, -, hf⟩ := regression_ofRaw hd h
  rw [hf.mean, g1]

theorem yHat_mem (hv : ValidFamily fam) (hd : raw.finalize std b = some d)
    (h : regression env fam.glm d options = .ok f) (ha : Admissible fam raw b f.result) (i : Fin n) :
    f.yHat i ∈ meanDom fam := by
  rw [yHat_mean hd h]
  exact funcInv_mem fam hv (ha i)

section responses
variable (hv : ValidFamily fam) (hd : raw.finalize std b = some d)
  (h : regression env fam.glm d options = .ok f) (ha : Admissible fam raw b f.result)
  (ho : Optimal fam raw f) (hd' : (withResponses raw y').finalize std b = some d')
  (h' : regression env' fam.glm d' options' = .ok f')
  (ha' : Admissible fam (withResponses raw y') b f'.result)
  (ho' : Optimal fam (withResponses raw y') f') (hl1 : options'.l1 = options.l1)
  (hl2 : options'.l2 = options.l2)
include hv hd h ha ho hd' h' ha' ho' hl1 hl2

/-- C94 (exchange).  Optimal fits of the same observations with two sets of responses, for every
family and any penalties: the fitted values, on the scale of the natural parameter, move in the
direction of the responses. -/
theorem C94_exchange : 0 ≤ ∑ i, totalWt raw i * ((y' i - raw.y i)
    * (canonicalLink fam (f'.yHat i) - canonicalLink fam (f.yHat i))) := by
  have e1 := optimal_le hd h ho (β := f'.result) ha'
  have e2 := optimal_le hd' h' ho' (β := f.result) ha
  rw [withResponses_scale hd hd', hl1, hl2] at e2
  simp only [penLogLik] at e1 e2
  have e3 : logLik fam.glm (withResponses raw y') b f.result + logLik fam.glm raw b f'.result
      ≤ logLik fam.glm (withResponses raw y') b f'.result + logLik fam.glm raw b f.result := by linarith
  have e4 : ∀ i, (fam.glm (F := ℝ)).link.natParam (linPred raw b f.result i)
      = canonicalLink fam (f.yHat i) := fun i => by
    rw [yHat_mean hd h, natParam_eq fam hv (ha i), meanAt]
  have e5 : ∀ i, (fam.glm (F := ℝ)).link.natParam (linPred raw b f'.result i)
      = canonicalLink fam (f'.yHat i) := fun i => by
    rw [yHat_mean hd' h']; exact natParam_eq fam hv (ha' i)
  have e6 : ∀ β i, logLikAt fam.glm (withResponses raw y') b β i = logLikAt fam.glm raw b β i
      + (y' i - raw.y i) * (fam.glm (F := ℝ)).link.natParam (linPred raw b β i) := fun β i => by
    unfold logLikAt
    rw [logLikeNatural_real, logLikeNatural_real]
    change y' i * (fam.glm (F := ℝ)).link.natParam (linPred raw b β i)
      - cumulant fam ((fam.glm (F := ℝ)).link.natParam (linPred raw b β i)) = _
    ring
  have e7 : ∀ β, logLik fam.glm (withResponses raw y') b β = logLik fam.glm raw b β
      + ∑ i, totalWt raw i * ((y' i - raw.y i)
        * (fam.glm (F := ℝ)).link.natParam (linPred raw b β i)) := fun β => by
    unfold logLik
    rw [← Finset.sum_add_distrib]
    refine Finset.sum_congr rfl fun i _ => ?_
    rw [e6]
    change totalWt raw i * _ = _
    ring
  rw [e7, e7] at e3
  simp only [e4, e5] at e3
  simp only [mul_sub, Finset.sum_sub_distrib] at e3 ⊢
  linarith

/-- C94 (own response).  Raising one response never lowers its own fitted value. -/
theorem C94_own {k : Fin n} {v : ℝ} (hy : y' = Function.update raw.y k v) (hlt : raw.y k < v)
    (hw : 0 < totalWt raw k) : f.yHat k ≤ f'.yHat k := by
  have e := C94_exchange hv hd h ha ho hd' h' ha' ho' hl1 hl2
  rw [Finset.sum_eq_single k (fun i _ hi => by rw [hy, Function.update_of_ne hi, sub_self]; ring)
    (fun h => absurd (Finset.mem_univ k) h), hy, Function.update_self] at e
  by_contra hc
  push Not at hc
  have e1 := canonicalLink_lt (yHat_mem hv hd' h' ha' k) (yHat_mem hv hd h ha k) hc
  have e2 := mul_pos hw (mul_pos (sub_pos.mpr hlt) (sub_pos.mpr e1))
  nlinarith

/-- C94 (canonical links).  How far the coefficients can move: the change of the responses, measured
against the change of the linear predictor, pays for the change of the fitted values and of the L2
penalty. -/
theorem C94_canonical (hcan : IsCanonical fam) :
    ∑ i, totalWt raw i * ((f'.yHat i - f.yHat i)
        * (linPred raw b f'.result i - linPred raw b f.result i))
      + max options.l2 0 * slopeSq d (f'.result - f.result)
    ≤ ∑ i, totalWt raw i * ((y' i - raw.y i)
        * (linPred raw b f'.result i - linPred raw b f.result i)) := by
  obtain ⟨u, u1, u2⟩ := C89_necessary hv hd h ha ho
  obtain ⟨u', u1', u2'⟩ := C89_necessary hv hd' h' ha' ho'
  rw [withResponses_scale hd hd', hl1] at u1'
  rw [withResponses_scale hd hd', hl2] at u2'
  have hη : ∀ w : ℝ, (fam.glm (F := ℝ)).link.dNatParam w = 1 := by
    intro w
    rw [dNatParam_real]
    cases fam <;> first | rfl | exact absurd hcan id
  have hs : ∀ (raw'' : Dataset ℝ n p false) (β δ : Vec ℝ (ncols b p)),
      scoreVec fam.glm raw'' b β ⬝ᵥ δ = ∑ i, totalWt raw'' i * ((raw''.y i - meanAt fam.glm raw'' b β i)
        * ∑ j, design b raw''.x i j * δ j) := by
    intro raw'' β δ
    simp only [scoreVec, dotProduct, hη, mul_one, Finset.sum_mul, Finset.mul_sum]
    rw [Finset.sum_comm]
    exact Finset.sum_congr rfl fun i _ => Finset.sum_congr rfl fun j _ => by ring
  have e1 := congrArg (fun s => s ⬝ᵥ (f'.result - f.result)) u2
  have e2 := congrArg (fun s => s ⬝ᵥ (f'.result - f.result)) u2'
  rw [hs] at e1 e2
  have hon : ∀ v : Fin p → ℝ, onSlopes b v ⬝ᵥ (f'.result - f.result)
      = ∑ j, v j * (slopes b f'.result j - slopes b f.result j) := by
    intro v
    cases b
    · rfl
    · change ∑ j : Fin (p + 1), (Fin.cons 0 v : Fin (p + 1) → ℝ) j * _ = _
      rw [Fin.sum_univ_succ]
      simp [slopes]
  rw [hon] at e1 e2
  have hΔ : ∀ i, ∑ j, design b raw.x i j * (f'.result - f.result) j
      = linPred raw b f'.result i - linPred raw b f.result i := fun i => (linPred_diff _ _ i).symm
  change ∑ i, totalWt raw i * ((y' i - meanAt fam.glm (withResponses raw y') b f'.result i)
    * ∑ j, design b raw.x i j * (f'.result - f.result) j) = _ at e2
  simp only [hΔ] at e1 e2
  simp only [yHat_mean hd h, yHat_mean hd' h']
  have e3 : 0 ≤ ∑ j, (u' j - u j) * (slopes b f'.result j - slopes b f.result j) :=
    Finset.sum_nonneg fun j _ => by
      have g1 := (u1 j).le (slopes b f'.result j)
      have g2 := (u1' j).le (slopes b f.result j)
      nlinarith
  have e4 : slopeSq d (f'.result - f.result)
      = ∑ j, scale d j ^ 2 * (slopes b f'.result j - slopes b f.result j) ^ 2 := by
    refine Finset.sum_congr rfl fun j _ => ?_
    have : slopes b (f'.result - f.result) j = slopes b f'.result j - slopes b f.result j := by
      cases b <;> rfl
    rw [this, mul_pow]
  have e5 : ∑ j, (u' j + max options.l2 0 * (scale d j ^ 2 * slopes b f'.result j))
        * (slopes b f'.result j - slopes b f.result j)
      - ∑ j, (u j + max options.l2 0 * (scale d j ^ 2 * slopes b f.result j))
        * (slopes b f'.result j - slopes b f.result j)
      = ∑ j, (u' j - u j) * (slopes b f'.result j - slopes b f.result j)
        + max options.l2 0 * slopeSq d (f'.result - f.result) := by
    rw [e4, Finset.mul_sum, ← Finset.sum_sub_distrib, ← Finset.sum_add_distrib]
    exact Finset.sum_congr rfl fun j _ => by ring
  rw [← e1, ← e2] at e5
  have e6 : ∑ i, totalWt raw i * ((y' i - raw.y i)
        * (linPred raw b f'.result i - linPred raw b f.result i))
      - ∑ i, totalWt raw i * ((meanAt fam.glm (withResponses raw y') b f'.result i
          - meanAt fam.glm raw b f.result i)
        * (linPred raw b f'.result i - linPred raw b f.result i))
      = ∑ i, totalWt raw i * ((y' i - meanAt fam.glm (withResponses raw y') b f'.result i)
          * (linPred raw b f'.result i - linPred raw b f.result i))
        - ∑ i, totalWt raw i * ((raw.y i - meanAt fam.glm raw b f.result i)
          * (linPred raw b f'.result i - linPred raw b f.result i)) := by
    rw [← Finset.sum_sub_distrib, ← Finset.sum_sub_distrib]
    exact Finset.sum_congr rfl fun i _ => by ring
  linarith

/-- C94 (Linear).  The fitted values of a linear model, with any penalties, move no more than the
responses. -/
theorem C94_contraction (hf : fam = .linear) (hw : ∀ i, 0 ≤ totalWt raw i) :
    ∑ i, totalWt raw i * (f'.yHat i - f.yHat i) ^ 2
        + 2 * (max options.l2 0 * slopeSq d (f'.result - f.result))
      ≤ ∑ i, totalWt raw i * (y' i - raw.y i) ^ 2 := by
  subst hf
  have e := C94_canonical hv hd h ha ho hd' h' ha' ho' hl1 hl2 trivial
  have e1 : ∀ i, linPred raw b f'.result i - linPred raw b f.result i = f'.yHat i - f.yHat i := by
    intro i
    rw [yHat_mean hd h, yHat_mean hd' h', meanAt, meanAt, funcInv_real, funcInv_real]
    rfl
  simp only [e1] at e
  have e2 : ∑ i, totalWt raw i * ((y' i - raw.y i) * (f'.yHat i - f.yHat i))
      ≤ ∑ i, totalWt raw i * ((y' i - raw.y i) ^ 2 / 2 + (f'.yHat i - f.yHat i) ^ 2 / 2) :=
    Finset.sum_le_sum fun i _ => mul_le_mul_of_nonneg_left
      (by nlinarith [sq_nonneg ((y' i - raw.y i) - (f'.yHat i - f.yHat i))]) (hw i)
  have e3 : ∑ i, totalWt raw i * ((y' i - raw.y i) ^ 2 / 2 + (f'.yHat i - f.yHat i) ^ 2 / 2)
      = (∑ i, totalWt raw i * (y' i - raw.y i) ^ 2) / 2
        + (∑ i, totalWt raw i * (f'.yHat i - f.yHat i) ^ 2) / 2 := by
    rw [Finset.sum_div, Finset.sum_div, ← Finset.sum_add_distrib]
    exact Finset.sum_congr rfl fun i _ => by ring
  simp only [← sq] at e
  linarith

/-- C94 (ridge).  With an L2 penalty the slopes of a canonical fit move at most `1 / l2` times the
weighted sums of the change of the responses times the features, in standardized units; with an
intercept, if the change of the responses has weighted sum zero. -/
theorem C94_ridge (hcan : IsCanonical fam) (hw : ∀ i, 0 ≤ totalWt raw i) (hpos : 0 < options.l2)
    (hi : b = true → ∑ i, totalWt raw i * (y' i - raw.y i) = 0) :
    options.l2 ^ 2 * slopeSq d (f'.result - f.result)
      ≤ ∑ j, ((∑ i, totalWt raw i * (y' i - raw.y i) * raw.x i j) / scale d j) ^ 2 := by
  have e := C94_canonical hv hd h ha ho hd' h' ha' ho' hl1 hl2 hcan
  have hlink : ∀ μ, linkFn fam μ = canonicalLink fam μ := by
    intro μ
    cases fam <;> first | rfl | exact absurd hcan id
  have e1 : 0 ≤ ∑ i, totalWt raw i * ((f'.yHat i - f.yHat i)
      * (linPred raw b f'.result i - linPred raw b f.result i)) := by
    refine Finset.sum_nonneg fun i _ => mul_nonneg (hw i) ?_
    have m1 := yHat_mem hv hd h ha i
    have m2 := yHat_mem hv hd' h' ha' i
    have g1 : linPred raw b f.result i = canonicalLink fam (f.yHat i) := by
      rw [← hlink, yHat_mean hd h, meanAt, ← func_eq_linkFn, func_funcInv fam hv (ha i)]
    have g2 : linPred raw b f'.result i = canonicalLink fam (f'.yHat i) := by
      rw [← hlink, yHat_mean hd' h', meanAt, ← func_eq_linkFn, func_funcInv fam hv (ha' i)]
      rfl
    rw [g1, g2]
    rcases lt_trichotomy (f'.yHat i) (f.yHat i) with hlt | heq | hgt
    · have := canonicalLink_lt m2 m1 hlt
      exact mul_nonneg_of_nonpos_of_nonpos (by linarith) (by linarith)
    · rw [heq]; simp
    · have := canonicalLink_lt m1 m2 hgt
      exact mul_nonneg (by linarith) (by linarith)
  set G : Fin p → ℝ := fun j => ∑ i, totalWt raw i * (y' i - raw.y i) * raw.x i j with hG
  have hσ := Dataset.scale_pos hd
  have e2 : ∑ i, totalWt raw i * ((y' i - raw.y i)
        * (linPred raw b f'.result i - linPred raw b f.result i))
      = ∑ j, G j * slopes b (f'.result - f.result) j := by
    have g1 : ∃ c, (b = false → c = 0) ∧ ∀ i, linPred raw b f'.result i - linPred raw b f.result i
        = c + ∑ j, raw.x i j * slopes b (f'.result - f.result) j := by
      have := fun i => linPred_diff (raw := raw) f.result f'.result i
      cases b
      · exact ⟨0, fun _ => rfl, fun i => by rw [this, zero_add]; rfl⟩
      · refine ⟨(f'.result - f.result) (0 : Fin (p + 1)), by simp, fun i => ?_⟩
        rw [this]
        change ∑ j : Fin (p + 1), (Fin.cons 1 (raw.x i) : Fin (p + 1) → ℝ) j * _ = _
        rw [Fin.sum_univ_succ]
        simp [slopes]
    obtain ⟨c, c0, c1⟩ := g1
    have c2 : (∑ i, totalWt raw i * (y' i - raw.y i)) * c = 0 := by
      cases hb : b
      · rw [c0 hb, mul_zero]
      · rw [hi hb, zero_mul]
    have c3 : ∑ i, totalWt raw i * ((y' i - raw.y i)
          * (linPred raw b f'.result i - linPred raw b f.result i))
        = (∑ i, totalWt raw i * (y' i - raw.y i)) * c
          + ∑ i, ∑ j, totalWt raw i * (y' i - raw.y i) * raw.x i j
            * slopes b (f'.result - f.result) j := by
      rw [Finset.sum_mul, ← Finset.sum_add_distrib]
      refine Finset.sum_congr rfl fun i _ => ?_
      rw [c1, mul_add, mul_add, Finset.mul_sum, Finset.mul_sum]
      congr 1
      · ring
      · exact Finset.sum_congr rfl fun j _ => by ring
    rw [c3, c2, zero_add, Finset.sum_comm]
    exact Finset.sum_congr rfl fun j _ => by rw [Finset.sum_mul]
  have e3 : ∑ j, G j * slopes b (f'.result - f.result) j
      ≤ √(∑ j, (G j / scale d j) ^ 2) * √(slopeSq d (f'.result - f.result)) := by
    refine le_trans (le_of_eq ?_) (Real.sum_mul_le_sqrt_mul_sqrt Finset.univ (fun j => G j / scale d j)
      (fun j => scale d j * slopes b (f'.result - f.result) j))
    refine Finset.sum_congr rfl fun j _ => ?_
    have := (hσ j).ne'
    field_simp
  set S := slopeSq d (f'.result - f.result) with hS
  have hS0 : 0 ≤ S := Finset.sum_nonneg fun j _ => sq_nonneg _
  have hT0 : 0 ≤ ∑ j, (G j / scale d j) ^ 2 := Finset.sum_nonneg fun j _ => sq_nonneg _
  rw [max_eq_left hpos.le] at e
  have e4 : options.l2 * S ≤ √(∑ j, (G j / scale d j) ^ 2) * √S := by linarith
  rcases hS0.eq_or_lt with h0 | h0
  · rw [← h0, mul_zero]; exact hT0
  · have e5 : options.l2 * √S ≤ √(∑ j, (G j / scale d j) ^ 2) := by
      refine le_of_mul_le_mul_right ?_ (Real.sqrt_pos.mpr h0)
      rwa [mul_assoc, Real.mul_self_sqrt hS0]
    have e6 := pow_le_pow_left₀ (mul_nonneg hpos.le (Real.sqrt_nonneg S)) e5 2
    rwa [mul_pow, Real.sq_sqrt hS0, Real.sq_sqrt hT0] at e6

end responses

/-- The penalty does not depend on the weights: the features are not standardized, or there are no
penalties. -/
theorem penalty_weights (hd : raw.finalize std b = some d) (hd' : raw'.finalize std b = some d')
    {l1 l2 : ℝ} (hs : std = false ∨ (l1 ≤ 0 ∧ l2 ≤ 0)) (β : Vec ℝ (ncols b p)) :
    penalty l1 l2 (scale d') b β = penalty l1 l2 (scale d) b β := by
  rcases hs with hs | ⟨h1, h2⟩
  · subst hs
    simp only [Dataset.finalize, Bool.false_eq_true, if_false, Option.some.injEq] at hd hd'
    rw [← hd, ← hd']
    rfl
  · simp [penalty, max_eq_right h1, max_eq_right h2]

section weights
variable {k : Fin n} (hv : ValidFamily fam) (hy : raw.y k ∈ yDom fam)
  (hs : std = false ∨ (options.l1 ≤ 0 ∧ options.l2 ≤ 0))
  (hd : raw.finalize std b = some d) (h : regression env fam.glm d options = .ok f)
  (ha : Admissible fam raw b f.result) (ho : Optimal fam raw f)
  (hd' : raw'.finalize std b = some d') (h' : regression env' fam.glm d' options' = .ok f')
  (ha' : Admissible fam raw b f'.result) (ho' : Optimal fam raw' f')
  (hl1 : options'.l1 = options.l1) (hl2 : options'.l2 = options.l2)
include hv hy hs hd h ha ho hd' h' ha' ho' hl1 hl2

/-- C94 (weights).  Giving an observation more weight, in its frequency or its variance weight, never
makes the optimal fit worse at that observation. -/
theorem C94_weight (hm : MoreWeight raw raw' k) :
    unitDeviance fam (raw.y k) (f'.yHat k) ≤ unitDeviance fam (raw.y k) (f.yHat k) := by
  have hlin : ∀ β i, linPred raw' b β i = linPred raw b β i := fun β i => by
    simp only [linPred, offset, hm.x, hm.off]
  have hat : ∀ β i, logLikAt fam.glm raw' b β i = logLikAt fam.glm raw b β i := fun β i => by
    simp only [logLikAt, hlin, hm.y]
  have hlik : ∀ β, logLik fam.glm raw' b β = logLik fam.glm raw b β
      + (totalWt raw' k - totalWt raw k) * logLikAt fam.glm raw b β k := fun β => by
    have e : ∀ i, totalWt raw' i * logLikAt fam.glm raw b β i = totalWt raw i * logLikAt fam.glm raw b β i
        + (if i = k then (totalWt raw' k - totalWt raw k) * logLikAt fam.glm raw b β k else 0) := by
      intro i
      by_cases hi : i = k
      · rw [hi, if_pos rfl]; ring
      · rw [if_neg hi, add_zero, hm.same i hi]
    simp only [logLik, hat, e, Finset.sum_add_distrib, Finset.sum_ite_eq', Finset.mem_univ, if_true]
  have e1 := optimal_le hd h ho (β := f'.result) ha'
  have e2 := optimal_le hd' h' ho' (β := f.result) (fun i => by rw [hlin]; exact ha i)
  rw [hl1, hl2] at e2
  simp only [penLogLik, penalty_weights hd hd' hs, hlik] at e1 e2
  have e3 : logLikAt fam.glm raw b f.result k ≤ logLikAt fam.glm raw b f'.result k := by
    have := hm.more
    by_contra hc
    push Not at hc
    nlinarith [mul_pos (sub_pos.mpr this) (sub_pos.mpr hc)]
  have e4 : f'.yHat k = meanAt fam.glm raw b f'.result k := by
    rw [yHat_mean hd' h', meanAt, hlin]; rfl
  rw [e4, yHat_mean hd h, meanAt, meanAt, ← unitDeviance_eq fam hy (funcInv_mem fam hv (ha k)),
    ← unitDeviance_eq fam hy (funcInv_mem fam hv (ha' k)), ← natParam_eq fam hv (ha k),
    ← natParam_eq fam hv (ha' k)]
  simp only [logLikAt] at e3
  linarith

end weights

/-- C94 (leave one out).  The optimal fit without observation `k` predicts it no better than the fit
that saw it. -/
theorem C94_left_out {k : Fin n} (hv : ValidFamily fam) (hy : raw.y k ∈ yDom fam)
    (hs : std = false ∨ (options.l1 ≤ 0 ∧ options.l2 ≤ 0)) (hw : 0 < totalWt raw k)
    (hd : raw.finalize std b = some d) (h : regression env fam.glm d options = .ok f)
    (ha : Admissible fam raw b f.result) (ho : Optimal fam raw f)
    (hd' : (withoutObs raw k).finalize std b = some d')
    (h' : regression env' fam.glm d' options' = .ok f') (ha' : Admissible fam raw b f'.result)
    (ho' : Optimal fam (withoutObs raw k) f') (hl1 : options'.l1 = options.l1)
    (hl2 : options'.l2 = options.l2) :
    unitDeviance fam (raw.y k) (f.yHat k) ≤ unitDeviance fam (raw.y k) (f'.yHat k) := by
  refine C94_weight (raw := withoutObs raw k) (raw' := raw) hv hy (by rwa [hl1, hl2]) hd' h' ha' ho' hd h ha
    ho hl1.symm hl2.symm ⟨rfl, rfl, rfl, fun i hi => ?_, ?_⟩
  · rw [withoutObs_totalWt, if_neg hi]
  · rwa [withoutObs_totalWt, if_pos rfl]

/-- C94 (cross-validation).  The deviance of an optimal fit is at most its leave-one-out
cross-validated deviance. -/
theorem C94_cross_validation (hv : ValidFamily fam) (hy : ∀ i, raw.y i ∈ yDom fam)
    (hs : std = false ∨ (options.l1 ≤ 0 ∧ options.l2 ≤ 0)) (hw : ∀ i, 0 ≤ totalWt raw i)
    (hd : raw.finalize std b = some d) (h : regression env fam.glm d options = .ok f)
    (ha : Admissible fam raw b f.result) (ho : Optimal fam raw f) {D : Fin n → Dataset ℝ n p b}
    {e : Fin n → Env ℝ} {o : Fin n → FitOptions ℝ (ncols b p)} {R : Fin n → Fit ℝ n p b}
    (hD : ∀ k, (withoutObs raw k).finalize std b = some (D k))
    (hR : ∀ k, regression (e k) fam.glm (D k) (o k) = .ok (R k))
    (haR : ∀ k, Admissible fam raw b (R k).result) (hoR : ∀ k, Optimal fam (withoutObs raw k) (R k))
    (hl1 : ∀ k, (o k).l1 = options.l1) (hl2 : ∀ k, (o k).l2 = options.l2) :
    f.deviance ≤ ∑ k, totalWt raw k * unitDeviance fam (raw.y k) ((R k).yHat k) := by
  rw [C81_deviance hd h hv hy ha]
  refine Finset.sum_le_sum fun k _ => ?_
  rcases (hw k).eq_or_lt with h0 | h0
  · rw [← h0, zero_mul, zero_mul]
  · exact mul_le_mul_of_nonneg_left
      (C94_left_out hv (hy k) hs h0 hd h ha ho (hD k) (hR k) (haR k) (hoR k) (hl1 k) (hl2 k)) h0.le

/-- Optimal ridge fits of any identified data set. -/
theorem ridge_optimal (raw : Dataset ℝ n p false) {l2 : ℝ} (hd : raw.finalize std b = some d)
    (hw : ∀ i, 0 ≤ totalWt raw i)
    (hid : IsUnit (gram raw b).det ∨ (0 < l2 ∧ (b = true → ∃ i, 0 < totalWt raw i))) : ∃ f,
    regression (exactEnv 0 0) Family.linear.glm d (exOpts 0 l2 none 1) = .ok f ∧
      Admissible .linear raw b f.result ∧ Optimal .linear raw f := by
  obtain ⟨βs, h, -⟩ := C78_solution (raw := raw) (b := b) (l2 := l2) (Dataset.scale_pos hd) hw hid
  have hs : RidgeSetting (exactEnv 0 0) raw std d (exOpts 0 l2 none 1) βs :=
    ⟨exactEnv_exact le_rfl 0, hd, le_rfl, hw, hid, h⟩
  obtain ⟨f, hf, hr, -⟩ := C78_exact_ridge hs rfl le_rfl
  refine ⟨f, hf, fun _ => trivial, ?_⟩
  refine C88_optimal ⟨trivial, trivial, Or.inl trivial, hw⟩ hd le_rfl hf (fun _ => trivial) ?_
  rw [(C10_external (Family.lawfulAdj .linear) hd le_rfl hf).2.1, hr]
  exact hs.score_eq

/-- Ridge fits of two sets of responses: `C94_exchange`, `C94_canonical`, `C94_contraction`, and
`C94_own` and `C94_ridge` where they apply. -/
example (y y' : Vec ℝ 3) : ∃ (d d' : Dataset ℝ 3 1 true) (f f' : Fit ℝ 3 1 true),
    (exRaw y).finalize true true = some d ∧ (exRaw y').finalize true true = some d' ∧
    regression (exactEnv 0 0) Family.linear.glm d (exOpts 0 2 none 1) = .ok f ∧
    regression (exactEnv 0 0) Family.linear.glm d' (exOpts 0 2 none 1) = .ok f' ∧
    ∑ i, totalWt (exRaw y) i * (f'.yHat i - f.yHat i) ^ 2
        + 2 * (2 * slopeSq d (f'.result - f.result))
      ≤ ∑ i, totalWt (exRaw y) i * (y' i - y i) ^ 2 ∧
    (y' = Function.update y 1 (y 1 + 1) → f.yHat 1 ≤ f'.yHat 1) ∧
    (∑ i, totalWt (exRaw y) i * (y' i - y i) = 0 → 2 ^ 2 * slopeSq d (f'.result - f.result)
      ≤ ∑ j, ((∑ i, totalWt (exRaw y) i * (y' i - y i) * (exRaw y).x i j) / scale d j) ^ 2) := by
  obtain ⟨d, hd⟩ := exRaw_finalize y true true
  obtain ⟨d', hd'⟩ := exRaw_finalize y' true true
  obtain ⟨f, h, ha, ho⟩ := exRidge_optimal y 2 hd
  obtain ⟨f', h', ha', ho'⟩ := exRidge_optimal y' 2 hd'
  have hw : ∀ i, 0 < totalWt (exRaw y) i := exRaw_totalWt_pos y
  refine ⟨d, d', f, f', hd, hd', h, h', ?_, fun e => ?_, fun e => ?_⟩
  · have := C94_contraction (raw := exRaw y) (y' := y') (fam := .linear) trivial hd h ha ho hd' h' ha' ho' rfl rfl rfl fun i => (hw i).le
    rwa [show max (exOpts 0 2 none 1 : FitOptions ℝ 2).l2 0 = 2 from max_eq_left zero_le_two] at this
  · exact C94_own (raw := exRaw y) (y' := y') (fam := .linear) trivial hd h ha ho hd' h' ha' ho' rfl rfl e (lt_add_one _) (hw 1)
  · exact C94_ridge (raw := exRaw y) (y' := y') (fam := .linear) trivial hd h ha ho hd' h' ha' ho' rfl rfl trivial (fun i => (hw i).le)
      zero_lt_two fun _ => e

/-- `C94_cross_validation` and `C94_left_out`: ridge fits that leave out each of three observations. -/
example (y : Vec ℝ 3) : ∃ (d : Dataset ℝ 3 1 true) (f : Fit ℝ 3 1 true) (D : Fin 3 → Dataset ℝ 3 1 true)
    (R : Fin 3 → Fit ℝ 3 1 true), (exRaw y).finalize false true = some d ∧
    regression (exactEnv 0 0) Family.linear.glm d (exOpts 0 2 none 1) = .ok f ∧
    (∀ k, (withoutObs (exRaw y) k).finalize false true = some (D k)) ∧
    (∀ k, regression (exactEnv 0 0) Family.linear.glm (D k) (exOpts 0 2 none 1) = .ok (R k)) ∧
    f.deviance ≤ ∑ k, totalWt (exRaw y) k * unitDeviance .linear (y k) ((R k).yHat k) ∧
    unitDeviance .linear (y 1) (f.yHat 1) ≤ unitDeviance .linear (y 1) ((R 1).yHat 1) := by
  have hw : ∀ i, 0 < totalWt (exRaw y) i := exRaw_totalWt_pos y
  have hw' : ∀ k i, 0 ≤ totalWt (withoutObs (exRaw y) k) i := fun k i => by
    rw [withoutObs_totalWt]
    split
    · exact le_rfl
    · exact (hw i).le
  obtain ⟨d, hd⟩ : ∃ d, (exRaw y).finalize false true = some d := ⟨_, rfl⟩
  obtain ⟨D, hD⟩ : ∃ D : Fin 3 → Dataset ℝ 3 1 true,
      ∀ k, (withoutObs (exRaw y) k).finalize false true = some (D k) := ⟨_, fun _ => rfl⟩
  obtain ⟨f, h, ha, ho⟩ := ridge_optimal (exRaw y) (l2 := 2) hd (fun i => (hw i).le)
    (Or.inr ⟨zero_lt_two, fun _ => ⟨0, hw 0⟩⟩)
  have hR := fun k => ridge_optimal (withoutObs (exRaw y) k) (l2 := 2) (hD k) (hw' k)
    (Or.inr ⟨zero_lt_two, fun _ => ⟨k + 1, by
      rw [withoutObs_totalWt, if_neg (by fin_cases k <;> decide)]; exact hw _⟩⟩)
  choose R hR haR hoR using hR
  exact ⟨d, f, D, R, hd, h, hD, hR, C94_cross_validation (raw := exRaw y) (fam := .linear)
    (o := fun _ => exOpts 0 2 none 1) trivial (fun _ => trivial) (Or.inl rfl) (fun i => (hw i).le) hd h ha ho hD hR haR hoR (fun _ => rfl)
    (fun _ => rfl), C94_left_out (raw := exRaw y) (fam := .linear) trivial trivial (Or.inl rfl) (hw 1) hd h ha ho (hD 1) (hR 1) (haR 1)
    (hoR 1) rfl rfl⟩

end GLM
