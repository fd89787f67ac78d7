/-
  C93: what the coefficients mean for predictions.
-/
import Verif.Spec.Effects
import Verif.Props.External
import Verif.Props.Families
import Verif.Props.Deviance
import Verif.Props.Tests

namespace GLM
open Spec Matrix
variable {n p m m' : ℕ} {b : Bool} {env : Env ℝ} {fam : Family} {raw : Dataset ℝ n p false} {std : Bool}
  {d : Dataset ℝ n p b} {options : FitOptions ℝ (ncols b p)} {f : Fit ℝ n p b}

theorem design_dot (X : Mat ℝ m p) (β : Vec ℝ (ncols b p)) (i : Fin m) :
    ∑ j, design b X i j * β j = interceptOf b β + ∑ j, X i j * slopes b β j := by
  cases b
  · simp [interceptOf, slopes, design]
  · change ∑ j : Fin (p + 1), (Fin.cons 1 (X i) : Fin (p + 1) → ℝ) j * β j = _
    rw [Fin.sum_univ_succ]
    simp [interceptOf, slopes]

/-- C93: the prediction for row `i` is the mean at the linear predictor of that row; it depends on
nothing else. -/
theorem C93_row (h : regression env fam.glm d options = .ok f) (X : Mat ℝ m p)
    (off : Option (Vec ℝ m)) (i : Fin m) :
    f.predict X off i = (fam.glm (F := ℝ)).link.funcInv (newPred b f.result (X i) (newOffset off i)) := by
  have hg : f.g = fam.glm := by
    obtain ⟨best, s, -, rfl⟩ := regression_ok h
    rfl
  rw [C09_predict_new, hg, design_dot]
  cases off <;> rfl

theorem newPred_sub (β : Vec ℝ (ncols b p)) (x x' : Fin p → ℝ) (o o' : ℝ) :
    newPred b β x' o' = newPred b β x o + effect b β x x' o o' := by
  simp only [newPred, effect, sub_mul, Finset.sum_sub_distrib]
  ring

/-- The mean function is strictly increasing. -/
theorem funcInv_lt (hv : ValidFamily fam) {v w : ℝ} (h : v ∈ predDom fam) (h' : w ∈ predDom fam)
    (hlt : v < w) :
    (fam.glm (F := ℝ)).link.funcInv v < (fam.glm (F := ℝ)).link.funcInv w := by
  have hlog : ∀ N : ℝ, 0 < N → N / (1 + Real.exp (-v)) < N / (1 + Real.exp (-w)) := fun N hN => by
    have h1 : Real.exp (-w) < Real.exp (-v) := Real.exp_lt_exp.mpr (neg_lt_neg hlt)
    exact div_lt_div_of_pos_left hN (by positivity) (by linarith)
  have hrec : v < 0 → w < 0 → -(1 / v) < -(1 / w) := fun h1 h2 => by
    rw [← one_div_neg_eq_neg_one_div, ← one_div_neg_eq_neg_one_div]
    exact one_div_lt_one_div_of_lt (by linarith) (by linarith)
  rw [funcInv_real, funcInv_real]
  cases fam <;> dsimp only
  case linear => exact hlt
  case logisticLogit => exact hlog 1 one_pos
  case logisticCloglog =>
    have h1 := Real.exp_lt_exp.mpr hlt
    have h2 := Real.exp_lt_exp.mpr (neg_lt_neg h1)
    linarith
  case poisson => exact Real.exp_lt_exp.mpr hlt
  case binomial N => exact hlog N (Nat.cast_pos.mpr hv)
  case exponentialNegRec => exact hrec h h'
  case gammaNegRec => exact hrec h h'
  case exponentialLog => exact Real.exp_lt_exp.mpr hlt
  case gammaLog => exact Real.exp_lt_exp.mpr hlt
  case invGaussLog => exact Real.exp_lt_exp.mpr hlt
  case invGaussNegRecSq =>
    have h2 : w < 0 := h'
    exact one_div_lt_one_div_of_lt (Real.sqrt_pos.mpr (by linarith))
      (Real.sqrt_lt_sqrt (by linarith) (by linarith))

section contrast
variable (h : regression env fam.glm d options = .ok f) (X : Mat ℝ m p) (off : Option (Vec ℝ m))
  (i : Fin m) (X' : Mat ℝ m' p) (off' : Option (Vec ℝ m')) (i' : Fin m')
include h

/-- C93: on the scale of the link, two predictions differ by the effect: the differences of the
features times their coefficients, plus the difference of the offsets. -/
theorem C93_contrast (hv : ValidFamily fam)
    (h1 : newPred b f.result (X i) (newOffset off i) ∈ predDom fam)
    (h2 : newPred b f.result (X' i') (newOffset off' i') ∈ predDom fam) :
    linkFn fam (f.predict X' off' i') = linkFn fam (f.predict X off i)
      + effect b f.result (X i) (X' i') (newOffset off i) (newOffset off' i') := by
  rw [C93_row h, C93_row h, ← func_eq_linkFn, ← func_eq_linkFn, func_funcInv fam hv h1,
    func_funcInv fam hv h2, newPred_sub]

/-- C93: which of two predictions is larger is decided by the sign of the effect. -/
theorem C93_sign (hv : ValidFamily fam)
    (h1 : newPred b f.result (X i) (newOffset off i) ∈ predDom fam)
    (h2 : newPred b f.result (X' i') (newOffset off' i') ∈ predDom fam) :
    (f.predict X off i < f.predict X' off' i' ↔
      0 < effect b f.result (X i) (X' i') (newOffset off i) (newOffset off' i')) ∧
    (f.predict X off i = f.predict X' off' i' ↔
      effect b f.result (X i) (X' i') (newOffset off i) (newOffset off' i') = 0) := by
  have e := newPred_sub f.result (X i) (X' i') (newOffset off i) (newOffset off' i')
  rw [C93_row h, C93_row h]
  rcases lt_trichotomy (effect b f.result (X i) (X' i') (newOffset off i) (newOffset off' i')) 0
    with hlt | heq | hgt
  · have := funcInv_lt hv h2 h1 (by linarith)
    exact ⟨⟨fun h => absurd h (lt_asymm this), fun h => absurd h (lt_asymm hlt)⟩,
      ⟨fun h => absurd h this.ne', fun h => absurd h hlt.ne⟩⟩
  · rw [e, heq, add_zero]
    simp
  · have := funcInv_lt hv h1 h2 (by linarith)
    exact ⟨⟨fun _ => hgt, fun _ => this⟩, ⟨fun h => absurd h this.ne, fun h => absurd h hgt.ne'⟩⟩

/-- C93: in a linear model effects are differences of means. -/
theorem C93_linear (hf : fam = .linear) : f.predict X' off' i' = f.predict X off i
    + effect b f.result (X i) (X' i') (newOffset off i) (newOffset off' i') := by
  subst hf
  exact C93_contrast h X off i X' off' i' trivial trivial trivial

/-- C93: with a log link effects are log ratios of means (rate ratios). -/
theorem C93_ratio (hf : fam = .poisson ∨ fam = .exponentialLog ∨ fam = .gammaLog ∨ fam = .invGaussLog) :
    f.predict X' off' i' = f.predict X off i
      * Real.exp (effect b f.result (X i) (X' i') (newOffset off i) (newOffset off' i')) := by
  rw [C93_row h, C93_row h, newPred_sub f.result (X i) (X' i') (newOffset off i) (newOffset off' i')]
  rcases hf with rfl | rfl | rfl | rfl <;> simp only [funcInv_real, Real.exp_add]

/-- C93: with the logit link effects are log odds ratios. -/
theorem C93_odds {N : ℕ} (hN : 0 < N) (hf : fam = .logisticLogit ∧ N = 1 ∨ fam = .binomial N) :
    f.predict X' off' i' / (N - f.predict X' off' i') = f.predict X off i / (N - f.predict X off i)
      * Real.exp (effect b f.result (X i) (X' i') (newOffset off i) (newOffset off' i')) := by
  have hN' : (0 : ℝ) < N := Nat.cast_pos.mpr hN
  have key : ∀ w : ℝ, (N / (1 + Real.exp (-w))) / (N - N / (1 + Real.exp (-w))) = Real.exp w := by
    intro w
    have h1 := Real.exp_pos (-w)
    have h2 : (N : ℝ) - N / (1 + Real.exp (-w)) = N * Real.exp (-w) / (1 + Real.exp (-w)) := by
      field_simp; ring
    rw [h2, div_div_div_cancel_right₀ (by positivity), Real.exp_neg]
    field_simp
  have hfun : ∀ w : ℝ, (fam.glm (F := ℝ)).link.funcInv w = N / (1 + Real.exp (-w)) := by
    rcases hf with ⟨rfl, rfl⟩ | rfl <;> intro w <;> simp [funcInv_real]
  rw [C93_row h, C93_row h, hfun, hfun, key, key, ← Real.exp_add, newPred_sub]

/-- C93: with the complementary log-log link effects are log ratios of hazards: the probability of
no event is raised to the power `exp` of the effect. -/
theorem C93_hazard (hf : fam = .logisticCloglog) : 1 - f.predict X' off' i' = (1 - f.predict X off i)
    ^ Real.exp (effect b f.result (X i) (X' i') (newOffset off i) (newOffset off' i')) := by
  subst hf
  rw [C93_row h, C93_row h, newPred_sub f.result (X i) (X' i') (newOffset off i) (newOffset off' i')]
  simp only [funcInv_real, sub_sub_cancel]
  rw [← Real.exp_mul, Real.exp_add, neg_mul]

/-- C93: with the negative reciprocal link effects are differences of rates. -/
theorem C93_rate (hf : fam = .exponentialNegRec ∨ fam = .gammaNegRec) :
    1 / f.predict X' off' i' = 1 / f.predict X off i
      - effect b f.result (X i) (X' i') (newOffset off i) (newOffset off' i') := by
  rw [C93_row h, C93_row h, newPred_sub f.result (X i) (X' i') (newOffset off i) (newOffset off' i')]
  rcases hf with rfl | rfl <;> simp only [funcInv_real, one_div, inv_neg, inv_inv] <;> ring

/-- C93: for the inverse Gaussian family effects are halves of differences of inverse squares. -/
theorem C93_inverse_square (hf : fam = .invGaussNegRecSq)
    (h1 : newPred b f.result (X i) (newOffset off i) ∈ predDom fam)
    (h2 : newPred b f.result (X' i') (newOffset off' i') ∈ predDom fam) :
    1 / f.predict X' off' i' ^ 2 = 1 / f.predict X off i ^ 2
      - 2 * effect b f.result (X i) (X' i') (newOffset off i) (newOffset off' i') := by
  subst hf
  have h1' : newPred b f.result (X i) (newOffset off i) < 0 := h1
  have h2' : newPred b f.result (X' i') (newOffset off' i') < 0 := h2
  rw [C93_row h, C93_row h]
  simp only [funcInv_real, one_div, inv_pow, inv_inv]
  rw [Real.sq_sqrt (by linarith), Real.sq_sqrt (by linarith),
    newPred_sub f.result (X i) (X' i') (newOffset off i) (newOffset off' i')]
  ring

end contrast

/-- C93: changing one feature by `δ` has the effect `δ` times its coefficient. -/
theorem C93_one_feature (β : Vec ℝ (ncols b p)) (x : Fin p → ℝ) (j : Fin p) (δ o : ℝ) :
    effect b β x (Function.update x j (x j + δ)) o o = δ * slopes b β j := by
  unfold effect
  rw [Finset.sum_eq_single j (fun k _ hk => by rw [Function.update_of_ne hk, sub_self, zero_mul])
    (fun h => absurd (Finset.mem_univ j) h)]
  simp

/-- C93: with a log link the offset is a logarithm of exposure: the mean is proportional to it. -/
theorem C93_exposure (h : regression env fam.glm d options = .ok f)
    (hf : fam = .poisson ∨ fam = .exponentialLog ∨ fam = .gammaLog ∨ fam = .invGaussLog)
    (X : Mat ℝ m p) {t : Vec ℝ m} (ht : ∀ i, 0 < t i) (i : Fin m) :
    f.predict X (some fun i => Real.log (t i)) i = t i * f.predict X none i := by
  rw [C93_ratio h X none i X _ i hf]
  have : effect b f.result (X i) (X i) (newOffset (none : Option (Vec ℝ m)) i)
      (newOffset (some fun i => Real.log (t i)) i) = Real.log (t i) := by
    simp [effect, newOffset]
  rw [this, Real.exp_log (ht i), mul_comm]


/-! ### Concrete cases -/

/-- The Poisson regression of `y = (2, 1, 5)` on `x = (0, 1, 2)` has the coefficients `(0, log 2)`: one
more unit of the feature doubles the prediction. -/
example (std : Bool) : ∃ d f, (exRaw ![2, 1, 5]).finalize std true = some d ∧
    regression (exactEnv (1 / 1000) 7) Family.poisson.glm d
      (exOpts 0 0 (some ![0, Real.log 2]) 5) = .ok f ∧
    ∀ x : ℝ, f.predict (m := 1) (fun _ _ => x + 1) none 0 = 2 * f.predict (m := 1) (fun _ _ => x) none 0 := by
  obtain ⟨d, hd⟩ := exRaw_finalize ![2, 1, 5] std true
  have hs := exPoisson_stationary' (scale d)
  generalize hβ : (![0, Real.log 2] : Vec ℝ (ncols true 1)) = β at hs
  obtain ⟨f, h1, -, -, h2⟩ := C22_stationary_start
    (options := exOpts 0 0 (some β) 5)
    (exactEnv_exact (by norm_num : (0 : ℝ) ≤ 1 / 1000) 7) (Family.lawfulAdj .poisson) hd le_rfl rfl
    (exPoisson_newton _ _ (by norm_num [exactEnv]) _) (by simpa only [exOpts] using hs)
  refine ⟨d, f, hd, h1, fun x => ?_⟩
  rw [C93_ratio h1 (fun _ _ => x) none (0 : Fin 1) (fun _ _ => x + 1) none (0 : Fin 1) (Or.inl rfl), mul_comm]
  congr 1
  have he : effect true f.result (fun _ => x) (fun _ => x + 1) 0 0 = Real.log 2 := by
    have hsl : slopes true f.result (0 : Fin 1) = Real.log 2 := by rw [h2, ← hβ]; rfl
    simp only [effect, Fin.sum_univ_one, hsl]
    ring
  exact (congrArg Real.exp he).trans (Real.exp_log two_pos)

/-- The linear regression of `y = (0, 1, 4)` on `x = (0, 1, 2)`: predictions are ordered as the feature,
because the slope is 2. -/
example (std : Bool) : ∃ d f, (exRaw ![0, 1, 4]).finalize std true = some d ∧
    regression (exactEnv 0 0) Family.linear.glm d (exOpts 0 0 none 1) = .ok f ∧
    ∀ x x' : ℝ, f.predict (m := 1) (fun _ _ => x) none 0 < f.predict (m := 1) (fun _ _ => x') none 0
      ↔ x < x' := by
  obtain ⟨d, f, hd, hf, hr, -⟩ := exLinFit_score std
  refine ⟨d, f, hd, hf, fun x x' => ?_⟩
  rw [(C93_sign hf (fun _ _ => x) none (0 : Fin 1) (fun _ _ => x') none (0 : Fin 1) trivial trivial trivial).1]
  have hsl : slopes true f.result (0 : Fin 1) = 2 := by rw [hr]; rfl
  simp only [effect, Fin.sum_univ_one, hsl, newOffset]
  constructor <;> intro h <;> linarith

end GLM
