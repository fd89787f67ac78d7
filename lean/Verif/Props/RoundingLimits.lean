/-
  C83, continued: `f64` and `f32` are formats of the kind the theorems speak about, and what rounding
  does break.
-/
import Verif.Props.Rounding

namespace GLM
open Spec Scalar Fl

/-! ### Calculating in `f64` -/

theorem roundEven_of_near {x : ℝ} {k : ℤ} (h : |x - k| < 1 / 2) : roundEven x = k := by
  have h1 := roundEven_near x
  have h2 : |((roundEven x - k : ℤ) : ℝ)| < 1 := by
    push_cast
    calc |(roundEven x : ℝ) - k| = |-(x - roundEven x) + (x - k)| := by congr 1; ring
      _ ≤ |x - roundEven x| + |x - k| := by rw [← abs_neg (x - roundEven x)]; exact abs_add_le _ _
      _ < 1 := by linarith
  have h3 : |roundEven x - k| < 1 := by exact_mod_cast h2
  rw [Int.abs_lt_one_iff] at h3
  omega

theorem roundBits_eq {p : ℕ} {emin e : ℤ} {v : ℝ} (he : emin ≤ e) (h1 : (2 : ℝ) ^ e ≤ |v|)
    (h2 : |v| < 2 ^ (e + 1)) :
    roundBits p emin v = 2 ^ (e - (p - 1 : ℤ)) * roundEven (v / 2 ^ (e - (p - 1 : ℤ))) := by
  have hpos : 0 < |v| := lt_of_lt_of_le (by positivity) h1
  have hlog : Int.log 2 |v| = e := by
    have a1 := (Int.zpow_le_iff_le_log (b := 2) (by norm_num) hpos (x := e)).mp (by exact_mod_cast h1)
    have a2 := (Int.lt_zpow_iff_log_lt (b := 2) (by norm_num) hpos (x := e + 1)).mp
      (by exact_mod_cast h2)
    omega
  have hu : ulp p emin v = 2 ^ (e - (p - 1 : ℤ)) := by
    unfold ulp
    rw [hlog, max_eq_left he]
  unfold roundBits
  rw [hu]

/-- Rounding a number of exponent `e` in `f64`, given its last place. -/
theorem binary64_rnd {v : ℝ} (e k : ℤ) (he : -1022 ≤ e) (he' : e ≤ 1022) (h1 : (2 : ℝ) ^ e ≤ |v|)
    (h2 : |v| < 2 ^ (e + 1)) (hk : roundEven (v / 2 ^ (e - 52)) = k) :
    binary64.rnd (v : EReal) = ((2 ^ (e - 52) * k : ℝ) : EReal) := by
  have hr : roundBits 53 (-1022) v = 2 ^ (e - 52) * k := by
    rw [roundBits_eq he h1 h2]
    have : (e - ((53 : ℕ) - 1 : ℤ)) = e - 52 := by norm_num
    rw [this, hk]
  have hb : |roundBits 53 (-1022) v| ≤ (2 : ℝ) ^ (1023 : ℤ) := by
    have hb1 : ∀ u : ℝ, |u| < 2 ^ (e + 1) → 2 ^ e ≤ |u| →
        roundBits 53 (-1022) u ≤ (2 : ℝ) ^ (1023 : ℤ) := by
      intro u hu hu'
      refine (roundBits_le_exponent u).trans (zpow_le_zpow_right₀ (by norm_num) ?_)
      have hpos : 0 < |u| := lt_of_lt_of_le (by positivity) hu'
      have a2 := (Int.lt_zpow_iff_log_lt (b := 2) (by norm_num) hpos (x := e + 1)).mp
        (by exact_mod_cast hu)
      have : max (Int.log 2 |u|) (-1022) ≤ e := max_le (by omega) he
      omega
    rw [abs_le]
    constructor
    · have := hb1 (-v) (by rwa [abs_neg]) (by rwa [abs_neg])
      rw [roundBits_neg] at this
      linarith
    · exact hb1 v h2 h1
  have hlt : (2 : ℝ) ^ (1023 : ℤ) < 2 ^ ((1023 : ℤ) + 1) :=
    zpow_lt_zpow_right₀ (by norm_num) (by norm_num)
  rw [abs_le] at hb
  change roundBinary 53 (-1022) 1023 (v : EReal) = _
  rw [roundBinary_coe, if_neg (by linarith), if_neg (by linarith), hr]

namespace Fl
variable {fmt : FloatFormat}

theorem num_mul {a c r : ℝ} (h : fmt.rnd ((a * c : ℝ) : EReal) = (r : EReal)) (hr : r ≠ 0) :
    (num (a : EReal) * num (c : EReal) : Fl fmt) = num (r : EReal) := by
  rw [mul_def]
  unfold times
  rw [if_neg (by simp), if_neg (by simp), val_num, val_num, ← EReal.coe_mul, h]
  unfold Fl.mk
  rw [if_neg (by exact_mod_cast hr)]

theorem num_add {a c r : ℝ} (h : fmt.rnd ((a + c : ℝ) : EReal) = (r : EReal)) (hr : r ≠ 0) :
    (num (a : EReal) + num (c : EReal) : Fl fmt) = num (r : EReal) := by
  have h0 : (a : EReal) + c ≠ 0 := by
    intro h0
    rw [← EReal.coe_add] at h0
    rw [h0, fmt.rnd_zero] at h
    exact hr (by exact_mod_cast h.symm)
  rw [add_def]
  unfold plus
  rw [if_neg (by simp), if_neg (by simp), val_num, val_num, if_neg h0, ← EReal.coe_add, h]
  unfold Fl.mk
  rw [if_neg (by exact_mod_cast hr)]

theorem num_neg {a : ℝ} (h : a ≠ 0) : (-(num (a : EReal)) : Fl fmt) = num ((-a : ℝ) : EReal) := by
  change Fl.mk true (-(a : EReal)) = _
  unfold Fl.mk
  rw [if_neg]
  · rfl
  · rw [EReal.neg_eq_zero_iff]; exact_mod_cast h

theorem num_sub {a c r : ℝ} (h : fmt.rnd ((a - c : ℝ) : EReal) = (r : EReal)) (hr : r ≠ 0)
    (hc : c ≠ 0) : (num (a : EReal) - num (c : EReal) : Fl fmt) = num (r : EReal) := by
  have : (num (a : EReal) - num (c : EReal) : Fl fmt) = num (a : EReal) + -(num (c : EReal)) := rfl
  rw [this, num_neg hc]
  exact num_add (by rw [← sub_eq_add_neg]; exact h) hr

end Fl

/-- The number `3 + 2^(-50)`, two places after `3` in `f64`. -/
noncomputable def nearThree : ℝ := 3 + 1 / 2 ^ 50

theorem nearThree_rnd : binary64.rnd (nearThree : EReal) = (nearThree : EReal) := by
  rw [binary64_rnd 1 (3 * 2 ^ 51 + 2) (by norm_num) (by norm_num)]
  · congr 1; unfold nearThree; norm_num
  · unfold nearThree; rw [abs_of_pos (by norm_num)]; norm_num
  · unfold nearThree; rw [abs_of_pos (by norm_num)]; norm_num
  · refine roundEven_of_near ?_
    unfold nearThree; norm_num

/-- The values that occur below, with the exponent and the last place of each. -/
theorem rounded :
    binary64.rnd (((5 : ℕ) / 10 ^ 1 : ℝ) : EReal) = ((1 / 2 : ℝ) : EReal) ∧
    binary64.rnd ((((2 : ℕ) : ℝ)) : EReal) = ((2 : ℝ) : EReal) ∧
    binary64.rnd ((1 / 2 * 3 : ℝ) : EReal) = ((3 / 2 : ℝ) : EReal) ∧
    binary64.rnd ((3 / 2 * 3 : ℝ) : EReal) = ((9 / 2 : ℝ) : EReal) ∧
    binary64.rnd ((3 * nearThree : ℝ) : EReal) = ((9 + 1 / 2 ^ 48 : ℝ) : EReal) ∧
    binary64.rnd ((1 / 2 * nearThree : ℝ) : EReal) = ((3 / 2 + 1 / 2 ^ 51 : ℝ) : EReal) ∧
    binary64.rnd (((3 / 2 + 1 / 2 ^ 51) * nearThree : ℝ) : EReal)
      = ((9 / 2 + 3 / 2 ^ 50 : ℝ) : EReal) ∧
    binary64.rnd ((9 + 1 / 2 ^ 48 - (9 / 2 + 3 / 2 ^ 50) : ℝ) : EReal)
      = ((9 / 2 + 1 / 2 ^ 50 : ℝ) : EReal) ∧
    binary64.rnd ((9 / 2 - (9 / 2 + 1 / 2 ^ 50) : ℝ) : EReal) = ((-(1 / 2 ^ 50) : ℝ) : EReal) ∧
    binary64.rnd ((-(1 / 2 ^ 50) * 2 : ℝ) : EReal) = ((-(1 / 2 ^ 49) : ℝ) : EReal) := by
  unfold nearThree
  refine ⟨?_, ?_, ?_, ?_, ?_, ?_, ?_, ?_, ?_, ?_⟩
  · rw [binary64_rnd (-1) (2 ^ 52) (by norm_num) (by norm_num)]
    · congr 1; norm_num
    · norm_num
    · rw [abs_of_pos (by norm_num)]; norm_num
    · refine roundEven_of_near ?_; norm_num
  · rw [binary64_rnd 1 (2 ^ 52) (by norm_num) (by norm_num)]
    · congr 1; norm_num
    · norm_num
    · norm_num
    · refine roundEven_of_near ?_; norm_num
  · rw [binary64_rnd 0 (3 * 2 ^ 51) (by norm_num) (by norm_num)]
    · congr 1; norm_num
    · rw [abs_of_pos (by norm_num)]; norm_num
    · rw [abs_of_pos (by norm_num)]; norm_num
    · refine roundEven_of_near ?_; norm_num
  · rw [binary64_rnd 2 (9 * 2 ^ 49) (by norm_num) (by norm_num)]
    · congr 1; norm_num
    · rw [abs_of_pos (by norm_num)]; norm_num
    · rw [abs_of_pos (by norm_num)]; norm_num
    · refine roundEven_of_near ?_; norm_num
  · rw [binary64_rnd 3 (9 * 2 ^ 49 + 2) (by norm_num) (by norm_num)]
    · congr 1; norm_num
    · rw [abs_of_pos (by norm_num)]; norm_num
    · rw [abs_of_pos (by norm_num)]; norm_num
    · have hfl : ⌊(3 * (3 + 1 / 2 ^ 50) : ℝ) / 2 ^ ((3 : ℤ) - 52)⌋ = 9 * 2 ^ 49 + 1 := by
        rw [Int.floor_eq_iff]; norm_num
      rw [roundEven_tie (by rw [hfl]; norm_num), hfl, if_neg (by decide)]
      norm_num
  · rw [binary64_rnd 0 (3 * 2 ^ 51 + 2) (by norm_num) (by norm_num)]
    · congr 1; norm_num
    · rw [abs_of_pos (by norm_num)]; norm_num
    · rw [abs_of_pos (by norm_num)]; norm_num
    · refine roundEven_of_near ?_; norm_num
  · rw [binary64_rnd 2 (9 * 2 ^ 49 + 3) (by norm_num) (by norm_num)]
    · congr 1; norm_num
    · rw [abs_of_pos (by norm_num)]; norm_num
    · rw [abs_of_pos (by norm_num)]; norm_num
    · refine roundEven_of_near ?_
      rw [abs_lt]; constructor <;> norm_num
  · rw [binary64_rnd 2 (9 * 2 ^ 49 + 1) (by norm_num) (by norm_num)]
    · congr 1; norm_num
    · rw [abs_of_pos (by norm_num)]; norm_num
    · rw [abs_of_pos (by norm_num)]; norm_num
    · refine roundEven_of_near ?_; norm_num
  · rw [binary64_rnd (-50) (-2 ^ 52) (by norm_num) (by norm_num)]
    · congr 1; norm_num
    · rw [abs_of_neg (by norm_num)]; norm_num
    · rw [abs_of_neg (by norm_num)]; norm_num
    · refine roundEven_of_near ?_; norm_num
  · rw [binary64_rnd (-49) (-2 ^ 52) (by norm_num) (by norm_num)]
    · congr 1; norm_num
    · rw [abs_of_neg (by norm_num)]; norm_num
    · rw [abs_of_neg (by norm_num)]; norm_num
    · refine roundEven_of_near ?_; norm_num

/-- The deviance contribution of a linear model for the response `3` and the mean `3 + 2^(-50)` is
negative in `f64`. -/
theorem linear_term :
    let y : Fl binary64 := num (3 : ℝ)
    let w : Fl binary64 := num (nearThree : EReal)
    let g : Glm (Fl binary64) := Family.linear.glm
    (g.logLikeSat y - g.logLikeNatural y (g.link.natParam w)) * two
      = num ((-(1 / 2 ^ 49) : ℝ) : EReal) := by
  intro y w g
  obtain ⟨r1, r2, r3, r4, r5, r6, r7, r8, r9, r10⟩ := rounded
  have hhalf : (half : Fl binary64) = num ((1 / 2 : ℝ) : EReal) := by
    change num (binary64.rnd _) = _
    rw [r1]
  have htwo : (two : Fl binary64) = num ((2 : ℝ) : EReal) := by
    change num (binary64.rnd _) = _
    rw [r2]
  change (half * y * y - (y * w - half * w * w)) * two = _
  rw [hhalf, htwo, num_mul r3 (by norm_num), num_mul r4 (by norm_num), num_mul r5 (by norm_num),
    num_mul r6 (by norm_num), num_mul r7 (by norm_num), num_sub r8 (by norm_num) (by norm_num),
    num_sub r9 (by norm_num) (by norm_num), num_mul r10 (by norm_num)]

/-- One observation with the response `3`, and nothing but an intercept. -/
noncomputable def threeData : Dataset (Fl binary64) 1 0 true :=
  { y := fun _ => num (3 : ℝ), x := fun _ _ => 1, linearOffset := none, weights := none,
    freqs := none, standardizer := none }

/-- A solver that returns `3 + 2^(-50)`, two places from the solution. -/
noncomputable def threeEnv : Env (Fl binary64) where
  eps := 0
  solveh _ _ := .ok fun _ => num (nearThree : EReal)
  invh _ := .error .failed
  inv _ := .error .failed
  fuel := 0

/-- A fit whose first solution is the starting point stops there (any arithmetic). -/
theorem regression_stays {F : Type} [Scalar F] {n p : ℕ} {b : Bool} {env : Env F} {g : Glm F}
    {data : Dataset F n p b} {options : FitOptions F (ncols b p)} {v : Vec F (ncols b p)}
    (hg : getReg options = .null)
    (hs : (Irls.new g data (initialGuess env g data options) options).sol env g data = .ok v)
    (he : vecEq v (initialGuess env g data options) = true) :
    ∃ f, regression env g data options = .ok f ∧
      f.resultStd = initialGuess env g data options := by
  have h1 : (Irls.new g data (initialGuess env g data options) options).nextRaw env g data
      options.tol = .stop _ :=
    Irls.nextRaw_equal rfl hs (by
      change ((getReg options).prepare _).terminateOk _ = true
      rw [hg]; rfl) he
  rw [regression_eq, fitLoop_eq, h1]
  exact ⟨_, rfl, rfl⟩

theorem Fl.zero_add_num {fmt : FloatFormat} {a : ℝ} (h : fmt.rnd (a : EReal) = a) (h0 : a ≠ 0) :
    (0 + num (a : EReal) : Fl fmt) = num (a : EReal) := by
  have : (0 : Fl fmt) = num ((0 : ℝ) : EReal) := rfl
  rw [this]
  exact num_add (by rw [zero_add]; exact h) h0

theorem Fl.one_mul_num {fmt : FloatFormat} {a : ℝ} (h : fmt.rnd (a : EReal) = a) (h0 : a ≠ 0) :
    (1 * num (a : EReal) : Fl fmt) = num (a : EReal) := by
  have : (1 : Fl fmt) = num ((1 : ℝ) : EReal) := rfl
  rw [this]
  exact num_mul (by rw [one_mul]; exact h) h0

open Classical in
/-- Deviance contributions can be negative and deviance residuals not-a-number through rounding: in
`f64`, a linear fit of the response `3` whose coefficient is off by four units in the last place has
a negative deviance and no deviance residual. -/
theorem C83_residual_nan :
    ∃ f : Fit (Fl binary64) 1 0 true,
      regression threeEnv Family.linear.glm threeData
        { maxIter := 10, tol := 0, l2 := 0, l1 := 0,
          initGuess := some fun _ => num (nearThree : EReal) } = .ok f ∧
      (∀ j, (f.result j).isFinite) ∧ ¬ f.deviance.isNaN ∧ f.deviance.val < 0 ∧
      (f.residDev 0).isNaN := by
  have hn0 : nearThree ≠ 0 := by unfold nearThree; norm_num
  have hgt : ∀ x : Fl binary64, gt x x = false := by
    intro x
    rw [Bool.eq_false_iff, ne_eq, gt_iff]
    rintro ⟨-, -, h⟩
    exact lt_irrefl _ h
  have h := regression_stays (env := threeEnv) (g := Family.linear.glm) (data := threeData)
    (options := { maxIter := 10, tol := 0, l2 := 0, l1 := 0,
                  initGuess := some fun _ => num (nearThree : EReal) })
    (v := fun _ => num (nearThree : EReal))
    (by unfold getReg; simp only [hgt]; rfl) rfl
    (by
      unfold vecEq
      rw [List.all_eq_true]
      intro j _
      rw [eq_iff]
      exact ⟨not_false, not_false, rfl⟩)
  obtain ⟨f, hf, hr⟩ := h
  obtain ⟨e1, e2, e3, hc⟩ := regression_coherent hf
  have hlin : f.data.linearPredictorStd f.resultStd = fun _ => num (nearThree : EReal) := by
    rw [e2, hr]
    funext i
    change 0 + 1 * num (nearThree : EReal) = _
    rw [one_mul_num nearThree_rnd hn0, zero_add_num nearThree_rnd hn0]
  have hdev : f.devianceTerms = fun _ => num ((-(1 / 2 ^ 49) : ℝ) : EReal) := by
    unfold Fit.devianceTerms
    dsimp only
    unfold Glm.logLikeTerms
    rw [hlin, e1, e2]
    funext i
    exact linear_term
  have hneg : ((-(1 / 2 ^ 49) : ℝ) : EReal) < 0 := by
    have : (-(1 / 2 ^ 49) : ℝ) < 0 := by norm_num
    exact_mod_cast this
  have hdevi : f.deviance = num ((-(1 / 2 ^ 49) : ℝ) : EReal) := by
    unfold Fit.deviance
    rw [hdev, e2]
    change 0 + num ((-(1 / 2 ^ 49) : ℝ) : EReal) = _
    refine zero_add_num ?_ (by norm_num)
    have := binary64.rnd_idem ((-(1 / 2 ^ 50) * 2 : ℝ) : EReal)
    rwa [rounded.2.2.2.2.2.2.2.2.2] at this
  refine ⟨f, hf, ?_, ?_, ?_, ?_⟩
  · intro j
    rw [hc.result, e2, hr]
    exact ⟨not_false, EReal.coe_ne_top _, EReal.coe_ne_bot _⟩
  · rw [hdevi]; exact not_false
  · rw [hdevi]; exact hneg
  · unfold Fit.residDev
    rw [hdev]
    exact isNaN_mul.mpr (Or.inr (Or.inl (isNaN_sqrt.mpr (Or.inr hneg))))

end GLM
