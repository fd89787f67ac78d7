/-
  C96: an example in `f64`.
-/
import Verif.Props.Certificate

namespace GLM
open Spec Scalar Fl Matrix

/-- A fit whose solver returns the start stays there. -/
theorem regression_stays_ridge {F : Type} [Scalar F] {n p : ℕ} {b : Bool} {env : Env F} {g : Glm F}
    {data : Dataset F n p b} {options : FitOptions F (ncols b p)} {v : Vec F (ncols b p)}
    (hg : gt options.l1 0 = false) (hs : ∀ A c, env.solveh (k := ncols b p) A c = .ok v)
    (he : vecEq v (initialGuess env g data options) = true) :
    ∃ f, regression env g data options = .ok f ∧
      f.result = data.inverseTransformBeta (initialGuess env g data options) := by
  set s0 := Irls.new g data (initialGuess env g data options) options with hs0
  have hr0 : s0.reg = getReg options := rfl
  have ht : (s0.reg.prepare s0.guess).terminateOk options.tol = true := by
    rw [hr0]
    unfold getReg
    simp only [hg]
    cases gt options.l2 0 <;> rfl
  have hsol : s0.sol env g data = .ok v := by
    unfold Irls.sol
    rw [hr0]
    unfold getReg
    simp only [hg]
    cases gt options.l2 0 <;> exact hs _ _
  have hn := Irls.nextRaw_equal (env := env) (g := g) (data := data) (tol := options.tol) (s := s0)
    (by simp [hs0, Irls.new]) hsol ht he
  have hl : fitLoop env g data options s0 none = .ok (none, s0.prep) := by
    rw [fitLoop_eq, hn]
  refine ⟨_, by rw [regression_eq, ← hs0, hl], rfl⟩

/-- One observation of the response `1` with the feature `1`. -/
noncomputable def unitRaw : Dataset (Fl binary64) 1 1 false :=
  { y := fun _ => 1, x := fun _ _ => 1, linearOffset := none, weights := none, freqs := none,
    standardizer := none }

/-- A solver that always returns `5/8`. -/
noncomputable def poorEnv : Env (Fl binary64) where
  eps := 0
  solveh _ _ := .ok fun _ => num ((5 / 8 : ℝ) : EReal)
  invh _ := .error .failed
  inv _ := .error .failed
  fuel := 0

/-- Ridge regression that starts at `5/8`. -/
noncomputable def poorOptions : FitOptions (Fl binary64) (ncols false 1) :=
  ⟨10, 0, 1, 0, some fun _ => num ((5 / 8 : ℝ) : EReal)⟩

section
variable {u tiny big : ℝ}

theorem unitRaw_pred {a : ℝ} {β : Vec (Fl binary64) (ncols false 1)} (hβ : β = fun _ => num (a : EReal)) :
    exactPred false unitRaw.x unitRaw.linearOffset β 0 = a ∧
    predSize false unitRaw.x unitRaw.linearOffset β 0 = |a| ∧
    predError u tiny false unitRaw.x unitRaw.linearOffset β 0
      = ((1 + u) ^ 2 - 1) * |a| + 2 * (1 + u) ^ 2 * tiny := by
  have hr : real (β 0) = a := by rw [hβ]; exact (real_num a).2
  have h1 : predSize false unitRaw.x unitRaw.linearOffset β 0 = |a| := by
    change ∑ j : Fin 1, |real (1 : Fl binary64) * real (β j)| + |(0 : ℝ)| = |a|
    rw [Fin.sum_univ_one, real_one.2, hr, abs_zero, add_zero, one_mul]
  refine ⟨?_, h1, ?_⟩
  · change ∑ j : Fin 1, real (1 : Fl binary64) * real (β j) + (0 : ℝ) = a
    rw [Fin.sum_univ_one, real_one.2, hr, add_zero, one_mul]
  · unfold predError
    rw [h1]
    have e1 : predDepth binary64 false 1 1 (unitRaw.linearOffset) 0 = 2 := rfl
    have e2 : predOps binary64 false 1 1 (unitRaw.linearOffset) 0 = 2 := rfl
    rw [e1, e2]
    unfold sumError
    push_cast
    ring

theorem afterRounding_le (hu : 0 ≤ u) (hu1 : u ≤ 1 / 1000) (htu : tiny ≤ u) {e v c m d : ℝ}
    (hc : 0 ≤ c) (he : e ≤ c * u) (hv : |v| ≤ m) (hd : c + m + c / 1000 + 1 ≤ d) :
    afterRounding u tiny e v ≤ d * u := by
  unfold afterRounding
  have h1 : c * u ≤ c / 1000 := by
    have := mul_le_mul_of_nonneg_left hu1 hc
    linarith
  have h2 : u * (|v| + e) ≤ u * (m + c / 1000) := mul_le_mul_of_nonneg_left (by linarith) hu
  have h3 := mul_le_mul_of_nonneg_right hd hu
  linarith

/-- The errors of the score at a coefficient `a` with `|a| ≤ 1`, in units of `u`. -/
theorem unitRaw_error (hu : 0 ≤ u) (hu1 : u ≤ 1 / 1000) (ht : 0 ≤ tiny) (htu : tiny ≤ u) {a : ℝ}
    (ha : |a| ≤ 1) {β : Vec (Fl binary64) (ncols false 1)} (hβ : β = fun _ => num (a : EReal)) :
    predError u tiny false unitRaw.x unitRaw.linearOffset β 0 ≤ 5 * u ∧
    rowWork .linear unitRaw false β 0 = 1 - a ∧
    rowWorkError u tiny big .linear unitRaw false β 0 ≤ 9 * u ∧
    (∀ j, colError u tiny unitRaw false 0 j ≤ 5 * u) ∧
    (∀ j, exactDesign unitRaw false 0 j = 1) ∧
    (∀ j, scoreSize .linear unitRaw false β j = |1 - a|) ∧
    (∀ j, exactScore .linear unitRaw false 0 1 β j = 1 - 2 * a) ∧
    (∀ j, l2Grad false 1 β j = a) ∧
    ∀ j, scoreError u tiny big .linear unitRaw false 0 1 β j ≤ 50 * u := by
  obtain ⟨p1, p2, p3⟩ := unitRaw_pred (u := u) (tiny := tiny) hβ
  have hj : ∀ j : Fin (ncols false 1), real (β j) = a := fun j => by rw [hβ]; exact (real_num a).2
  have a0 := abs_nonneg a
  have hua : u * |a| ≤ u := mul_le_of_le_one_right hu ha
  have huu : u * u ≤ u / 1000 := by nlinarith
  have hut : u * tiny ≤ u / 1000 := by nlinarith
  have hB : predError u tiny false unitRaw.x unitRaw.linearOffset β 0 ≤ 5 * u := by
    rw [p3]
    have e1 : ((1 + u) ^ 2 - 1) * |a| + 2 * (1 + u) ^ 2 * tiny
        = 2 * (u * |a|) + u * (u * |a|) + 2 * tiny + 4 * (u * tiny) + 2 * (u * (u * tiny)) := by ring
    have e2 : u * (u * |a|) ≤ u * u := mul_le_mul_of_nonneg_left hua hu
    have e3 : u * (u * tiny) ≤ u * (u / 1000) := mul_le_mul_of_nonneg_left hut hu
    rw [e1]
    linarith
  have hB0 : 0 ≤ predError u tiny false unitRaw.x unitRaw.linearOffset β 0 := by
    rw [p3]
    have : 0 ≤ (1 + u) ^ 2 - 1 := by nlinarith
    positivity
  have h1a : |1 - a| ≤ 2 := (abs_sub _ _).trans (by rw [abs_one]; linarith)
  have h2a : |1 - 2 * a| ≤ 3 := (abs_sub _ _).trans (by rw [abs_one, abs_mul, abs_two]; linarith)
  have hy : real (unitRaw.y 0) = 1 := real_one.2
  have hw : rowWork .linear unitRaw false β 0 = 1 - a := by
    unfold rowWork exactWork
    rw [p1, hy, dNatParam_real]
    exact one_mul _
  have hwE : rowWorkError u tiny big .linear unitRaw false β 0 ≤ 9 * u := by
    change residError _ _ _ _ _ _ _ ≤ _
    unfold residError
    rw [p1, hy]
    exact afterRounding_le hu hu1 htu (c := 5) (m := 2) (by norm_num) hB h1a (by norm_num)
  have hwE0 : 0 ≤ rowWorkError u tiny big .linear unitRaw false β 0 := by
    change 0 ≤ residError _ _ _ _ _ _ _
    exact hB0.trans (rounded_ge hu ht hB0)
  have hdes : ∀ j, exactDesign unitRaw false 0 j = 1 := fun j => (real_one (fmt := binary64)).2
  have hfr : freq (exactData unitRaw) 0 = 1 := rfl
  have hvw : varWt (exactData unitRaw) 0 = 1 := rfl
  have htw : totalWt (exactData unitRaw) 0 = 1 := by rw [totalWt, hfr, hvw, one_mul]
  have hcol : ∀ j, colError u tiny unitRaw false 0 j ≤ 5 * u ∧ 0 ≤ colError u tiny unitRaw false 0 j := by
    intro j
    unfold colError
    rw [hdes, hfr, hvw, htw, abs_one, one_mul, mul_one]
    have k1 : afterRounding u tiny 0 1 ≤ 2 * u :=
      afterRounding_le hu hu1 htu (c := 0) (m := 1) le_rfl (by simp) (by simp) (by norm_num)
    have k0 : 0 ≤ afterRounding u tiny 0 1 := rounded_ge hu ht le_rfl
    exact ⟨afterRounding_le hu hu1 htu (c := 2) (m := 1) (by norm_num) k1 (by simp) (by norm_num),
      k0.trans (rounded_ge hu ht k0)⟩
  have hsz : ∀ j, scoreSize .linear unitRaw false β j = |1 - a| := by
    intro j
    unfold scoreSize
    rw [Fin.sum_univ_one, hdes, htw, hw, one_mul, one_mul]
  have hG2 : ∀ j, l2Grad false 1 β j = a := by
    intro j
    unfold l2Grad
    rw [hj]
    change max 1 0 * a = a
    norm_num
  have hG1 : ∀ j, l1Grad false 0 β j = 0 := fun j => by
    unfold l1Grad; rw [strength_zero le_rfl, zero_mul]
  have hG0 : ∀ j, l2Grad false 0 β j = 0 := fun j => by
    unfold l2Grad; rw [strength_zero le_rfl, zero_mul]
  have hS : ∀ j, scoreVec Family.linear.glm (exactData unitRaw) false (fun j => real (β j)) j = 1 - a := by
    intro j
    rw [exact_score, Fin.sum_univ_one, hdes, htw, hw, one_mul, one_mul]
  have hT : ∀ j, scoreTermError u tiny big .linear unitRaw false β j ≤ 20 * u ∧
      0 ≤ scoreTermError u tiny big .linear unitRaw false β j := by
    intro j
    obtain ⟨c1, c0⟩ := hcol j
    unfold scoreTermError
    rw [Fin.sum_univ_one, hdes, htw, hw, one_mul, abs_one, one_mul]
    refine ⟨?_, by positivity⟩
    have e1 : |1 - a| + rowWorkError u tiny big .linear unitRaw false β 0 ≤ 2 + 9 / 1000 := by linarith
    have e2 := mul_le_mul c1 e1 (by positivity) (by positivity)
    linarith
  have hD : ∀ j, dataScoreError u tiny big .linear unitRaw false β j ≤ 28 * u := by
    intro j
    obtain ⟨t1, t0⟩ := hT j
    unfold dataScoreError
    rw [hsz]
    have e1 : (binary64.order (.matVec (ncols false 1) j) 1).tree.depth 1 = 2 := rfl
    have e2 : (binary64.order (.matVec (ncols false 1) j) 1).tree.ops 1 = 2 := rfl
    rw [e1, e2]
    unfold sumError
    generalize scoreTermError u tiny big .linear unitRaw false β j = T at t1 t0 ⊢
    have k1 : |1 - a| + T ≤ 2 + 1 / 50 := by linarith
    have k2 : ((1 + u) ^ 2 - 1) ≤ 2 * u + u / 1000 := by nlinarith
    have k3 : 0 ≤ |1 - a| + T := by positivity
    have k4 := mul_le_mul k2 k1 k3 (by positivity)
    have k5 : ((2 : ℕ) : ℝ) * (1 + u) ^ 2 * tiny ≤ 2 * (1 + 3 / 1000) * u := by
      refine mul_le_mul ?_ htu ht (by positivity)
      push_cast
      nlinarith
    generalize ((1 + u) ^ 2 - 1) * (|1 - a| + T) = P at k4 ⊢
    generalize ((2 : ℕ) : ℝ) * (1 + u) ^ 2 * tiny = Q at k5 ⊢
    linarith
  refine ⟨hB, hw, hwE, fun j => (hcol j).1, hdes, hsz, ?_, hG2, ?_⟩
  · intro j
    rw [exactScore_eq, hS, hG1, hG2]; ring
  · intro j
    unfold scoreError lassoScoreError
    rw [exactScore_eq, exactScore_eq, hS, hG1, hG2, hG0]
    have l1 : afterRounding u tiny 0 (0 : ℝ) ≤ 1 * u :=
      afterRounding_le hu hu1 htu (c := 0) (m := 0) le_rfl (by simp) (by simp) (by norm_num)
    have l2 : afterRounding u tiny 0 a ≤ 2 * u :=
      afterRounding_le hu hu1 htu (c := 0) (m := 1) le_rfl (by simp) ha (by norm_num)
    have l3 := afterRounding_le hu hu1 htu (c := 29) (m := 2) (d := 33) (by norm_num)
      (show dataScoreError u tiny big .linear unitRaw false β j + afterRounding u tiny 0 0 ≤ 29 * u by
        linarith [hD j]) (v := 1 - a - 0 - 0) (by simpa using h1a) (by norm_num)
    rw [sub_zero, sub_zero] at *
    refine afterRounding_le hu hu1 htu (c := 35) (m := 3) (by norm_num) (by linarith) ?_ (by norm_num)
    rw [show 1 - a - a = 1 - 2 * a by ring]
    exact h2a

theorem unitRaw_fits (hu : 0 ≤ u) (hu1 : u ≤ 1 / 1000) (ht : 0 ≤ tiny) (htu : tiny ≤ u) (hb : 100 ≤ big)
    {a : ℝ} (ha : |a| ≤ 1) {β : Vec (Fl binary64) (ncols false 1)} (hβ : β = fun _ => num (a : EReal))
    (j : Fin (ncols false 1)) :
    ScoreFits u tiny big .linear unitRaw false 0 1 β j := by
  obtain ⟨h1, h2, h3, h4, h5, h6, h7, h8, h9⟩ := unitRaw_error (big := big) hu hu1 ht htu ha hβ
  obtain ⟨p1, p2, p3⟩ := unitRaw_pred (u := u) (tiny := tiny) hβ
  have a0 := abs_nonneg a
  have h1a : |1 - a| ≤ 2 := (abs_sub _ _).trans (by rw [abs_one]; linarith)
  have hy : real (unitRaw.y 0) = 1 := real_one.2
  have hfin : ∀ j, (β j).isFinite := fun j => by rw [hβ]; exact (real_num a).1
  have hfr : freq (exactData unitRaw) 0 = 1 := rfl
  have htw : totalWt (exactData unitRaw) 0 = 1 := by
    rw [totalWt, hfr, show varWt (exactData unitRaw) 0 = 1 from rfl, one_mul]
  have hi : ∀ {P : Fin 1 → Prop}, P 0 → ∀ i, P i := fun h i => by rw [Subsingleton.elim i 0]; exact h
  refine ⟨fun _ => real_one.1, (by intro w hw; cases hw), (by intro w hw; cases hw), real_zero.1,
    real_one.1, hfin, hi ⟨fun _ => real_one.1, hfin, (by intro o ho; cases ho), ?_⟩, fun _ => trivial,
    fun _ => trivial, hi ?_, hi ?_, hi ?_, hi ?_, ?_⟩
  · rw [p2]; linarith
  · rw [p1, hy]
    change |1 - a| + predError u tiny false unitRaw.x unitRaw.linearOffset β 0 < big
    linarith
  · rw [h2]; linarith
  · rw [h5, hfr, one_mul, abs_one]; linarith
  · have := h4 j
    rw [h5, htw, one_mul, abs_one]; linarith
  · have := h9 j
    have e1 : real (0 : Fl binary64) = 0 := real_zero.2
    have e2 : real (1 : Fl binary64) = 1 := real_one.2
    have e3 : l1Grad false 0 β j = 0 := by unfold l1Grad; rw [strength_zero le_rfl, zero_mul]
    rw [e1, e2, e3, h6, h8, abs_zero]; linarith

end

/-- Ridge regression in `f64` with a solver that always returns `5/8`, while the optimum is `1/2`.  The
fit reports `5/8` and a score of `-1/4` up to rounding; so `C96_optimum` tells that the reported
coefficient is within `1/2 + 2^-45` of the optimum of the exact problem. -/
theorem C96_example : ∃ (data : Dataset (Fl binary64) 1 1 false) (f : Fit (Fl binary64) 1 1 false),
    unitRaw.finalize false false = some data ∧
    regression poorEnv Family.linear.glm data poorOptions = .ok f ∧
    f.result = (fun _ => num ((5 / 8 : ℝ) : EReal)) ∧
    Spec.Concave .linear (exactData unitRaw) ∧
    (∀ j, ScoreFits (2 ^ (-53 : ℤ)) (2 ^ (-1075 : ℤ)) (2 ^ (1023 : ℤ)) .linear unitRaw false
      poorOptions.l1 poorOptions.l2 f.result j) ∧
    (∀ j, exactScore .linear unitRaw false 0 1 f.result j = -1 / 4) ∧
    ∀ j, |real (f.score f.result j) - -1 / 4| ≤ 2 ^ (-47 : ℤ) := by
  have hu : (0 : ℝ) ≤ 2 ^ (-53 : ℤ) := by positivity
  have hu1 : (2 : ℝ) ^ (-53 : ℤ) ≤ 1 / 1000 := by norm_num
  have ht : (0 : ℝ) ≤ 2 ^ (-1075 : ℤ) := by positivity
  have htu : (2 : ℝ) ^ (-1075 : ℤ) ≤ 2 ^ (-53 : ℤ) := zpow_le_zpow_right₀ (by norm_num) (by norm_num)
  have hb : (100 : ℝ) ≤ 2 ^ (1023 : ℤ) := by
    have : (2 : ℝ) ^ (7 : ℤ) ≤ 2 ^ (1023 : ℤ) := zpow_le_zpow_right₀ (by norm_num) (by norm_num)
    exact le_trans (by norm_num) this
  obtain ⟨data, hd⟩ : ∃ data, unitRaw.finalize false false = some data := ⟨_, rfl⟩
  obtain ⟨f, hf, hr⟩ := regression_stays_ridge (env := poorEnv) (g := Family.linear.glm) (data := data)
    (options := poorOptions) (v := fun _ => num ((5 / 8 : ℝ) : EReal)) (gt_self_false _)
    (fun _ _ => rfl) (by
      unfold vecEq
      rw [List.all_eq_true]
      intro j _
      have e : data.transformBeta (fun _ => num ((5 / 8 : ℝ) : EReal)) = fun _ => num ((5 / 8 : ℝ) : EReal) := by
        rw [finalize_plain hd]; rfl
      change eq _ (data.transformBeta (fun _ => num ((5 / 8 : ℝ) : EReal)) j) = true
      rw [e]
      exact eq_iff.mpr ⟨id, id, rfl⟩)
  have hres : f.result = fun _ => num ((5 / 8 : ℝ) : EReal) := by
    rw [hr, plain_inverseTransform hd]
    change data.transformBeta (fun _ => num ((5 / 8 : ℝ) : EReal)) = _
    rw [finalize_plain hd]; rfl
  have ha : |(5 / 8 : ℝ)| ≤ 1 := by norm_num [abs_of_pos]
  have hfit := unitRaw_fits hu hu1 ht htu hb ha hres
  obtain ⟨-, -, -, -, -, -, h7, -, h9⟩ := unitRaw_error (big := 2 ^ (1023 : ℤ)) hu hu1 ht htu ha hres
  have hex : ∀ j, exactScore .linear unitRaw false 0 1 f.result j = -1 / 4 := fun j => by
    rw [h7]; norm_num
  refine ⟨data, f, hd, hf, hres, ⟨trivial, trivial, Or.inl trivial, ?_⟩, hfit, hex, ?_⟩
  · intro i
    have : totalWt (exactData unitRaw) i = 1 * 1 := rfl
    rw [this]; norm_num
  · intro j
    have h1 := (C96_score (accurate_binary64 _) hd hf (hfit j)).2
    have e1 : real (poorOptions.l1) = 0 := real_zero.2
    have e2 : real (poorOptions.l2) = 1 := real_one.2
    rw [e1, e2, hex] at h1
    exact h1.trans ((h9 j).trans (by norm_num))

end GLM
