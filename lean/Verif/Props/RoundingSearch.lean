/-
  C84: in binary floating-point arithmetic a fit always returns, for all data and whatever the
  linear-algebra library returns, unless the tolerance is zero; with tolerance zero the line search
  does not end when no step improves.
-/
import Verif.Props.RoundingLike
import Verif.Lemmas.BinaryGolden

namespace GLM
open Spec Scalar Fl

variable {n p : ℕ} {b : Bool}

section
variable {bits : ℕ} {emin emax : ℤ} {hp : 1 ≤ bits} {hmin : emin ≤ 0} {hmax : 0 ≤ emax}
  {neg : Bool} {order : SumSite → (n : ℕ) → SumOrder n}

local notation "B" => binary bits emin emax hp hmin hmax neg order

theorem binary_rnd_coe {v : ℝ} (h : |roundBits bits emin v| ≤ 1) :
    (B).rnd (v : EReal) = ((roundBits bits emin v : ℝ) : EReal) := by
  have h1 : (1 : ℝ) < 2 ^ (emax + 1) := one_lt_zpow₀ (by norm_num) (by omega)
  rw [abs_le] at h
  change roundBinary bits emin emax (v : EReal) = _
  rw [roundBinary_coe, if_neg (by linarith), if_neg (by linarith)]

theorem goldenScale_binary (h4 : 4 ≤ bits) (he : emin ≤ -1) :
    (goldenScale : Fl B) = num ((roundBits bits emin golden : ℝ) : EReal) := by
  obtain ⟨h1, h2⟩ := rounded_golden h4 he
  change num ((B).rnd (((618033988749894 : ℕ) / 10 ^ 15 : ℝ) : EReal)) = _
  have : (((618033988749894 : ℕ) : ℝ) / 10 ^ 15) = golden := by unfold golden; norm_num
  rw [this, binary_rnd_coe (by rw [abs_le]; constructor <;> linarith)]

/-- A step of the line search from a positive number up to one. -/
theorem binary_golden_mul (h4 : 4 ≤ bits) (he : emin ≤ -1) {x : ℝ} (h0 : 0 < x) (h1 : x ≤ 1) :
    (num (x : EReal) * goldenScale : Fl B).isNaN = False ∧
    (num (x : EReal) * goldenScale : Fl B).val
      = ((roundBits bits emin (x * roundBits bits emin golden) : ℝ) : EReal) := by
  obtain ⟨g1, g2⟩ := rounded_golden h4 he
  have hnn : ¬ (num (x : EReal) * goldenScale : Fl B).isNaN := by
    rw [goldenScale_binary h4 he, isNaN_mul]
    simp
  refine ⟨eq_false hnn, ?_⟩
  rw [val_mul hnn, goldenScale_binary h4 he, val_num, val_num, ← EReal.coe_mul]
  refine binary_rnd_coe ?_
  have h2 : roundBits bits emin (x * roundBits bits emin golden) ≤ roundBits bits emin 1 :=
    roundBits_mono hp (by nlinarith)
  rw [roundBits_one hp hmin] at h2
  have h3 : 0 ≤ roundBits bits emin (x * roundBits bits emin golden) :=
    roundBits_nonneg (by positivity)
  rw [abs_le]; constructor <;> linarith

/-- The loop of the line search ends. -/
theorem stepScaleLoop_ends (h4 : 4 ≤ bits) (he : emin ≤ -1) (f : Fl B → Fl B) (f0 tol : Fl B)
    (ht : tol.isNaN ∨ ((least bits emin : ℝ) : EReal) ≤ tol.val) (N fuel : ℕ) (hN : N < fuel)
    (x : ℝ) (h0 : 0 < x) (h1 : x ≤ 1) (hx : roundBits bits emin x = x)
    (hle : x * (7 / 8) ^ N ≤ least bits emin) :
    stepScaleLoop f f0 tol fuel (num (x : EReal)) ≠ none := by
  induction fuel generalizing N x with
  | zero => omega
  | succ fuel ih =>
    unfold stepScaleLoop
    by_cases hg : gt (num (x : EReal)) tol = true
    · rw [if_pos hg]
      dsimp only
      split
      · simp
      · rw [gt_iff] at hg
        rcases ht with ht | ht
        · exact absurd ht hg.2.1
        have hlt : least bits emin < x := EReal.coe_lt_coe_iff.mp (lt_of_le_of_lt ht hg.2.2)
        have h2 := two_least_le hx hlt
        obtain ⟨hm1, hm2⟩ := binary_golden_mul (emax := emax) (hp := hp) (hmin := hmin)
          (hmax := hmax) (neg := neg) h4 he h0 h1
        have hstep := golden_step h4 he h2
        have hl := least_pos (p := bits) (emin := emin)
        have hpos : 0 < roundBits bits emin (x * roundBits bits emin golden) := by
          refine lt_of_lt_of_le hl ?_
          rw [← golden_stays h4 he]
          refine roundBits_mono hp ?_
          have := (rounded_golden h4 he).1
          nlinarith
        have heq : (num (x : EReal) * goldenScale : Fl B)
            = num ((roundBits bits emin (x * roundBits bits emin golden) : ℝ) : EReal) := by
          generalize (num (x : EReal) * goldenScale : Fl B) = z at hm1 hm2
          cases z with
          | nan s => simp at hm1
          | negZero =>
            exact absurd hm2 (by
              rw [val_negZero]
              exact_mod_cast hpos.ne)
          | num v => rw [val_num] at hm2; rw [hm2]
        rw [heq]
        obtain ⟨N, rfl⟩ : ∃ N', N = N' + 1 := by
          cases N with
          | zero => simp at hle; linarith
          | succ N => exact ⟨N, rfl⟩
        refine ih N (by omega) _ hpos (by linarith) (roundBits_idem hp _) ?_
        refine le_trans ?_ hle
        rw [pow_succ]
        have h78 : (0 : ℝ) < (7 / 8) ^ N := by positivity
        nlinarith
    · rw [if_neg hg]; simp

/-- The number of rounds after which every line search has ended. -/
def rounds (bits : ℕ) (emin : ℤ) : ℕ := 6 * (bits - 1 - emin).toNat

theorem rounds_enough (hb : 1 ≤ bits) (hm : emin ≤ 0) : (7 / 8 : ℝ) ^ rounds bits emin ≤ least bits emin := by
  obtain ⟨d, hd⟩ := Int.eq_ofNat_of_zero_le (show 0 ≤ (bits - 1 - emin : ℤ) by omega)
  unfold rounds least
  rw [show emin - (bits - 1 : ℤ) = -(bits - 1 - emin : ℤ) by ring, hd, zpow_neg, zpow_natCast, pow_mul,
    ← inv_pow]
  exact pow_le_pow_left₀ (by norm_num) (by norm_num) _

/-- The line search ends within a number of rounds that depends on the format only, for every
objective (one that is not-a-number included) and every tolerance that is not zero. -/
theorem C84_line_search (h4 : 4 ≤ bits) (he : emin ≤ -1) (f : Fl B → Fl B) (tol : Fl B)
    (ht : tol.isNaN ∨ ((least bits emin : ℝ) : EReal) ≤ (Scalar.abs tol).val) (fuel : ℕ)
    (hf : rounds bits emin < fuel) :
    ∃ m, stepScale fuel f tol = some m := by
  have h := stepScaleLoop_ends (emax := emax) (hp := hp) (hmin := hmin) (hmax := hmax) (neg := neg)
    h4 he f (f 0) (Scalar.abs tol) (by rw [isNaN_abs]; exact ht) (rounds bits emin) fuel hf 1
    one_pos le_rfl (roundBits_one hp hmin) (by rw [one_mul]; exact rounds_enough hp hmin)
  unfold stepScale
  dsimp only
  change stepScaleLoop f (f 0) (Scalar.abs tol) fuel 1 ≠ none at h
  cases hl : stepScaleLoop f (f 0) (Scalar.abs tol) fuel 1 with
  | none => exact absurd hl h
  | some r =>
    cases r with
    | some x => exact ⟨x, rfl⟩
    | none =>
      dsimp only
      split <;> exact ⟨_, rfl⟩

end

/-- The factor by which the line search multiplies the tolerance is at least one. -/
theorem tolFactor_ge {fmt : FloatFormat} {k : ℕ} (hk : 0 < k) (v : Vec (Fl fmt) k) :
    (sqrt (vsum fun j => 1 + v j * v j)).isNaN ∨
      1 ≤ (sqrt (vsum fun j => 1 + v j * v j)).val := by
  have hterm : ∀ j, (1 + v j * v j).isNaN ∨ 1 ≤ (1 + v j * v j).val := by
    intro j
    by_cases hn : (1 + v j * v j).isNaN
    · exact .inl hn
    · right
      rw [val_add hn]
      refine fmt.one_le_rnd ?_
      rcases nonneg_sq (x := v j) with h | h
      · exact absurd (isNaN_add.mpr (Or.inr (Or.inl h))) hn
      · exact le_add_of_nonneg_right h
  have hsum : (vsum fun j => 1 + v j * v j).isNaN ∨ 1 ≤ (vsum fun j => 1 + v j * v j).val := by
    have hge : ∀ a c : Fl fmt, a.nonnegOrNaN → (c.isNaN ∨ 1 ≤ c.val) →
        (a + c).isNaN ∨ 1 ≤ (a + c).val := by
      intro a c ha hc
      by_cases hn : (a + c).isNaN
      · exact .inl hn
      · right
        rw [val_add hn]
        rw [isNaN_add] at hn
        push Not at hn
        exact fmt.one_le_rnd (le_add_of_nonneg_of_le (ha.resolve_left hn.1) (hc.resolve_left hn.2.1))
    refine SumTree.eval_nonempty (P := nonnegOrNaN) (Q := fun x : Fl fmt => x.isNaN ∨ 1 ≤ x.val)
      (fun _ h => h.imp id fun h => zero_le_one.trans h) (.inr (by simp)) hterm (fun _ _ => nonneg_add)
      (fun a c ha hc => ?_) hge (fun i a ha => hge _ _ ha (hterm i)) _ (SumOrder.terms_ne_nil _ hk)
    by_cases hn : (a + c).isNaN
    · exact .inl hn
    · right
      rw [val_add hn]
      rw [isNaN_add] at hn
      push Not at hn
      exact fmt.one_le_rnd (le_add_of_le_of_nonneg (ha.resolve_left hn.1) (hc.resolve_left hn.2.1))
  by_cases hn : (sqrt (vsum fun j => 1 + v j * v j)).isNaN
  · exact .inl hn
  · right
    rw [val_sqrt hn]
    rw [isNaN_sqrt] at hn
    push Not at hn
    rcases hsum with h | h
    · exact absurd h hn.1
    · exact fmt.one_le_rnd (one_le_esqrt h)

section
variable {bits : ℕ} {emin emax : ℤ} {hp : 1 ≤ bits} {hmin : emin ≤ 0} {hmax : 0 ≤ emax}
  {neg : Bool} {order : SumSite → (n : ℕ) → SumOrder n}

local notation "B" => binary bits emin emax hp hmin hmax neg order

theorem binary_rnd_least (he : emin ≤ -1) : (B).rnd ((least bits emin : ℝ) : EReal) = (least bits emin : ℝ) := by
  have hl := least_pos (p := bits) (emin := emin)
  have h1 : least bits emin ≤ 1 := by
    unfold least
    exact zpow_le_one_of_nonpos₀ (by norm_num) (by omega)
  rw [binary_rnd_coe (by rw [roundBits_least hp, abs_of_pos hl]; exact h1), roundBits_least hp]

/-- The tolerance of the line search, given that of the fit. -/
theorem tolProduct {c tol : Fl B} (he : emin ≤ -1) (hc : c.isNaN ∨ 1 ≤ c.val)
    (ht : tol.isNaN ∨ ((least bits emin : ℝ) : EReal) ≤ (Scalar.abs tol).val) :
    (c * tol).isNaN ∨ ((least bits emin : ℝ) : EReal) ≤ (Scalar.abs (c * tol)).val := by
  by_cases hn : (c * tol).isNaN
  · exact .inl hn
  right
  have hn' := hn
  rw [isNaN_mul] at hn'
  push Not at hn'
  rcases hc with hc | hc
  · exact absurd hc hn'.1
  rcases ht with ht | ht
  · exact absurd ht hn'.2.1
  rw [val_abs hn'.2.1] at ht
  rw [val_abs hn, val_mul hn]
  have key : ∀ u : EReal, ((least bits emin : ℝ) : EReal) ≤ u →
      ((least bits emin : ℝ) : EReal) ≤ (B).rnd (c.val * u) := by
    intro u hu
    have hu0 : 0 ≤ u := le_trans (by exact_mod_cast least_pos.le) hu
    have h1 : u ≤ c.val * u := by
      have := mul_le_mul_of_nonneg_right hc hu0
      rwa [one_mul] at this
    have := (B).rnd_mono (hu.trans h1)
    rwa [binary_rnd_least he] at this
  rcases le_max_iff.mp ht with h | h
  · exact le_max_of_le_left (key _ h)
  · refine le_max_of_le_right ?_
    rw [← (B).rnd_neg, ← mul_neg]
    exact key _ h

/-- In a binary format a fit always returns, a result or an error, for all data, starting points and
penalties (not-a-number and infinities included) and whatever the linear-algebra library returns, if
the tolerance is not zero (or not-a-number). -/
theorem C84_fit_returns (h4 : 4 ≤ bits) (he : emin ≤ -1) (env : Env (Fl B)) (g : Glm (Fl B))
    (data : Dataset (Fl B) n p b) (options : FitOptions (Fl B) (ncols b p))
    (ht : options.tol.isNaN ∨ ((least bits emin : ℝ) : EReal) ≤ (Scalar.abs options.tol).val)
    (hfuel : rounds bits emin < env.fuel) :
    (∃ f, regression env g data options = .ok f) ∨
      ∃ e, regression env g data options = .err e := by
  have hl : ∀ s best, (∃ r, fitLoop env g data options s best = .ok r) ∨
      ∃ e, fitLoop env g data options s best = .err e := by
    refine fitLoop_ind env g data options ?_
    intro s best ih
    rw [fitLoop_eq]
    have hc := s.nextRaw_case env g data options.tol
    cases hr : s.nextRaw env g data options.tol with
    | stop s' => exact Or.inl ⟨_, rfl⟩
    | linalg s' => exact Or.inr ⟨_, rfl⟩
    | cand s' v l =>
      dsimp only
      split
      · exact Or.inr ⟨_, rfl⟩
      · exact ih s' v l hr (by omega)
    | diverge s' =>
      exfalso
      rw [hr] at hc
      generalize hrr : (RawNext.diverge s' : RawNext (Fl B) (ncols b p)) = r at hc
      cases hc <;> simp at hrr
      rename_i v hs ht' he' hg hm
      have hk : 0 < ncols b p := by
        by_contra h0
        have h0 : ncols b p = 0 := by omega
        have : vecEq v s.guess = true := by
          unfold vecEq
          rw [List.all_eq_true]
          intro j
          exact absurd j.isLt (by omega)
        rw [this] at he'; simp at he'
      obtain ⟨m, hm'⟩ := C84_line_search h4 he
        (Irls.fStep g data (s.reg.prepare s.guess) s.guess v) _
        (tolProduct he (tolFactor_ge hk s.guess) ht) env.fuel hfuel
      have : s.scale env g data options.tol v = some m := hm'
      rw [this] at hm
      simp at hm
  rw [regression_eq]
  rcases hl (Irls.new g data (initialGuess env g data options) options) none with ⟨⟨r, s⟩, h⟩ | ⟨e, h⟩
  · rw [h]; exact Or.inl ⟨_, rfl⟩
  · rw [h]; exact Or.inr ⟨_, rfl⟩

/-- With tolerance zero the line search never ends if no step improves the objective (in particular
if the objective at the current point is not-a-number). -/
theorem C84_zero_tolerance (h4 : 4 ≤ bits) (he : emin ≤ -1) (f : Fl B → Fl B) {tol : Fl B}
    (hn : ¬ tol.isNaN) (h0 : tol.val = 0) (h : ∀ x, gt (f x) (f 0) = false) (fuel : ℕ) :
    stepScale fuel f tol = none := by
  have ha : ¬ (Scalar.abs tol).isNaN := by rwa [isNaN_abs]
  have hv : (Scalar.abs tol).val = 0 := by rw [val_abs hn, h0]; simp
  have hl : ∀ (fuel : ℕ) (x : ℝ), least bits emin ≤ x → x ≤ 1 →
      stepScaleLoop f (f 0) (Scalar.abs tol) fuel (num (x : EReal)) = none := by
    intro fuel
    induction fuel with
    | zero => intro x _ _; rfl
    | succ k ih =>
      intro x hx h1
      have hpos : 0 < least bits emin := least_pos
      have hx0 : 0 < x := by linarith
      have hg : gt (num (x : EReal)) (Scalar.abs tol) = true := by
        rw [gt_iff, hv]
        exact ⟨id, ha, EReal.coe_lt_coe_iff.mpr hx0⟩
      obtain ⟨hm1, hm2⟩ := binary_golden_mul (emax := emax) (hp := hp) (hmin := hmin)
        (hmax := hmax) (neg := neg) h4 he hx0 h1
      have hge : least bits emin ≤ roundBits bits emin (x * roundBits bits emin golden) := by
        rw [← golden_stays h4 he]
        refine roundBits_mono hp ?_
        have := (rounded_golden h4 he).1
        exact mul_le_mul_of_nonneg_right hx (by linarith)
      have hle : roundBits bits emin (x * roundBits bits emin golden) ≤ 1 := by
        rw [← roundBits_one (p := bits) hp hmin]
        refine roundBits_mono hp ?_
        have h5 := (rounded_golden h4 he).1
        have h6 := (rounded_golden h4 he).2
        nlinarith
      have heq : (num (x : EReal) * goldenScale : Fl B)
          = num ((roundBits bits emin (x * roundBits bits emin golden) : ℝ) : EReal) := by
        generalize (num (x : EReal) * goldenScale : Fl B) = z at hm1 hm2
        cases z with
        | nan s => simp at hm1
        | negZero =>
          exact absurd hm2 (by
            rw [val_negZero]
            exact_mod_cast (hpos.trans_le hge).ne)
        | num v => rw [val_num] at hm2; rw [hm2]
      unfold stepScaleLoop
      rw [if_pos hg]
      dsimp only
      rw [if_neg (by rw [h]; simp), heq]
      exact ih _ hge hle
  have h1 : least bits emin ≤ 1 := zpow_le_one_of_nonpos₀ (by norm_num) (by omega)
  unfold stepScale
  dsimp only
  have := hl fuel 1 h1 le_rfl
  change stepScaleLoop f (f 0) (Scalar.abs tol) fuel 1 = none at this
  rw [this]

/-- With tolerance zero a fit without L1 penalty hangs at a starting point from which neither the
step the linear-algebra library returns nor any shorter step improves the objective, unless the
library returns exactly the starting point. -/
theorem C84_zero_tolerance_hangs (h4 : 4 ≤ bits) (he : emin ≤ -1) (env : Env (Fl B)) (g : Glm (Fl B))
    (data : Dataset (Fl B) n p b) (options : FitOptions (Fl B) (ncols b p))
    (hl1 : gt options.l1 0 = false) (hn : ¬ options.tol.isNaN) (h0 : options.tol.val = 0)
    {v : Vec (Fl B) (ncols b p)}
    (hs : (Irls.new g data (initialGuess env g data options) options).sol env g data = .ok v)
    (hv : vecEq v (initialGuess env g data options) = false)
    (hfull : gt (g.logLike data v + (getReg options).likelihood v)
      (g.logLike data (initialGuess env g data options)
        + (getReg options).likelihood (initialGuess env g data options)) = false)
    (hline : ∀ x, gt (Irls.fStep g data (getReg options) (initialGuess env g data options) v x)
      (Irls.fStep g data (getReg options) (initialGuess env g data options) v 0) = false)
    (hfin : (sqrt (vsum fun j => 1 + initialGuess env g data options j
      * initialGuess env g data options j)).isFinite) :
    regression env g data options = .diverge := by
  have hreg : (getReg options).prepare (initialGuess env g data options) = getReg options ∧
      (getReg options).irlsLike = (getReg options).likelihood ∧
      (getReg options).terminateOk options.tol = true := by
    unfold getReg
    simp only [hl1, Bool.false_and, Bool.false_eq_true, if_false]
    split <;> exact ⟨rfl, rfl, rfl⟩
  obtain ⟨r1, r2, r3⟩ := hreg
  set s0 := Irls.new g data (initialGuess env g data options) options with hs0
  have hc0 : ¬ (sqrt (vsum fun j => 1 + initialGuess env g data options j
      * initialGuess env g data options j) * options.tol).isNaN := by
    rw [isNaN_mul]
    rintro (h | h | ⟨-, h | h⟩ | ⟨h | h, -⟩)
    · exact hfin.1 h
    · exact hn h
    · rw [h0] at h; simp at h
    · rw [h0] at h; simp at h
    · exact hfin.2.1 h
    · exact hfin.2.2 h
  have hsc : s0.scale env g data options.tol v = none := by
    change stepScale env.fuel (Irls.fStep g data ((getReg options).prepare
      (initialGuess env g data options)) (initialGuess env g data options) v)
      (sqrt (vsum fun j => 1 + initialGuess env g data options j
        * initialGuess env g data options j) * options.tol) = none
    rw [r1]
    refine C84_zero_tolerance h4 he _ hc0 ?_ hline env.fuel
    rw [val_mul hc0, h0, mul_zero, (B).rnd_zero]
  have hg : gt (s0.nextObj g data v) s0.lastObj = false := by
    change gt (g.logLike data v + ((getReg options).prepare (initialGuess env g data options)).irlsLike v)
      (g.logLike data (initialGuess env g data options)
        + ((getReg options).prepare (initialGuess env g data options)).irlsLike _) = false
    rw [r1, r2]
    exact hfull
  have ht : (s0.reg.prepare s0.guess).terminateOk options.tol = true := by
    change ((getReg options).prepare (initialGuess env g data options)).terminateOk _ = true
    rw [r1]; exact r3
  have hr : ∃ s', s0.nextRaw env g data options.tol = .diverge s' := by
    have hc := s0.nextRaw_case env g data options.tol
    generalize s0.nextRaw env g data options.tol = r at hc
    cases hc with
    | done h => exact absurd h (by simp [hs0, Irls.new])
    | linalg h e hs' => rw [hs] at hs'; cases hs'
    | admm h v' hs' ht' => rw [ht] at ht'; cases ht'
    | equal h v' hs' ht' he' =>
      rw [hs] at hs'; cases hs'
      change vecEq v (initialGuess env g data options) = true at he'
      rw [hv] at he'; cases he'
    | full h v' hs' ht' he' hg' =>
      rw [hs] at hs'; cases hs'
      rw [hg] at hg'; cases hg'
    | diverge h v' => exact ⟨_, rfl⟩
    | zero h v' hs' ht' he' hg' m hm =>
      rw [hs] at hs'; cases hs'
      rw [hsc] at hm; cases hm
    | scaled h v' hs' ht' he' hg' m hm =>
      rw [hs] at hs'; cases hs'
      rw [hsc] at hm; cases hm
  obtain ⟨s', hr⟩ := hr
  rw [regression_eq, fitLoop_eq, hr]

end

/-! ### `f64` and `f32` -/

/-- The least positive numbers of `f64` and `f32`. -/
theorem C84_least : least 53 (-1022) = 2 ^ (-1074 : ℤ) ∧ least 24 (-126) = 2 ^ (-149 : ℤ) := by
  unfold least; norm_num

/-- In `f64` every fit whose tolerance is not zero returns, and no line search takes more than 6445
rounds. -/
theorem C84_fit_returns_binary64 {order : SumSite → (n : ℕ) → SumOrder n}
    (env : Env (Fl (binary64 order))) (g : Glm (Fl (binary64 order)))
    (data : Dataset (Fl (binary64 order)) n p b) (options : FitOptions (Fl (binary64 order)) (ncols b p))
    (ht : options.tol.isNaN ∨ ((2 ^ (-1074 : ℤ) : ℝ) : EReal) ≤ (Scalar.abs options.tol).val)
    (hfuel : 6445 ≤ env.fuel) :
    (∃ f, regression env g data options = .ok f) ∨
      ∃ e, regression env g data options = .err e := by
  refine C84_fit_returns (by norm_num) (by norm_num) env g data options ?_ ?_
  · rw [C84_least.1]; exact ht
  · have : rounds 53 (-1022) = 6444 := by decide
    omega

/-- In `f32` every fit whose tolerance is not zero returns, and no line search takes more than 895
rounds. -/
theorem C84_fit_returns_binary32 {order : SumSite → (n : ℕ) → SumOrder n}
    (env : Env (Fl (binary32 order))) (g : Glm (Fl (binary32 order)))
    (data : Dataset (Fl (binary32 order)) n p b) (options : FitOptions (Fl (binary32 order)) (ncols b p))
    (ht : options.tol.isNaN ∨ ((2 ^ (-149 : ℤ) : ℝ) : EReal) ≤ (Scalar.abs options.tol).val)
    (hfuel : 895 ≤ env.fuel) :
    (∃ f, regression env g data options = .ok f) ∨
      ∃ e, regression env g data options = .err e := by
  refine C84_fit_returns (by norm_num) (by norm_num) env g data options ?_ ?_
  · rw [C84_least.2]; exact ht
  · have : rounds 24 (-126) = 894 := by decide
    omega

/-- The hypotheses of `C84_fit_returns_binary64` are met by the tolerance one. -/
example : ((2 ^ (-1074 : ℤ) : ℝ) : EReal) ≤ (Scalar.abs (1 : Fl binary64)).val := by
  rw [val_abs (by exact id)]
  refine le_max_of_le_left (EReal.coe_le_coe_iff.mpr ?_)
  exact zpow_le_one_of_nonpos₀ (by norm_num) (by norm_num)

/-- A solver that returns `16`. -/
noncomputable def sixteenEnv (fuel : ℕ) : Env (Fl binary64) where
  eps := 0
  solveh _ _ := .ok fun _ => num ((16 : ℝ) : EReal)
  invh _ := .error .failed
  inv _ := .error .failed
  fuel := fuel

/-- A complementary log-log fit of the response `1` in `f64` with tolerance zero, started at the
coefficient `8`, never returns. -/
theorem C84_example_hangs (fuel : ℕ) :
    regression (sixteenEnv fuel) Family.logisticCloglog.glm oneData
      { maxIter := 10, tol := 0, l2 := 0, l1 := 0,
        initGuess := some fun _ => num ((8 : ℝ) : EReal) } = .diverge := by
  have r8 : binary64.rnd ((8 : ℝ) : EReal) = ((8 : ℝ) : EReal) := by
    rw [binary64_rnd 3 (2 ^ 52) (by norm_num) (by norm_num)]
    · congr 1; norm_num
    · norm_num
    · norm_num
    · refine roundEven_of_near ?_; norm_num
  have hnan : (Family.logisticCloglog.glm.logLike oneData fun _ => num ((8 : ℝ) : EReal)).isNaN := by
    refine C83_cloglog_nan_binary64 _ 0 rfl ?_ ?_ <;> rw [oneData_predictor r8 (by norm_num)]
    · exact id
    · exact EReal.coe_le_coe_iff.mpr (show (7 : ℝ) ≤ 8 by norm_num)
  have hgt : ∀ x y : Fl binary64, y.isNaN → gt x y = false := by
    intro x y hy
    rw [Bool.eq_false_iff, ne_eq, gt_iff]
    exact fun h => h.2.1 hy
  refine C84_zero_tolerance_hangs (by norm_num) (by norm_num) _ _ _ _ (gt_self_false 0) id rfl
    (v := fun _ => num ((16 : ℝ) : EReal)) rfl ?_ ?_ ?_ ?_
  · unfold vecEq
    rw [Bool.eq_false_iff, ne_eq, List.all_eq_true]
    intro h
    have := h (0 : Fin 1) (List.mem_finRange _)
    rw [eq_iff] at this
    have h2 := this.2.2
    change ((16 : ℝ) : EReal) = ((8 : ℝ) : EReal) at h2
    rw [EReal.coe_eq_coe_iff] at h2
    norm_num at h2
  · exact hgt _ _ (isNaN_add.mpr (Or.inl hnan))
  · intro x
    refine hgt _ _ (isNaN_add.mpr (Or.inl ?_))
    have h160 : (num ((16 : ℝ) : EReal) * 0 : Fl binary64) = 0 := by
      rw [mul_def]
      unfold times
      rw [if_neg (by simp), if_neg (by simp)]
      have : ¬ (((16 : ℝ) : EReal) < 0) := by
        rw [not_lt]; exact_mod_cast (show (0 : ℝ) ≤ 16 by norm_num)
      simp [neg?, this, Fl.mk, binary64.rnd_zero]
    have h10 : (1 - 0 : Fl binary64) = 1 := by
      rw [sub_def]
      have : (opp (0 : Fl binary64)) = negZero := by simp [opp, Fl.mk]
      rw [this]
      unfold plus
      rw [if_neg (by simp), if_neg (by simp)]
      simp [Fl.mk, binary64.rnd_one]
    have h81 : (num ((8 : ℝ) : EReal) * 1 : Fl binary64) = num ((8 : ℝ) : EReal) :=
      num_mul (c := 1) (by rw [mul_one]; exact r8) (by norm_num)
    have hc : (fun _ : Fin 1 => num ((16 : ℝ) : EReal) * 0 + num ((8 : ℝ) : EReal) * (1 - 0) :
        Vec (Fl binary64) 1) = fun _ => num ((8 : ℝ) : EReal) := by
      funext j
      rw [h160, h10, h81, zero_add_num r8 (by norm_num)]
    have key : (Family.logisticCloglog.glm.logLike oneData (fun _ : Fin 1 =>
        (num ((16 : ℝ) : EReal) * 0 + num ((8 : ℝ) : EReal) * (1 - 0) : Fl binary64))).isNaN := by
      rw [hc]
      exact hnan
    exact key
  · have r64 : binary64.rnd ((8 * 8 : ℝ) : EReal) = ((64 : ℝ) : EReal) := by
      rw [binary64_rnd 6 (2 ^ 52) (by norm_num) (by norm_num)]
      · congr 1; norm_num
      · norm_num
      · norm_num
      · refine roundEven_of_near ?_; norm_num
    have r65 : binary64.rnd ((1 + 64 : ℝ) : EReal) = ((65 : ℝ) : EReal) := by
      rw [binary64_rnd 6 (65 * 2 ^ 46) (by norm_num) (by norm_num)]
      · congr 1; norm_num
      · norm_num
      · norm_num
      · refine roundEven_of_near ?_; norm_num
    have hsum : (0 + (1 + num ((8 : ℝ) : EReal) * num ((8 : ℝ) : EReal)) : Fl binary64)
        = num ((65 : ℝ) : EReal) := by
      rw [num_mul r64 (by norm_num)]
      have : (1 + num ((64 : ℝ) : EReal) : Fl binary64) = num ((65 : ℝ) : EReal) :=
        num_add (a := 1) r65 (by norm_num)
      rw [this, zero_add_num _ (by norm_num)]
      have := binary64.rnd_idem ((1 + 64 : ℝ) : EReal)
      rwa [r65] at this
    have key : (sqrt (0 + (1 + num ((8 : ℝ) : EReal) * num ((8 : ℝ) : EReal))) :
        Fl binary64).isFinite := by
      rw [hsum]
      have h65 : ¬ (((65 : ℝ) : EReal) < 0) := by
        rw [not_lt]; exact_mod_cast (show (0 : ℝ) ≤ 65 by norm_num)
      have hn : ¬ (sqrt (num ((65 : ℝ) : EReal)) : Fl binary64).isNaN := by
        rw [isNaN_sqrt]
        rintro (h | h)
        · exact h
        · exact h65 h
      have hs : esqrt ((65 : ℝ) : EReal) = ((Real.sqrt 65 : ℝ) : EReal) := by
        unfold esqrt
        rw [if_neg (EReal.coe_ne_top _)]; rfl
      have hle : esqrt ((65 : ℝ) : EReal) ≤ ((2 ^ (1023 : ℤ) : ℝ) : EReal) := by
        rw [hs, EReal.coe_le_coe_iff]
        have h1 : Real.sqrt 65 ≤ 16 := by
          rw [Real.sqrt_le_left (by norm_num)]; norm_num
        have h2 : (16 : ℝ) = 2 ^ (4 : ℤ) := by norm_num
        rw [h2] at h1
        exact h1.trans (zpow_le_zpow_right₀ (by norm_num) (by norm_num))
      have hfin := binary_rnd_finite (bits := 53) (emin := -1022) (hp := by norm_num)
        (hmin := by norm_num) (hmax := by norm_num) (neg := false)
        (order := fun _ => SumOrder.left) hle
      change binary64.rnd _ ≤ _ at hfin
      refine ⟨hn, ?_, ?_⟩
      · rw [val_sqrt hn, val_num]
        intro h
        rw [h, top_le_iff] at hfin
        exact EReal.coe_ne_top _ hfin
      · rw [val_sqrt hn, val_num]
        have := binary64.rnd_nonneg (esqrt_nonneg ((65 : ℝ) : EReal))
        intro h
        rw [h] at this
        simp at this
    exact key

end GLM
