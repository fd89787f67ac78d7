/-
  C83: what rounding, overflow and underflow cannot break.
-/
import Verif.Spec.Rounding
import Verif.Lemmas.Binary
import Verif.Lemmas.Trace

namespace GLM
open Spec Scalar

namespace Fl
open Classical
variable {fmt : FloatFormat} {w x y : Fl fmt}

/-! ### The inverse links -/

theorem one_add_exp (hw : ¬ w.isNaN) :
    ¬ (1 + exp (-w)).isNaN ∧ 1 ≤ (1 + exp (-w)).val := by
  have he : ¬ (exp (-w)).isNaN := by rw [isNaN_exp, isNaN_neg]; exact hw
  have h0 : 0 ≤ (exp (-w)).val := by
    rw [val_exp (by rwa [isNaN_neg])]; exact fmt.exp_nonneg _
  have hn : ¬ (1 + exp (-w)).isNaN := by
    rw [isNaN_add]
    rintro (h | h | ⟨h, -⟩ | ⟨h, -⟩)
    · simp at h
    · exact he h
    · exact absurd h (by simp; decide)
    · exact absurd h (by simp; decide)
  refine ⟨hn, ?_⟩
  rw [val_add hn]
  refine fmt.one_le_rnd ?_
  calc (1 : EReal) = 1 + 0 := by simp
    _ ≤ _ := add_le_add le_rfl h0

theorem div_ge_one {c d : EReal} (hc : 0 ≤ c) (hd : 1 ≤ d) : 0 ≤ c / d ∧ c / d ≤ c := by
  have h0 : (0 : EReal) ≤ d := zero_le_one.trans hd
  refine ⟨EReal.div_nonneg hc h0, ?_⟩
  by_cases ht : d = ⊤
  · rw [ht, EReal.div_top]; exact hc
  · rw [EReal.div_le_iff_le_mul (zero_lt_one.trans_le hd) ht]
    calc c = 1 * c := (one_mul c).symm
      _ ≤ d * c := mul_le_mul_of_nonneg_right hd hc

theorem within_div {c : EReal} (hc : 0 ≤ c) (hc0 : c ≠ 0) (hct : c ≠ ⊤) (hcr : fmt.rnd c = c)
    (hy : ¬ y.isNaN) (h1 : 1 ≤ y.val) : (num c / y : Fl fmt).within 0 c := by
  have hy0 : y.val ≠ 0 := (zero_lt_one.trans_le h1).ne'
  have hn : ¬ (num c / y : Fl fmt).isNaN := by
    rw [isNaN_div]
    rintro (h | h | ⟨h, -⟩ | ⟨h | h, -⟩)
    · simp at h
    · exact hy h
    · exact hc0 (by simpa using h)
    · exact hct (by simpa using h)
    · have : c = ⊥ := by simpa using h
      rw [this] at hc; simp at hc
  obtain ⟨hl, hu⟩ := div_ge_one hc h1
  refine ⟨hn, ?_, ?_⟩
  · rw [val_div hn hy0]; exact fmt.rnd_nonneg hl
  · rw [val_div hn hy0]
    conv_rhs => rw [← hcr]
    exact fmt.rnd_mono hu

theorem ereal_one_ne_top : (1 : EReal) ≠ ⊤ := by decide

theorem within_logit (hw : ¬ w.isNaN) : (linkLogit.funcInv w : Fl fmt).within 0 1 := by
  obtain ⟨h1, h2⟩ := one_add_exp hw
  exact within_div zero_le_one one_ne_zero ereal_one_ne_top fmt.rnd_one h1 h2

theorem within_cloglog (hw : ¬ w.isNaN) : (linkCloglog.funcInv w : Fl fmt).within 0 1 := by
  change (-(expm1 (-(exp w))) : Fl fmt).within 0 1
  have he : ¬ (exp w).isNaN := by rwa [isNaN_exp]
  have he' : ¬ (-(exp w)).isNaN := by rwa [isNaN_neg]
  have h0 : (-(exp w)).val ≤ 0 := by
    rw [val_neg, val_exp hw, EReal.neg_le_zero]; exact fmt.exp_nonneg _
  refine ⟨by rwa [isNaN_neg, isNaN_expm1], ?_, ?_⟩
  · rw [val_neg, val_expm1 he']
    have := fmt.expm1_nonpos _ h0
    rw [← neg_zero, EReal.neg_le_neg_iff]; exact this
  · rw [val_neg, val_expm1 he']
    have := fmt.neg_one_le_expm1 (-(exp w)).val
    rw [EReal.neg_le]; exact this

theorem within_exp (hw : ¬ w.isNaN) : (exp w : Fl fmt).within 0 ⊤ :=
  ⟨by rwa [isNaN_exp], by rw [val_exp hw]; exact fmt.exp_nonneg _, le_top⟩

theorem rnd_trials {N : ℕ} (hN : 1 ≤ N) : (1 : EReal) ≤ fmt.rnd ((N : ℝ) : EReal) :=
  fmt.one_le_rnd (by exact_mod_cast hN)

theorem within_binLogit {N : ℕ} (hN : 1 ≤ N) (ht : fmt.rnd (N : ℝ) ≠ ⊤) (hw : ¬ w.isNaN) :
    ((linkBinLogit N).funcInv w : Fl fmt).within 0 (fmt.rnd (N : ℝ)) := by
  obtain ⟨h1, h2⟩ := one_add_exp hw
  have hr := rnd_trials (fmt := fmt) hN
  exact within_div (zero_le_one.trans hr) (zero_lt_one.trans_le hr).ne' ht (fmt.rnd_idem _) h1 h2

theorem recip_neg (hw : ¬ w.isNaN) (h : w.val < 0) : (-(recip w) : Fl fmt).within 0 ⊤ := by
  have hn : ¬ (1 / w).isNaN := by
    rw [isNaN_div]
    rintro (h' | h' | ⟨h', -⟩ | ⟨h' | h', -⟩)
    · simp at h'
    · exact hw h'
    · simp at h'
    · exact ereal_one_ne_top (by simpa using h')
    · exact absurd h' (by simp; decide)
  refine ⟨by rw [isNaN_neg]; exact hn, ?_, le_top⟩
  rw [val_neg]
  change 0 ≤ -(1 / w).val
  rw [val_div hn h.ne, ← neg_zero, EReal.neg_le_neg_iff]
  exact fmt.rnd_nonpos (EReal.div_nonpos_of_nonneg_of_nonpos zero_le_one h.le)

/-- Positive and with the sign bit clear, or positive zero. -/
def plain (x : Fl fmt) : Prop := ¬ x.isNaN ∧ 0 ≤ x.val ∧ x.neg? = false

theorem plain_mk {v : EReal} (h : 0 ≤ v) : (mk false v : Fl fmt).plain := by
  refine ⟨isNaN_mk _ _, by simpa, ?_⟩
  unfold mk
  split
  · simp [neg?]
  · simpa [neg?] using h

theorem plain_sqrt (h : x.plain) : (sqrt x).plain := by
  obtain ⟨h1, h2, h3⟩ := h
  have : (sqrt x : Fl fmt) = mk x.neg? (fmt.rnd (esqrt x.val)) := by
    change (if x.isNaN then invalid else if x.val < 0 then invalid
      else mk x.neg? (fmt.rnd (esqrt x.val)) : Fl fmt) = _
    rw [if_neg h1, if_neg (not_lt.mpr h2)]
  rw [this, h3]
  exact plain_mk (fmt.rnd_nonneg (esqrt_nonneg _))

theorem recip_plain (h : x.plain) : (recip x).within 0 ⊤ := by
  obtain ⟨h1, h2, h3⟩ := h
  have hn : ¬ (1 / x).isNaN := by
    rw [isNaN_div]
    rintro (h' | h' | ⟨h', -⟩ | ⟨h' | h', -⟩)
    · simp at h'
    · exact h1 h'
    · simp at h'
    · exact ereal_one_ne_top (by simpa using h')
    · exact absurd h' (by simp; decide)
  refine ⟨hn, ?_, le_top⟩
  change 0 ≤ (1 / x).val
  by_cases h0 : x.val = 0
  · have hn' := hn
    rw [isNaN_div] at hn'
    rw [div_def]
    unfold over
    have h4 : (1 : Fl fmt).neg? = false := by simp [neg?]
    rw [if_neg (by tauto), if_neg (by tauto), if_pos h0, h3, h4]
    exact le_top
  · rw [val_div hn h0]
    exact fmt.rnd_nonneg (EReal.div_nonneg zero_le_one h2)

theorem two_val : (1 : EReal) ≤ (two : Fl fmt).val :=
  fmt.one_le_rnd (by exact_mod_cast (by norm_num : 1 ≤ 2))

theorem neg_two_mul (hw : ¬ w.isNaN) (h : w.val < 0) : (-two * w : Fl fmt).plain := by
  have h2 := two_val (fmt := fmt)
  have h2' : (-two : Fl fmt).val < 0 := by
    rw [val_neg, EReal.neg_lt_comm, neg_zero]; exact zero_lt_one.trans_le h2
  have h2n : ¬ (-two : Fl fmt).isNaN := by rw [isNaN_neg]; exact id
  have : (-two * w : Fl fmt)
      = mk ((-two : Fl fmt).neg? ^^ w.neg?) (fmt.rnd ((-two : Fl fmt).val * w.val)) := by
    rw [mul_def]
    unfold times
    rw [if_neg (by tauto), if_neg]
    rintro (⟨h', -⟩ | ⟨-, h'⟩)
    · exact h2'.ne h'
    · exact h.ne h'
  rw [this, neg_of_val_neg h2n h2', neg_of_val_neg hw h]
  refine plain_mk (fmt.rnd_nonneg ?_)
  rw [EReal.mul_nonneg_iff]
  exact .inr ⟨h2'.le, h.le⟩

end Fl
open Fl

section
open Classical
variable {fmt : FloatFormat} {n p : ℕ} {b : Bool}

/-- The inverse link of a family with a logit, complementary log-log or log link gives a number in
the closed range of the mean for every predictor that is a number, infinite ones included. -/
theorem C83_mean (fam : Family) (hfam : AnyPredictor fam) (ht : TrialsFit fmt fam) {w : Fl fmt}
    (hw : ¬ w.isNaN) : (fam.glm.link.funcInv w : Fl fmt).within 0 (meanCap fmt fam) := by
  cases fam with
  | linear => exact hfam.elim
  | logisticLogit => exact within_logit hw
  | logisticCloglog => exact within_cloglog hw
  | poisson => exact within_exp hw
  | binomial N => exact within_binLogit ht.1 ht.2 hw
  | exponentialNegRec => exact hfam.elim
  | exponentialLog => exact within_exp hw
  | gammaNegRec => exact hfam.elim
  | gammaLog => exact within_exp hw
  | invGaussNegRecSq => exact hfam.elim
  | invGaussLog => exact within_exp hw

/-- A reciprocal link gives a number that is not negative for every negative predictor. -/
theorem C83_mean_reciprocal (fam : Family) (hfam : NegativePredictor fam) {w : Fl fmt}
    (hw : ¬ w.isNaN) (h : w.val < 0) : (fam.glm.link.funcInv w : Fl fmt).within 0 ⊤ := by
  cases fam <;> first
    | exact hfam.elim
    | exact recip_neg hw h
    | exact recip_plain (plain_sqrt (neg_two_mul hw h))

/-- Predictions of a fit, for any features and offsets: a prediction is not-a-number exactly when the
linear predictor is, and otherwise it is in the closed range of the mean. -/
theorem C83_predict {env : Env (Fl fmt)} (fam : Family) (hfam : AnyPredictor fam)
    (ht : TrialsFit fmt fam) {data : Dataset (Fl fmt) n p b}
    {options : FitOptions (Fl fmt) (ncols b p)} {f : Fit (Fl fmt) n p b}
    (h : regression env fam.glm data options = .ok f) {m : ℕ} (x : Mat (Fl fmt) m p)
    (off : Option (Vec (Fl fmt) m)) (i : Fin m) :
    let w := match off with
      | none => (Dataset.padded b x).dotV f.result i
      | some o => (Dataset.padded b x).dotV f.result i + o i
    ((f.predict x off i).isNaN ↔ w.isNaN) ∧
      (¬ w.isNaN → (f.predict x off i).within 0 (meanCap fmt fam)) := by
  intro w
  obtain ⟨best, s, -, rfl⟩ := regression_ok h
  have hp : (Fit.new fam.glm data options (best.getD s.makeLastStep) s).predict x off i
      = fam.glm.link.funcInv w := by
    cases off <;> rfl
  rw [hp]
  have key : ¬ w.isNaN → (fam.glm.link.funcInv w : Fl fmt).within 0 (meanCap fmt fam) :=
    C83_mean fam hfam ht
  refine ⟨⟨fun hn => ?_, fun hn => ?_⟩, key⟩
  · by_contra hc
    exact (key hc).1 hn
  · clear_value w
    cases fam with
    | linear => exact hfam.elim
    | exponentialNegRec => exact hfam.elim
    | gammaNegRec => exact hfam.elim
    | invGaussNegRecSq => exact hfam.elim
    | logisticLogit =>
      change (1 / (1 + exp (-w))).isNaN
      rw [isNaN_div, isNaN_add, isNaN_exp, isNaN_neg]; tauto
    | logisticCloglog =>
      change (-(expm1 (-(exp w)))).isNaN
      rw [isNaN_neg, isNaN_expm1, isNaN_neg, isNaN_exp]; exact hn
    | binomial N =>
      change (ofNat N / (1 + exp (-w))).isNaN
      rw [isNaN_div, isNaN_add, isNaN_exp, isNaN_neg]; tauto
    | _ => exact isNaN_exp.mpr hn

/-! ### Variances and sums -/

theorem Fl.within_one_sub {x : Fl fmt} (h : x.within 0 1) : (1 - x).within 0 1 := by
  obtain ⟨h1, h2, h3⟩ := h
  have hn : ¬ (1 - x).isNaN := by
    rw [isNaN_sub]
    rintro (h' | h' | ⟨h', -⟩ | ⟨h', -⟩)
    · simp at h'
    · exact h1 h'
    · exact ereal_one_ne_top (by simpa using h')
    · exact absurd h' (by simp; decide)
  refine ⟨hn, ?_, ?_⟩
  · rw [val_sub hn]
    refine fmt.rnd_nonneg ?_
    exact (EReal.sub_nonneg (x := 1) (.inl ereal_one_ne_top) (.inl (by decide))).mpr h3
  · rw [val_sub hn]
    refine fmt.rnd_le_one ?_
    calc (1 : EReal) - x.val ≤ 1 - 0 := EReal.sub_le_sub le_rfl h2
      _ = 1 := by simp

theorem Fl.within_mul {x y : Fl fmt} {a c : EReal} (hx : x.within 0 a) (hy : y.within 0 c)
    (ha : a ≠ ⊤) (hc : c ≠ ⊤) : (x * y).within 0 ⊤ := by
  obtain ⟨h1, h2, h3⟩ := hx
  obtain ⟨k1, k2, k3⟩ := hy
  have hxt : x.val ≠ ⊤ := fun h => ha (top_le_iff.mp (h ▸ h3))
  have hyt : y.val ≠ ⊤ := fun h => hc (top_le_iff.mp (h ▸ k3))
  have hxb : x.val ≠ ⊥ := fun h => by rw [h] at h2; simp at h2
  have hyb : y.val ≠ ⊥ := fun h => by rw [h] at k2; simp at k2
  have hn : ¬ (x * y).isNaN := by rw [isNaN_mul]; tauto
  exact ⟨hn, by rw [val_mul hn]; exact fmt.rnd_nonneg (mul_nonneg h2 k2), le_top⟩

theorem Fl.within_sq {x : Fl fmt} (hx : x.within 0 ⊤) : (x * x).within 0 ⊤ := by
  obtain ⟨h1, h2, -⟩ := hx
  have hb : x.val ≠ ⊥ := fun h => by rw [h] at h2; simp at h2
  have hn : ¬ (x * x).isNaN := by
    rw [isNaN_mul]
    rintro (h | h | ⟨h, h' | h'⟩ | ⟨h | h, h'⟩)
    · exact h1 h
    · exact h1 h
    · rw [h] at h'; simp at h'
    · exact hb h'
    · rw [h] at h'; simp at h'
    · exact hb h
  exact ⟨hn, by rw [val_mul hn]; exact fmt.rnd_nonneg (mul_nonneg h2 h2), le_top⟩

theorem Fl.within_cube {x : Fl fmt} (hx : x.within 0 ⊤) : (x * x * x).within 0 ⊤ := by
  have hsq := within_sq hx
  obtain ⟨h1, h2, -⟩ := hx
  have hb : x.val ≠ ⊥ := fun h => by rw [h] at h2; simp at h2
  have hv := val_mul hsq.1
  have hn : ¬ (x * x * x).isNaN := by
    rw [isNaN_mul, hv]
    rintro (h | h | ⟨h, h' | h'⟩ | ⟨h | h, h'⟩)
    · exact hsq.1 h
    · exact h1 h
    · rw [h', EReal.top_mul_top, fmt.rnd_top] at h; simp at h
    · exact hb h'
    · rw [h', zero_mul, fmt.rnd_zero] at h; simp at h
    · rw [h', zero_mul, fmt.rnd_zero] at h; simp at h
  exact ⟨hn, by rw [val_mul hn]; exact fmt.rnd_nonneg (mul_nonneg hsq.2.1 h2), le_top⟩

theorem Fl.within_binVariance {N : ℕ} (hN : 1 ≤ N) (ht : fmt.rnd (N : ℝ) ≠ ⊤) {x : Fl fmt}
    (hx : x.within 0 (fmt.rnd (N : ℝ))) :
    (x * (ofNat N - x) / ofNat N).within 0 ⊤ := by
  have hN1 := rnd_trials (fmt := fmt) hN
  have hNb : fmt.rnd (N : ℝ) ≠ ⊥ := fun h => absurd (h ▸ hN1) (by decide)
  have hn : ¬ ((ofNat N : Fl fmt) - x).isNaN := by
    rw [isNaN_sub]
    rintro (h | h | ⟨h, -⟩ | ⟨h, -⟩)
    · exact h
    · exact hx.1 h
    · exact ht h
    · exact hNb h
  have hd : ((ofNat N : Fl fmt) - x).within 0 (fmt.rnd (N : ℝ)) := by
    refine ⟨hn, ?_, ?_⟩
    · rw [val_sub hn]
      refine fmt.rnd_nonneg ?_
      exact (EReal.sub_nonneg (x := fmt.rnd (N : ℝ)) (.inl ht) (.inl hNb)).mpr hx.2.2
    · rw [val_sub hn]
      conv_rhs => rw [← fmt.rnd_idem]
      refine fmt.rnd_mono ?_
      calc (ofNat N : Fl fmt).val - x.val ≤ (ofNat N : Fl fmt).val - 0 :=
            EReal.sub_le_sub le_rfl hx.2.1
        _ = _ := by rw [sub_zero]; rfl
  have hm := within_mul hx hd ht ht
  have hn' : ¬ (x * (ofNat N - x) / ofNat N).isNaN := by
    rw [isNaN_div]
    rintro (h | h | ⟨-, h⟩ | ⟨-, h | h⟩)
    · exact hm.1 h
    · exact h
    · exact (zero_lt_one.trans_le hN1).ne' h
    · exact ht h
    · exact hNb h
  refine ⟨hn', ?_, le_top⟩
  rw [val_div hn' (zero_lt_one.trans_le hN1).ne']
  exact fmt.rnd_nonneg (EReal.div_nonneg hm.2.1 (zero_le_one.trans hN1))

/-- The variance of a family at a mean in its closed range is a number that is not negative. -/
theorem C83_variance (fam : Family) (ht : TrialsFit fmt fam) {mu : Fl fmt}
    (hmu : mu.within 0 (meanCap fmt fam)) : (fam.glm.variance mu : Fl fmt).within 0 ⊤ := by
  cases fam with
  | linear => exact ⟨id, zero_le_one, le_top⟩
  | logisticLogit => exact within_mul hmu (within_one_sub hmu) ereal_one_ne_top ereal_one_ne_top
  | logisticCloglog => exact within_mul hmu (within_one_sub hmu) ereal_one_ne_top ereal_one_ne_top
  | poisson => exact hmu
  | binomial N => exact within_binVariance ht.1 ht.2 hmu
  | exponentialNegRec => exact within_sq hmu
  | exponentialLog => exact within_sq hmu
  | gammaNegRec => exact within_sq hmu
  | gammaLog => exact within_sq hmu
  | invGaussNegRecSq => exact within_cube hmu
  | invGaussLog => exact within_cube hmu

/-- The variance at any predictor is not-a-number or not negative (with the reciprocal square link,
at any negative predictor). -/
theorem Fl.variance_nonneg (fam : Family) (ht : TrialsFit fmt fam) {w : Fl fmt}
    (hw : fam = .invGaussNegRecSq → w.isNaN ∨ w.val < 0) :
    (fam.glm.variance (fam.glm.link.funcInv w) : Fl fmt).nonnegOrNaN := by
  by_cases hn : (fam.glm.link.funcInv w : Fl fmt).isNaN
  · cases fam with
    | linear => exact .inr zero_le_one
    | logisticLogit => left; exact isNaN_mul.mpr (.inl hn)
    | logisticCloglog => left; exact isNaN_mul.mpr (.inl hn)
    | poisson => exact .inl hn
    | binomial N => left; exact isNaN_div.mpr (.inl (isNaN_mul.mpr (.inl hn)))
    | exponentialNegRec => left; exact isNaN_mul.mpr (.inl hn)
    | exponentialLog => left; exact isNaN_mul.mpr (.inl hn)
    | gammaNegRec => left; exact isNaN_mul.mpr (.inl hn)
    | gammaLog => left; exact isNaN_mul.mpr (.inl hn)
    | invGaussNegRecSq => left; exact isNaN_mul.mpr (.inr (.inl hn))
    | invGaussLog => left; exact isNaN_mul.mpr (.inr (.inl hn))
  · by_cases hany : AnyPredictor fam
    · have hwn : ¬ w.isNaN := by
        intro hwn
        refine hn ?_
        cases fam with
        | linear => exact hany.elim
        | exponentialNegRec => exact hany.elim
        | gammaNegRec => exact hany.elim
        | invGaussNegRecSq => exact hany.elim
        | logisticLogit =>
          change (1 / (1 + exp (-w))).isNaN
          rw [isNaN_div, isNaN_add, isNaN_exp, isNaN_neg]; tauto
        | logisticCloglog =>
          change (-(expm1 (-(exp w)))).isNaN
          rw [isNaN_neg, isNaN_expm1, isNaN_neg, isNaN_exp]; exact hwn
        | binomial N =>
          change (ofNat N / (1 + exp (-w))).isNaN
          rw [isNaN_div, isNaN_add, isNaN_exp, isNaN_neg]; tauto
        | _ => exact isNaN_exp.mpr hwn
      exact .inr (C83_variance fam ht (C83_mean fam hany ht hwn)).2.1
    · cases fam with
      | linear => exact .inr zero_le_one
      | exponentialNegRec => exact nonneg_sq
      | gammaNegRec => exact nonneg_sq
      | invGaussNegRecSq =>
        rcases hw rfl with h | h
        · refine absurd ?_ hn
          change (1 / sqrt (-two * w)).isNaN
          rw [isNaN_div, isNaN_sqrt, isNaN_mul]; tauto
        · by_cases hwn : w.isNaN
          · refine absurd ?_ hn
            change (1 / sqrt (-two * w)).isNaN
            rw [isNaN_div, isNaN_sqrt, isNaN_mul]; tauto
          · exact .inr (C83_variance .invGaussNegRecSq ht
              (C83_mean_reciprocal .invGaussNegRecSq trivial hwn h)).2.1
      | _ => exact absurd trivial hany

/-- A number with the sign of another one, up to zeros. -/
def Fl.signLike (a x : Fl fmt) : Prop :=
  a.isNaN ∨ x.isNaN ∨ ((0 ≤ x.val → 0 ≤ a.val) ∧ (x.val ≤ 0 → a.val ≤ 0))

theorem Fl.signLike_self (x : Fl fmt) : signLike x x := .inr (.inr ⟨id, id⟩)

theorem Fl.signLike_mul {a x v : Fl fmt} (h : signLike a x) (hv : v.nonnegOrNaN) :
    signLike (a * v) x := by
  by_cases hn : (a * v).isNaN
  · exact .inl hn
  have hn' := hn
  rw [isNaN_mul] at hn'
  push Not at hn'
  rcases h with h | h | ⟨h1, h2⟩
  · exact absurd h hn'.1
  · exact .inr (.inl h)
  · have hv' : 0 ≤ v.val := hv.resolve_left hn'.2.1
    refine .inr (.inr ⟨fun h => ?_, fun h => ?_⟩)
    · rw [val_mul hn]
      exact fmt.rnd_nonneg (mul_nonneg (h1 h) hv')
    · rw [val_mul hn]
      exact fmt.rnd_nonpos (EReal.mul_nonpos_iff.mpr (.inr ⟨h2 h, hv'⟩))

theorem Fl.signLike_product {a x : Fl fmt} (h : signLike a x) :
    a.isNaN ∨ x.isNaN ∨ 0 ≤ a.val * x.val := by
  rcases h with h | h | ⟨h1, h2⟩
  · exact .inl h
  · exact .inr (.inl h)
  · refine .inr (.inr (EReal.mul_nonneg_iff.mpr ?_))
    rcases le_total 0 x.val with h | h
    · exact .inl ⟨h1 h, h⟩
    · exact .inr ⟨h2 h, h⟩

theorem Fl.signLike_nonneg {a x : Fl fmt} (h : signLike a x) : (a * x).nonnegOrNaN := by
  by_cases hn : (a * x).isNaN
  · exact .inl hn
  right
  have hn' := hn
  rw [isNaN_mul] at hn'
  push Not at hn'
  rcases h with h | h | ⟨h1, h2⟩
  · exact absurd h hn'.1
  · exact absurd h hn'.2.1
  · rw [val_mul hn]
    refine fmt.rnd_nonneg (EReal.mul_nonneg_iff.mpr ?_)
    rcases le_total 0 x.val with h | h
    · exact .inl ⟨h1 h, h⟩
    · exact .inr ⟨h2 h, h⟩

/-- The weight of an observation in the information matrix is not-a-number or not negative. -/
theorem Fl.adjusted_nonneg (fam : Family) (ht : TrialsFit fmt fam) {w : Fl fmt}
    (hw : fam = .invGaussNegRecSq → w.isNaN ∨ w.val < 0) :
    (fam.glm.link.adjustVariance (fam.glm.variance (fam.glm.link.funcInv w)) w :
      Fl fmt).nonnegOrNaN := by
  have hv := variance_nonneg fam ht hw
  have hs : ∀ a v : Fl fmt, v.nonnegOrNaN → (a * v * a).nonnegOrNaN := fun a v h =>
    signLike_nonneg (signLike_mul (signLike_self a) h)
  cases fam <;> first | exact hv | exact hs _ _ hv

/-- The frequency and variance weights are not negative (or not numbers). -/
def WeightsNonneg (data : Dataset (Fl fmt) n p b) : Prop :=
  (∀ f, data.freqs = some f → ∀ i, (f i).nonnegOrNaN) ∧
    (∀ w, data.weights = some w → ∀ i, (w i).nonnegOrNaN)

theorem Fl.signLike_xConj {data : Dataset (Fl fmt) n p b} (hw : WeightsNonneg data)
    (j : Fin (ncols b p)) (i : Fin n) : signLike (data.xConj j i) (data.x i j) := by
  unfold Dataset.xConj Dataset.weightCols
  cases hf : data.freqs with
  | none =>
    cases hv : data.weights with
    | none => exact signLike_self _
    | some v => exact signLike_mul (signLike_self _) (hw.2 v hv i)
  | some f =>
    cases hv : data.weights with
    | none => exact signLike_mul (signLike_self _) (hw.1 f hf i)
    | some v => exact signLike_mul (signLike_mul (signLike_self _) (hw.1 f hf i)) (hw.2 v hv i)

/-- Without standardization and without an L1 penalty no diagonal entry of the information matrix
reported by a fit is negative, at any parameters. -/
theorem C83_information {env : Env (Fl fmt)} (fam : Family) (ht : TrialsFit fmt fam)
    (hfam : fam ≠ .invGaussNegRecSq) {data : Dataset (Fl fmt) n p b} (hw : WeightsNonneg data)
    (hstd : data.standardizer = none) {options : FitOptions (Fl fmt) (ncols b p)}
    (hl1 : gt options.l1 0 = false) {f : Fit (Fl fmt) n p b}
    (h : regression env fam.glm data options = .ok f) (params : Vec (Fl fmt) (ncols b p))
    (j : Fin (ncols b p)) : (f.fisher params j j).nonnegOrNaN := by
  obtain ⟨hg, hd, ho, hc⟩ := regression_coherent h
  have hdata : ∀ q, (f.fisherDataStd q j j).nonnegOrNaN := by
    intro q
    unfold Fit.fisherDataStd
    rw [hg, hd]
    dsimp only [Mat.dotM]
    refine nonneg_vdotBy fun i => signLike_product (signLike_mul (signLike_xConj hw j i) ?_)
    exact adjusted_nonneg fam ht fun h => absurd h hfam
  have hbeta : f.data.transformBeta params = params := by
    rw [hd]; cases b <;> simp only [Dataset.transformBeta, hstd]
  have hfis : ∀ M, f.data.inverseTransformFisher M = M := by
    intro M
    rw [hd]; cases b <;> simp only [Dataset.inverseTransformFisher, hstd]
  unfold Fit.fisher Fit.fisherStd
  rw [hfis, hbeta]
  have hr := hc.reg
  rw [ho] at hr
  unfold getReg at hr
  simp only [hl1, Bool.false_and, Bool.false_eq_true, if_false] at hr
  split at hr
  · rename_i hl2
    generalize f.reg = r at hr ⊢
    cases hr
    change (Mat.addDiag (f.fisherDataStd params) _ j j).nonnegOrNaN
    unfold Mat.addDiag
    rw [if_pos rfl]
    refine nonneg_add (hdata _) ?_
    have hl2' : (options.l2).nonnegOrNaN := .inr (gt_iff.mp hl2).2.2.le
    cases b with
    | false => exact hl2'
    | true =>
      refine Fin.cases ?_ (fun j => ?_) j
      · exact .inr le_rfl
      · exact hl2'
  · generalize f.reg = r at hr ⊢
    cases hr
    exact hdata _

/-- The residual sum of squares, the number of observations and the sum of the weights are not
negative. -/
theorem C83_sums {env : Env (Fl fmt)} {g : Glm (Fl fmt)} {data : Dataset (Fl fmt) n p b}
    (hw : WeightsNonneg data) {options : FitOptions (Fl fmt) (ncols b p)} {f : Fit (Fl fmt) n p b}
    (h : regression env g data options = .ok f) :
    f.rss.nonnegOrNaN ∧ f.data.nObs.nonnegOrNaN ∧ f.data.sumWeights.nonnegOrNaN := by
  obtain ⟨hg, hd, ho, hc⟩ := regression_coherent h
  have hobs : f.data.nObs.nonnegOrNaN := by
    rw [hd]
    unfold Dataset.nObs
    cases hf : data.freqs with
    | none => exact .inr (fmt.rnd_nonneg (by exact_mod_cast Nat.zero_le n))
    | some fr => exact nonneg_vsum (hw.1 fr hf)
  refine ⟨?_, hobs, ?_⟩
  · unfold Fit.rss
    refine nonneg_vsum fun i => ?_
    rw [hd]
    unfold Dataset.applyTotalWeights Dataset.applyFreqWeights Dataset.applyVarWeights
    cases hf : data.freqs with
    | none =>
      cases hv : data.weights with
      | none => exact nonneg_sq
      | some v => exact nonneg_mul (hw.2 v hv i) nonneg_sq
    | some fr =>
      cases hv : data.weights with
      | none => exact nonneg_mul (hw.1 fr hf i) nonneg_sq
      | some v => exact nonneg_mul (hw.1 fr hf i) (nonneg_mul (hw.2 v hv i) nonneg_sq)
  · unfold Dataset.sumWeights
    rw [hd] at hobs ⊢
    cases hv : data.weights with
    | none => exact hobs
    | some v =>
      unfold Dataset.freqSum
      refine nonneg_vsum fun i => ?_
      unfold Dataset.applyFreqWeights
      cases hf : data.freqs with
      | none => exact hw.2 v hv i
      | some fr => exact nonneg_mul (hw.1 fr hf i) (hw.2 v hv i)

/-- A larger predictor never gives a smaller mean, if the library's exponential functions are
monotone. -/
theorem C83_mean_monotone (hexp : Monotone fmt.exp) (hexpm1 : Monotone fmt.expm1) (fam : Family)
    (hfam : AnyPredictor fam) (ht : TrialsFit fmt fam) {w w' : Fl fmt} (hw : ¬ w.isNaN)
    (hw' : ¬ w'.isNaN) (h : w.val ≤ w'.val) :
    (fam.glm.link.funcInv w : Fl fmt).val ≤ (fam.glm.link.funcInv w' : Fl fmt).val := by
  have hde : (1 + exp (-w')).val ≤ (1 + exp (-w)).val := by
    rw [val_add (one_add_exp hw).1, val_add (one_add_exp hw').1]
    refine fmt.rnd_mono (add_le_add le_rfl ?_)
    rw [val_exp (by rwa [isNaN_neg]), val_exp (by rwa [isNaN_neg]), val_neg, val_neg]
    exact hexp (EReal.neg_le_neg_iff.mpr h)
  have hdiv : ∀ c : EReal, 0 ≤ c → c ≠ 0 → c ≠ ⊤ → fmt.rnd c = c →
      (num c / (1 + exp (-w)) : Fl fmt).val ≤ (num c / (1 + exp (-w')) : Fl fmt).val := by
    intro c hc hc0 hct hcr
    have h1 := one_add_exp hw
    have h2 := one_add_exp hw'
    have hp1 := zero_lt_one.trans_le h1.2
    have hp2 := zero_lt_one.trans_le h2.2
    rw [val_div (within_div hc hc0 hct hcr h1.1 h1.2).1 hp1.ne',
      val_div (within_div hc hc0 hct hcr h2.1 h2.2).1 hp2.ne']
    refine fmt.rnd_mono ?_
    change c / _ ≤ c / _
    rw [div_eq_mul_inv, div_eq_mul_inv]
    refine mul_le_mul_of_nonneg_left ?_ hc
    exact EReal.inv_strictAntiOn.antitoneOn hp2 hp1 hde
  cases fam with
  | linear => exact hfam.elim
  | exponentialNegRec => exact hfam.elim
  | gammaNegRec => exact hfam.elim
  | invGaussNegRecSq => exact hfam.elim
  | logisticLogit => exact hdiv 1 zero_le_one one_ne_zero ereal_one_ne_top fmt.rnd_one
  | logisticCloglog =>
    change (-(expm1 (-(exp w))) : Fl fmt).val ≤ (-(expm1 (-(exp w'))) : Fl fmt).val
    have he : ¬ (-(exp w)).isNaN := by rwa [isNaN_neg, isNaN_exp]
    have he' : ¬ (-(exp w')).isNaN := by rwa [isNaN_neg, isNaN_exp]
    rw [val_neg, val_neg, val_expm1 he, val_expm1 he', EReal.neg_le_neg_iff]
    refine hexpm1 ?_
    rw [val_neg, val_neg, EReal.neg_le_neg_iff, val_exp hw, val_exp hw']
    exact hexp h
  | binomial N =>
    have hN1 := rnd_trials (fmt := fmt) ht.1
    exact hdiv _ (zero_le_one.trans hN1) (zero_lt_one.trans_le hN1).ne' ht.2 (fmt.rnd_idem _)
  | _ =>
    change (exp w).val ≤ (exp w').val
    rw [val_exp hw, val_exp hw']
    exact hexp h

theorem Fl.one_div_zero : (1 / num 0 : Fl fmt) = num ⊤ := by
  rw [div_def]
  unfold over
  have h1 : (1 : Fl fmt).neg? = false := by simp [neg?]
  rw [if_neg (by simp), if_neg (by simp), if_pos (by simp), h1]
  simp [neg?]

theorem Fl.one_div_negZero : (1 / negZero : Fl fmt) = num ⊥ := by
  rw [div_def]
  unfold over
  have h1 : (1 : Fl fmt).neg? = false := by simp [neg?]
  rw [if_neg (by simp), if_neg (by simp), if_pos (by simp), h1]
  simp [neg?]

/-- The reciprocal links take a predictor of positive zero to a mean of minus infinity: the start at
zero that `init_guess` falls back to is outside their domain. -/
theorem C83_reciprocal_at_zero (h2 : fmt.rnd ((2 : ℕ) : ℝ) ≠ ⊤) (fam : Family)
    (hfam : NegativePredictor fam) : fam.glm.link.funcInv (0 : Fl fmt) = num ⊥ := by
  have h1 : -(recip (0 : Fl fmt)) = num ⊥ := by
    change opp (1 / num 0 : Fl fmt) = _
    rw [one_div_zero]
    simp [opp, Fl.mk]
  have h3 : recip (sqrt (-two * (0 : Fl fmt))) = num ⊥ := by
    have h2n : ¬ (-two : Fl fmt).isNaN := by rw [isNaN_neg]; exact id
    have h2v : (-two : Fl fmt).val < 0 := by
      rw [val_neg, EReal.neg_lt_comm, neg_zero]
      exact zero_lt_one.trans_le two_val
    have hm : (-two * 0 : Fl fmt) = negZero := by
      rw [mul_def]
      unfold times
      rw [if_neg (by simp [isNaN_neg] at h2n ⊢; exact h2n), if_neg, neg_of_val_neg h2n h2v]
      · simp [neg?, Fl.mk, fmt.rnd_zero]
      · rintro (⟨h, -⟩ | ⟨h, -⟩)
        · exact h2v.ne h
        · rcases h with h | h
          · rw [h] at h2v; simp at h2v
          · rw [val_neg, EReal.neg_eq_bot_iff] at h; exact h2 h
    have hs : (sqrt negZero : Fl fmt) = negZero := by
      have : (sqrt negZero : Fl fmt) = Fl.mk true (fmt.rnd (esqrt 0)) := by
        change (if isNaN negZero then invalid else if val negZero < 0 then invalid
          else Fl.mk true (fmt.rnd (esqrt (val negZero))) : Fl fmt) = _
        rw [if_neg (by simp), if_neg (by simp)]; rfl
      rw [this]
      have he : esqrt 0 = 0 := by unfold esqrt; simp
      rw [he, fmt.rnd_zero]
      simp [Fl.mk]
    rw [hm, hs]
    exact one_div_negZero
  cases fam <;> first
    | exact hfam.elim
    | exact h1
    | exact h3

end
end GLM
