/-
  C83, continued: the log-likelihood of a logistic model in floating-point arithmetic.
-/
import Verif.Props.RoundingLimits
import Mathlib.Analysis.Complex.ExponentialBounds

namespace GLM
open Spec Scalar Fl

variable {fmt : FloatFormat} {n p : ℕ} {b : Bool}

namespace Fl

/-- A number that is not positive, but perhaps minus infinity. -/
def nonpos (x : Fl fmt) : Prop := x.within ⊥ 0

theorem neg_one_le_zero' : (-1 : EReal) ≤ 0 := EReal.neg_le_zero.mpr zero_le_one

theorem nonpos_add {x y : Fl fmt} (hx : x.nonpos) (hy : y.nonpos) : (x + y).nonpos := by
  have h : ¬ (x + y).isNaN := by
    rw [isNaN_add]
    rintro (h | h | ⟨h, -⟩ | ⟨-, h⟩)
    · exact hx.1 h
    · exact hy.1 h
    · have := hx.2.2; rw [h] at this; simp at this
    · have := hy.2.2; rw [h] at this; simp at this
  refine ⟨h, bot_le, ?_⟩
  rw [val_add h]
  exact fmt.rnd_nonpos (add_nonpos hx.2.2 hy.2.2)

theorem nonpos_vsum {v : Vec (Fl fmt) n} (h : ∀ i, (v i).nonpos) : (vsum v).nonpos :=
  SumTree.eval_induct (P := Fl.nonpos) ⟨id, bot_le, le_rfl⟩ h (fun _ _ => nonpos_add)
    (fun i _ ha => nonpos_add ha (h i)) _

/-- The product of a finite number that is not negative and a finite number that is not positive. -/
theorem nonpos_mul {x y : Fl fmt} (hx : x.within 0 ⊤) (hxt : x.val ≠ ⊤) (hy : y.nonpos)
    (hyb : y.val ≠ ⊥ ∨ 0 < x.val) : (x * y).nonpos := by
  have h : ¬ (x * y).isNaN := by
    rw [isNaN_mul]
    rintro (h | h | ⟨h, h' | h'⟩ | ⟨h | h, h'⟩)
    · exact hx.1 h
    · exact hy.1 h
    · have := hy.2.2; rw [h'] at this; simp at this
    · rcases hyb with hyb | hyb
      · exact hyb h'
      · exact hyb.ne' h
    · exact hxt h
    · have := hx.2.1; rw [h] at this; simp at this
  refine ⟨h, bot_le, ?_⟩
  rw [val_mul h]
  refine fmt.rnd_nonpos ?_
  exact mul_nonpos_of_nonneg_of_nonpos hx.2.1 hy.2.2

end Fl

/-- The two branches of the log-likelihood of a logistic model compute this. -/
theorem logisticBranch {q x : Fl fmt} (hq : q.within 0 1) (hx : x.nonpos) (hb : x.val ≠ ⊥) :
    (q * x - ln1p (exp x)).nonpos ∧
      (fmt.rnd x.val = x.val → fmt.rnd (-x.val + 1) ≠ ⊤ → (q * x - ln1p (exp x)).isFinite) := by
  have h1 : (q * x).nonpos := nonpos_mul ⟨hq.1, hq.2.1, le_top⟩
    (fun h => by have := hq.2.2; rw [h] at this; exact absurd this (by decide)) hx (Or.inl hb)
  have he : ¬ (exp x).isNaN := by rw [isNaN_exp]; exact hx.1
  have hev := val_exp hx.1
  have he0 : 0 ≤ (exp x).val := by rw [hev]; exact fmt.exp_nonneg _
  have he1 : (exp x).val ≤ 1 := by rw [hev]; exact fmt.exp_le_one _ hx.2.2
  have hl : ¬ (ln1p (exp x)).isNaN := by
    rw [isNaN_ln1p]
    rintro (h | h)
    · exact he h
    · have : (-1 : EReal) < -1 := lt_of_le_of_lt (le_trans neg_one_le_zero' he0) h
      exact lt_irrefl _ this
  have hl0 : 0 ≤ (ln1p (exp x)).val := by rw [val_ln1p hl]; exact fmt.ln1p_nonneg _ he0
  have hl1 : (ln1p (exp x)).val ≤ 1 := by
    rw [val_ln1p hl]; exact (fmt.ln1p_le _ he0).trans (fmt.rnd_le_one he1)
  have hs : ¬ (q * x - ln1p (exp x)).isNaN := by
    rw [isNaN_sub]
    rintro (h | h | ⟨h, -⟩ | ⟨-, h⟩)
    · exact h1.1 h
    · exact hl h
    · have := h1.2.2; rw [h] at this; simp at this
    · rw [h] at hl0; simp at hl0
  have hsv := val_sub hs
  have hsn : (q * x - ln1p (exp x)).val ≤ 0 := by
    rw [hsv]
    refine fmt.rnd_nonpos ?_
    rw [sub_eq_add_neg]
    exact add_nonpos h1.2.2 (EReal.neg_le_zero.mpr hl0)
  refine ⟨⟨hs, bot_le, hsn⟩, fun hx' hr => ⟨hs, ?_, ?_⟩⟩
  · intro h; rw [h] at hsn; simp at hsn
  · have hq1 : x.val ≤ q.val * x.val := by
      have a1 := hq.2.1
      have a2 := hq.2.2
      have a3 := hx.2.2
      revert a1 a2 a3 hb
      generalize q.val = u
      generalize x.val = v
      intro hb a1 a2 a3
      induction v with
      | bot => exact absurd rfl hb
      | top => simp at a3
      | coe v =>
        induction u with
        | bot => simp at a1
        | top => exact absurd (top_le_iff.mp a2) ereal_one_ne_top
        | coe u =>
          have a1 : 0 ≤ u := by exact_mod_cast a1
          have a2 : u ≤ 1 := by exact_mod_cast a2
          have a3 : v ≤ 0 := by exact_mod_cast a3
          rw [← EReal.coe_mul, EReal.coe_le_coe_iff]
          nlinarith
    have hm : x.val ≤ (q * x).val := by
      have h := fmt.rnd_mono hq1
      rw [hx'] at h
      rw [val_mul h1.1]
      exact h
    have hlow : -(-x.val + 1) ≤ (q * x).val - (ln1p (exp x)).val := by
      have : -(-x.val + 1) = x.val - 1 := by
        rw [EReal.neg_add (Or.inr ereal_one_ne_top) (Or.inr (EReal.coe_ne_bot 1)), neg_neg]
      rw [this]
      exact EReal.sub_le_sub hm hl1
    intro h
    rw [hsv] at h
    have h2 := fmt.rnd_mono hlow
    rw [h, fmt.rnd_neg, le_bot_iff, EReal.neg_eq_bot_iff] at h2
    exact hr h2

/-- One term of the log-likelihood of a logistic model with the logit link, for a response in
`[0, 1]` and a finite predictor: a number, not positive, and finite if adding one to the predictor
does not overflow. -/
theorem C83_logistic_term {y w : Fl fmt} (hy : y.within 0 1) (hw : w.isFinite) :
    let t : Fl fmt := Family.logisticLogit.glm.logLikeNatural y (linkLogit.natParam w)
    t.within ⊥ 0 ∧ (fmt.rnd w.val = w.val → fmt.rnd (max w.val (-w.val) + 1) ≠ ⊤ → t.isFinite) := by
  intro t
  by_cases h : lt w 0 = true
  · have ht : t = y * w - ln1p (exp w) := by
      change logisticLogLikeNatural y w = _
      unfold logisticLogLikeNatural
      rw [if_pos h]
    rw [lt_iff] at h
    have hb := logisticBranch hy ⟨hw.1, bot_le, h.2.2.le⟩ hw.2.2
    rw [ht]
    refine ⟨hb.1, fun h1 h2 => hb.2 h1 fun h3 => h2 ?_⟩
    rw [← top_le_iff, ← h3]
    exact fmt.rnd_mono (add_le_add_left (le_max_right _ _) _)
  · have ht : t = (1 - y) * (-w) - ln1p (exp (-w)) := by
      change logisticLogLikeNatural y w = _
      unfold logisticLogLikeNatural
      rw [if_neg h]
    rw [lt_iff] at h
    have h0 : 0 ≤ w.val := not_lt.mp fun h' => h ⟨hw.1, id, h'⟩
    have hb := logisticBranch (x := -w) (within_one_sub hy)
      ⟨by rw [isNaN_neg]; exact hw.1, bot_le, by rw [val_neg]; exact EReal.neg_le_zero.mpr h0⟩
      (by rw [val_neg, ne_eq, EReal.neg_eq_bot_iff]; exact hw.2.1)
    rw [ht]
    refine ⟨hb.1, fun h1 h2 => hb.2 (by rw [val_neg, fmt.rnd_neg, h1]) fun h3 => h2 ?_⟩
    rw [← top_le_iff, ← h3, val_neg, neg_neg]
    exact fmt.rnd_mono (add_le_add_left (le_max_left _ _) _)

/-- The weights are finite numbers, variance weights not negative and frequency weights positive. -/
def WeightsProper (data : Dataset (Fl fmt) n p b) : Prop :=
  (∀ f, data.freqs = some f → ∀ i, (f i).isFinite ∧ 0 < (f i).val) ∧
    (∀ w, data.weights = some w → ∀ i, (w i).isFinite ∧ 0 ≤ (w i).val)

/-- The log-likelihood of a logistic model with the logit link, for any number of observations with
responses in `[0, 1]` and predictors to which one can be added without overflow: a number, and not
positive, however the terms and their sum are rounded. -/
theorem C83_logistic_likelihood {data : Dataset (Fl fmt) n p b}
    (hy : ∀ i, (data.y i).within 0 1) (hw : WeightsProper data) (beta : Vec (Fl fmt) (ncols b p))
    (hp : ∀ i, let w := data.linearPredictorStd beta i
      w.isFinite ∧ fmt.rnd w.val = w.val ∧ fmt.rnd (max w.val (-w.val) + 1) ≠ ⊤) :
    (Family.logisticLogit.glm.logLike data beta).within ⊥ 0 := by
  have hterm : ∀ i, (Family.logisticLogit.glm.logLikeTerms data beta i).nonpos ∧
      (Family.logisticLogit.glm.logLikeTerms data beta i).isFinite := by
    intro i
    have h := C83_logistic_term (hy i) (hp i).1
    exact ⟨h.1, h.2 (hp i).2.1 (hp i).2.2⟩
  unfold Glm.logLike
  refine nonpos_vsum fun i => ?_
  have hv : (data.applyVarWeights (Family.logisticLogit.glm.logLikeTerms data beta) i).nonpos := by
    unfold Dataset.applyVarWeights
    cases hd : data.weights with
    | none => exact (hterm i).1
    | some v =>
      obtain ⟨h1, h2⟩ := hw.2 v hd i
      exact nonpos_mul ⟨h1.1, h2, le_top⟩ h1.2.1 (hterm i).1 (Or.inl (hterm i).2.2.2)
  unfold Dataset.applyTotalWeights Dataset.applyFreqWeights
  cases hd : data.freqs with
  | none => exact hv
  | some v =>
    obtain ⟨h1, h2⟩ := hw.1 v hd i
    exact nonpos_mul ⟨h1.1, h2.le, le_top⟩ h1.2.1 hv (Or.inr h2)

theorem Fl.isNaN_vsum {v : Vec (Fl fmt) n} (i : Fin n) (h : (v i).isNaN) : (vsum v).isNaN :=
  SumTree.eval_absorb (Q := Fl.isNaN) (t := v) (f := fun i acc => acc + v i)
    (fun _ _ h => isNaN_add.mpr (Or.inl h)) (fun _ _ h => isNaN_add.mpr (Or.inr (Or.inl h)))
    (fun _ _ h => isNaN_add.mpr (Or.inl h)) h (fun _ => isNaN_add.mpr (Or.inr (Or.inl h))) _
    (SumOrder.mem_terms _ i)

theorem Fl.isNaN_vdotBy {site : SumSite} {u v : Vec (Fl fmt) n} (i : Fin n)
    (h : (u i).isNaN ∨ (v i).isNaN) : (vdotBy site u v).isNaN :=
  SumTree.eval_absorb (Q := Fl.isNaN) (t := fun i => u i * v i)
    (f := fun i acc => Scalar.fma (u i) (v i) acc) (fun _ _ h => isNaN_add.mpr (Or.inl h))
    (fun _ _ h => isNaN_add.mpr (Or.inr (Or.inl h)))
    (fun _ _ h => isNaN_fma.mpr (Or.inr (Or.inr (Or.inl h)))) (isNaN_mul.mpr (by tauto))
    (fun _ => isNaN_fma.mpr (by tauto)) _ (SumOrder.mem_terms _ i)

/-- A term that is not-a-number makes the log-likelihood not-a-number, whatever its weight. -/
theorem isNaN_logLike (g : Glm (Fl fmt)) {data : Dataset (Fl fmt) n p b}
    (beta : Vec (Fl fmt) (ncols b p)) (i : Fin n) (h : (g.logLikeTerms data beta i).isNaN) :
    (g.logLike data beta).isNaN := by
  refine isNaN_vsum i ?_
  have hv : (data.applyVarWeights (g.logLikeTerms data beta) i).isNaN := by
    unfold Dataset.applyVarWeights
    cases data.weights with
    | none => exact h
    | some v => exact isNaN_mul.mpr (Or.inr (Or.inl h))
  unfold Dataset.applyTotalWeights Dataset.applyFreqWeights
  cases data.freqs with
  | none => exact hv
  | some v => exact isNaN_mul.mpr (Or.inr (Or.inl hv))

/-- With the complementary log-log link the log-likelihood is not-a-number as soon as
`exp(exp(w)) - 1` overflows at an observation with response one, although the probability of that
response is one. -/
theorem C83_cloglog_nan {data : Dataset (Fl fmt) n p b} (beta : Vec (Fl fmt) (ncols b p)) (i : Fin n)
    (hy : data.y i = 1) (hw : ¬ (data.linearPredictorStd beta i).isNaN)
    (hov : fmt.expm1 (fmt.exp (data.linearPredictorStd beta i).val) = ⊤) :
    (Family.logisticCloglog.glm.logLike data beta).isNaN := by
  refine isNaN_logLike _ beta i ?_
  change (logisticLogLikeNatural (data.y i)
    (ln (expm1 (exp (data.linearPredictorStd beta i))))).isNaN
  generalize data.linearPredictorStd beta i = w at hw hov
  rw [hy]
  have h1 : ¬ (exp w).isNaN := by rwa [isNaN_exp]
  have h2 : ¬ (expm1 (exp w)).isNaN := by rwa [isNaN_expm1]
  have h2v : (expm1 (exp w)).val = ⊤ := by rw [val_expm1 h1, val_exp hw, hov]
  have h3 : ¬ (ln (expm1 (exp w))).isNaN := by
    rw [isNaN_ln, h2v]
    rintro (h | h)
    · exact h2 h
    · simp at h
  have h3v : (ln (expm1 (exp w))).val = ⊤ := by rw [val_ln h3, h2v, fmt.ln_top]
  generalize ln (expm1 (exp w)) = t at h3 h3v
  unfold logisticLogLikeNatural
  rw [if_neg]
  · refine isNaN_sub.mpr (Or.inl (isNaN_mul.mpr (Or.inr (Or.inr (Or.inl ⟨?_, Or.inr ?_⟩)))))
    · have h4 : ¬ (1 - 1 : Fl fmt).isNaN := by
        rw [isNaN_sub]
        rintro (h | h | ⟨h, -⟩ | ⟨h, -⟩)
        · exact h
        · exact h
        · exact ereal_one_ne_top h
        · exact EReal.coe_ne_bot 1 h
      rw [val_sub h4]
      have : (1 : Fl fmt).val - (1 : Fl fmt).val = 0 := EReal.sub_self ereal_one_ne_top
        (EReal.coe_ne_bot 1)
      rw [this, fmt.rnd_zero]
    · rw [val_neg, h3v, EReal.neg_top]
  · rw [lt_iff, h3v]
    rintro ⟨-, -, h⟩
    simp at h

/-! ### `f64` and `f32` -/

section
variable {bits : ℕ} {emin emax : ℤ} {hp : 1 ≤ bits} {hmin : emin ≤ 0} {hmax : 0 ≤ emax}
  {neg : Bool} {order : SumSite → (n : ℕ) → SumOrder n}

theorem binary_exp_mono : Monotone (binary bits emin emax hp hmin hmax neg order).exp := fun _ _ h =>
  roundBinary_mono hp (eexp_mono h)

theorem binary_expm1_mono : Monotone (binary bits emin emax hp hmin hmax neg order).expm1 := fun _ _ h =>
  roundBinary_mono hp (eexpm1_mono h)

/-- Below the largest power of two nothing overflows. -/
theorem binary_rnd_finite {v : EReal} (h : v ≤ ((2 ^ emax : ℝ) : EReal)) :
    (binary bits emin emax hp hmin hmax neg order).rnd v ≤ ((2 ^ emax : ℝ) : EReal) := by
  refine (roundBinary_mono hp h).trans ?_
  have hlt : (2 : ℝ) ^ emax < 2 ^ (emax + 1) := zpow_lt_zpow_right₀ (by norm_num) (by omega)
  have hpos : (0 : ℝ) < 2 ^ emax := by positivity
  rw [roundBinary_coe, roundBits_zpow hp (by omega), if_neg (by linarith), if_neg (by linarith)]

/-- From twice the largest power of two everything overflows. -/
theorem binary_rnd_overflow {v : EReal} (h : ((2 ^ (emax + 1) : ℝ) : EReal) ≤ v) :
    (binary bits emin emax hp hmin hmax neg order).rnd v = ⊤ := by
  rw [← top_le_iff]
  refine le_trans ?_ (roundBinary_mono hp h)
  rw [roundBinary_coe, roundBits_zpow hp (by omega), if_pos le_rfl]

theorem binary_trials {N : ℕ} (h1 : 1 ≤ N) (h2 : (N : ℝ) ≤ 2 ^ emax) :
    TrialsFit (binary bits emin emax hp hmin hmax neg order) (.binomial N) := by
  refine ⟨h1, fun h => ?_⟩
  have h3 := binary_rnd_finite (bits := bits) (emin := emin) (hp := hp) (hmin := hmin)
    (hmax := hmax) (neg := neg) (order := order) (EReal.coe_le_coe_iff.mpr h2)
  rw [h, top_le_iff] at h3
  exact EReal.coe_ne_top _ h3

end

section
variable {order : SumSite → (n : ℕ) → SumOrder n}

/-- Every positive number of trials that fits in 64 bits is within the range of `f32` and of
`f64`. -/
theorem C83_trials {N : ℕ} (h1 : 1 ≤ N) (h2 : N < 2 ^ 64) :
    TrialsFit (binary64 order) (.binomial N) ∧ TrialsFit (binary32 order) (.binomial N) := by
  have h3 : (N : ℝ) ≤ 2 ^ (64 : ℤ) := by exact_mod_cast h2.le
  exact ⟨binary_trials h1 (h3.trans (zpow_le_zpow_right₀ (by norm_num) (by norm_num))),
    binary_trials h1 (h3.trans (zpow_le_zpow_right₀ (by norm_num) (by norm_num)))⟩

/-- In `f64` and in `f32` the mean is a monotone function of the predictor. -/
theorem C83_mean_monotone_binary (fam : Family) (hfam : AnyPredictor fam)
    (hN : ∀ N, fam = .binomial N → 1 ≤ N ∧ N < 2 ^ 64) :
    (∀ w w' : Fl (binary64 order), ¬ w.isNaN → ¬ w'.isNaN → w.val ≤ w'.val →
      (fam.glm.link.funcInv w : Fl (binary64 order)).val ≤ (fam.glm.link.funcInv w' : Fl (binary64 order)).val) ∧
    (∀ w w' : Fl (binary32 order), ¬ w.isNaN → ¬ w'.isNaN → w.val ≤ w'.val →
      (fam.glm.link.funcInv w : Fl (binary32 order)).val ≤ (fam.glm.link.funcInv w' : Fl (binary32 order)).val) := by
  have ht : TrialsFit (binary64 order) fam ∧ TrialsFit (binary32 order) fam := by
    cases fam <;> first | exact ⟨trivial, trivial⟩ | exact C83_trials (hN _ rfl).1 (hN _ rfl).2
  exact ⟨fun w w' h h' hle => C83_mean_monotone binary_exp_mono binary_expm1_mono fam hfam ht.1 h h' hle,
    fun w w' h h' hle => C83_mean_monotone binary_exp_mono binary_expm1_mono fam hfam ht.2 h h' hle⟩

/-- In `f64` the log-likelihood of the complementary log-log model is not-a-number at every
predictor from `7` on. -/
theorem C83_cloglog_nan_binary64 {data : Dataset (Fl (binary64 order)) n p b}
    (beta : Vec (Fl (binary64 order)) (ncols b p)) (i : Fin n) (hy : data.y i = 1)
    (hw : ¬ (data.linearPredictorStd beta i).isNaN)
    (h7 : 7 ≤ (data.linearPredictorStd beta i).val) :
    (Family.logisticCloglog.glm.logLike data beta).isNaN := by
  refine C83_cloglog_nan beta i hy hw ?_
  have he7 : (1024 : ℝ) ≤ Real.exp 7 := by
    have h1 : (2.7 : ℝ) ≤ Real.exp 1 := by
      have := Real.exp_one_gt_d9; linarith
    have h2 : Real.exp 7 = Real.exp 1 ^ 7 := by rw [← Real.exp_nat_mul]; norm_num
    rw [h2]
    calc (1024 : ℝ) ≤ 2.7 ^ 7 := by norm_num
      _ ≤ _ := by gcongr
  have h1 : ((1024 : ℝ) : EReal) ≤ (binary64 order).exp (data.linearPredictorStd beta i).val := by
    have h2 : ((7 : ℝ) : EReal) ≤ (data.linearPredictorStd beta i).val := h7
    refine le_trans ?_ (binary_exp_mono h2)
    have h3 : roundBinary 53 (-1022) 1023 ((1024 : ℝ) : EReal) = ((1024 : ℝ) : EReal) := by
      have h4 : (1024 : ℝ) = 2 ^ (10 : ℤ) := by norm_num
      have h5 : (2 : ℝ) ^ (10 : ℤ) < 2 ^ ((1023 : ℤ) + 1) :=
        zpow_lt_zpow_right₀ (by norm_num) (by norm_num)
      have h6 : (0 : ℝ) < 2 ^ (10 : ℤ) := by positivity
      rw [h4, roundBinary_coe, roundBits_zpow (by norm_num) (by norm_num),
        if_neg (by linarith), if_neg (by linarith)]
    have h4 : ((1024 : ℝ) : EReal) ≤ eexp ((7 : ℝ) : EReal) := by
      rw [eexp_coe]; exact_mod_cast he7
    refine le_of_eq_of_le h3.symm ?_
    exact roundBinary_mono (by norm_num) h4
  rw [← top_le_iff]
  refine le_trans ?_ (binary_expm1_mono h1)
  change ⊤ ≤ (binary64 order).rnd (eexpm1 ((1024 : ℝ) : EReal))
  refine top_le_iff.mpr (binary_rnd_overflow ?_)
  rw [eexpm1_coe, EReal.coe_le_coe_iff]
  have h2 : (2.7 : ℝ) ≤ Real.exp 1 := by
    have := Real.exp_one_gt_d9; linarith
  have h3 : Real.exp 1024 = Real.exp 1 ^ 1024 := by rw [← Real.exp_nat_mul]; norm_num
  have h4 : (2 : ℝ) ^ 1024 + 1 ≤ 2.7 ^ 1024 := by
    have h5 : (2 : ℝ) ^ 1024 + 1 ≤ 2 ^ 1025 := by
      rw [pow_succ (2 : ℝ) 1024]
      have : (1 : ℝ) ≤ 2 ^ 1024 := one_le_pow₀ (by norm_num)
      generalize (2 : ℝ) ^ 1024 = A at this ⊢
      linarith
    refine h5.trans ?_
    calc (2 : ℝ) ^ 1025 ≤ 2 ^ 1024 * (2.7 / 2) ^ 1024 := by
          rw [pow_succ (2 : ℝ) 1024]
          refine mul_le_mul_of_nonneg_left ?_ (by positivity)
          calc (2 : ℝ) ≤ (2.7 / 2) ^ 3 := by norm_num
            _ ≤ _ := pow_le_pow_right₀ (by norm_num) (by norm_num)
      _ = 2.7 ^ 1024 := by rw [← mul_pow]; norm_num
  have h6 : (2.7 : ℝ) ^ 1024 ≤ Real.exp 1024 := by
    rw [h3]; exact pow_le_pow_left₀ (by norm_num) h2 _
  have h7 : (2 : ℝ) ^ ((1023 : ℤ) + 1) = 2 ^ 1024 := by norm_num
  rw [h7]
  exact le_sub_iff_add_le.mpr (h4.trans h6)

end

/-! ### The hypotheses are met -/

/-- One observation with the response `1`, and nothing but an intercept. -/
noncomputable def oneData : Dataset (Fl binary64) 1 0 true :=
  { y := fun _ => 1, x := fun _ _ => 1, linearOffset := none, weights := some fun _ => 1,
    freqs := some fun _ => 1, standardizer := none }

theorem oneData_predictor {a : ℝ} (h : binary64.rnd (a : EReal) = a) (h0 : a ≠ 0) (i : Fin 1) :
    oneData.linearPredictorStd (fun _ => num (a : EReal)) i = num (a : EReal) := by
  change 0 + 1 * num (a : EReal) = _
  rw [one_mul_num h h0, zero_add_num h h0]

theorem gt_self_false (x : Fl fmt) : gt x x = false := by
  rw [Bool.eq_false_iff, ne_eq, gt_iff]
  rintro ⟨-, -, h⟩
  exact lt_irrefl _ h

/-- A Poisson model in `f64`, with both kinds of weights, to which `C83_predict`,
`C83_information` and `C83_sums` apply. -/
example : ∃ f : Fit (Fl binary64) 1 0 true,
    regression threeEnv Family.poisson.glm oneData
      { maxIter := 10, tol := 0, l2 := 0, l1 := 0,
        initGuess := some fun _ => num (nearThree : EReal) } = .ok f ∧
    AnyPredictor .poisson ∧ TrialsFit binary64 .poisson ∧ WeightsNonneg oneData ∧
    oneData.standardizer = none ∧ gt (0 : Fl binary64) 0 = false := by
  obtain ⟨f, hf, -⟩ := regression_stays (env := threeEnv) (g := Family.poisson.glm)
    (data := oneData) (options := { maxIter := 10, tol := 0, l2 := 0, l1 := 0,
                                    initGuess := some fun _ => num (nearThree : EReal) })
    (v := fun _ => num (nearThree : EReal))
    (by unfold getReg; simp only [gt_self_false]; rfl) rfl
    (by
      unfold vecEq
      rw [List.all_eq_true]
      intro j _
      rw [eq_iff]
      exact ⟨not_false, not_false, rfl⟩)
  refine ⟨f, hf, trivial, trivial, ⟨?_, ?_⟩, rfl, gt_self_false _⟩
  all_goals
    rintro v ⟨⟩ i
    exact .inr zero_le_one

/-- A number, a negative number and a positive one, for the theorems on the inverse links. -/
example : ¬ (num ((-1 : ℝ) : EReal) : Fl binary64).isNaN ∧
    (num ((-1 : ℝ) : EReal) : Fl binary64).val < 0 ∧
    (1 : Fl binary64).within 0 (meanCap binary64 .logisticLogit) ∧
    (num ((-1 : ℝ) : EReal) : Fl binary64).val ≤ (1 : Fl binary64).val := by
  have h : ((-1 : ℝ) : EReal) < 0 := by
    have : (-1 : ℝ) < 0 := by norm_num
    exact_mod_cast this
  exact ⟨id, h, ⟨id, zero_le_one, le_rfl⟩, h.le.trans zero_le_one⟩

/-- Data and coefficients for `C83_logistic_likelihood`. -/
example : (∀ i, (oneData.y i).within 0 1) ∧ WeightsProper oneData ∧
    ∀ i, let w := oneData.linearPredictorStd (fun _ => num (nearThree : EReal)) i
      w.isFinite ∧ binary64.rnd w.val = w.val ∧ binary64.rnd (max w.val (-w.val) + 1) ≠ ⊤ := by
  have hn : nearThree ≠ 0 := by unfold nearThree; norm_num
  have h1 : (1 : Fl binary64).isFinite ∧ 0 < (1 : Fl binary64).val :=
    ⟨⟨id, ereal_one_ne_top, EReal.coe_ne_bot 1⟩, zero_lt_one⟩
  refine ⟨fun i => ⟨id, zero_le_one, le_rfl⟩, ⟨?_, ?_⟩, fun i => ?_⟩
  · rintro v ⟨⟩ i; exact h1
  · rintro v ⟨⟩ i; exact ⟨h1.1, h1.2.le⟩
  · dsimp only
    rw [oneData_predictor nearThree_rnd hn]
    refine ⟨⟨id, EReal.coe_ne_top _, EReal.coe_ne_bot _⟩, nearThree_rnd, fun h => ?_⟩
    have h2 : (max (nearThree : EReal) (-nearThree) + 1 : EReal) ≤ ((2 ^ (1023 : ℤ) : ℝ) : EReal) := by
      rw [← EReal.coe_neg, max_eq_left, ← EReal.coe_one, ← EReal.coe_add, EReal.coe_le_coe_iff]
      · have : (2 : ℝ) ^ (3 : ℤ) ≤ 2 ^ (1023 : ℤ) := zpow_le_zpow_right₀ (by norm_num) (by norm_num)
        have h8 : (2 : ℝ) ^ (3 : ℤ) = 8 := by norm_num
        unfold nearThree
        refine le_trans ?_ this
        rw [h8]; norm_num
      · rw [EReal.coe_le_coe_iff]; unfold nearThree; norm_num
    have h3 := binary_rnd_finite (bits := 53) (emin := -1022) (hp := by norm_num)
      (hmin := by norm_num) (hmax := by norm_num) (neg := false)
      (order := fun _ => SumOrder.left) h2
    change binary64.rnd _ ≤ _ at h3
    rw [val_num] at h
    rw [h, top_le_iff] at h3
    exact EReal.coe_ne_top _ h3

/-- Data and coefficients for `C83_cloglog_nan_binary64`. -/
example : oneData.y 0 = 1 ∧
    ¬ (oneData.linearPredictorStd (fun _ => num ((8 : ℝ) : EReal)) 0).isNaN ∧
    7 ≤ (oneData.linearPredictorStd (fun _ => num ((8 : ℝ) : EReal)) 0).val := by
  have h : binary64.rnd ((8 : ℝ) : EReal) = ((8 : ℝ) : EReal) := by
    rw [binary64_rnd 3 (2 ^ 52) (by norm_num) (by norm_num)]
    · congr 1; norm_num
    · norm_num
    · norm_num
    · refine roundEven_of_near ?_; norm_num
  rw [oneData_predictor h (by norm_num)]
  refine ⟨rfl, id, ?_⟩
  exact EReal.coe_le_coe_iff.mpr (show (7 : ℝ) ≤ 8 by norm_num)

end GLM
