/-
  C11-C13: frequency weights count observations; variance weights are relative.
-/
import Verif.Lemmas.Reweight
import Verif.Spec.SameModel

namespace GLM
open Spec Matrix
variable {n m p : ℕ} {b : Bool}

namespace Spec.Reweights
variable {d : Dataset ℝ n p b} {d' : Dataset ℝ m p b} {r : Fin m → Fin n}

theorem deviance_eq (h : Reweights d d' r) {f : Fit ℝ n p b} {f' : Fit ℝ m p b}
    (hs : SamePoint f f') (hd : f.data = d) (hd' : f'.data = d') : f'.deviance = f.deviance := by
  subst hd hd'
  have hw : ∀ {l : ℕ} (e : Dataset ℝ l p b) (v : Vec ℝ l),
      e.freqSum (e.applyVarWeights v) = ∑ i, totalWt e i * v i :=
    fun e v => e.weightedSum_real v
  simp only [Fit.deviance, Fit.devianceTerms, hw]
  simp only [Glm.logLikeTerms, hs.g, hs.resultStd, h.linPred, h.y]
  exact h.sum_total fun i => (f.g.logLikeSat (f.data.y i) - f.g.logLikeNatural (f.data.y i)
    (f.g.link.natParam (f.data.linearPredictorStd f.resultStd i))) * Scalar.two

theorem sumLog_eq (h : Reweights d d' r) {f : Fit ℝ n p b} {f' : Fit ℝ m p b}
    (hd : f.data = d) (hd' : f'.data = d') : f'.sumLogWeights = f.sumLogWeights := by
  subst hd hd'
  simp only [Fit.sumLogWeights, Dataset.freqSum_real, Dataset.getVarianceWeights_real, h.varWt]
  exact h.sum_freq fun i => Scalar.ln (Spec.varWt f.data i)

theorem dispersion_eq (h : Reweights d d' r) {f : Fit ℝ n p b} {f' : Fit ℝ m p b}
    (hs : SamePoint f f') (hd : f.data = d) (hd' : f'.data = d') :
    f'.dispersion = f.dispersion := by
  have hdev := h.deviance_eq hs hd hd'
  subst hd hd'
  simp only [Fit.dispersion, hs.g, hdev, Fit.rank, h.nEff, h.sumWeights]
  cases f.g.dispersed <;> rfl

theorem fisherDataStd_eq (h : Reweights d d' r) {f : Fit ℝ n p b} {f' : Fit ℝ m p b}
    (hs : SamePoint f f') (hd : f.data = d) (hd' : f'.data = d') :
    f'.fisherDataStd = f.fisherDataStd := by
  subst hd hd'
  funext γ
  simp only [Fit.fisherDataStd]
  have : f'.g.adjustedVarianceDiag (f'.data.linearPredictorStd γ)
      = fun k => f.g.adjustedVarianceDiag (f.data.linearPredictorStd γ) (r k) := by
    funext k
    simp only [Glm.adjustedVarianceDiag, Glm.mean, hs.g, h.linPred]
  rw [this]
  exact h.xConj_dotM (f.g.adjustedVarianceDiag (f.data.linearPredictorStd γ))

theorem fisher_eq (h : Reweights d d' r) {f : Fit ℝ n p b} {f' : Fit ℝ m p b}
    (hs : SamePoint f f') (hd : f.data = d) (hd' : f'.data = d') : f'.fisher = f.fisher := by
  have h1 := h.fisherDataStd_eq hs hd hd'
  subst hd hd'
  funext β
  simp only [Fit.fisher, Fit.fisherStd, h1, h.transformBeta, h.inverseTransformFisher, hs.reg]

theorem score_eq (h : Reweights d d' r) {f : Fit ℝ n p b} {f' : Fit ℝ m p b}
    (hs : SamePoint f f') (hd : f.data = d) (hd' : f'.data = d') : f'.score = f.score := by
  subst hd hd'
  funext β
  simp only [Fit.score, h.transformBeta, h.inverseTransformScore, hs.reg, Glm.mean, vsub, hs.g,
    h.linPred, h.y]
  congr 2
  exact h.xConj_dotV fun i => f.g.link.adjustErrors (f.data.y i
    - f.g.link.funcInv (f.data.linearPredictorStd (f.data.transformBeta β) i))
    (f.data.linearPredictorStd (f.data.transformBeta β) i)

theorem step_eq (h : Reweights d d' r) (env : Env ℝ) (g : Glm ℝ)
    (options : FitOptions ℝ (ncols b p)) (s : Irls ℝ (ncols b p)) :
    (s.next env g d' options).1 = (s.next env g d options).1 ∧
    { (s.next env g d' options).2 with done := false }
      = { (s.next env g d options).2 with done := false } := by
  have hf : ∀ reg γ v, Irls.fStep g d' reg γ v = Irls.fStep g d reg γ v := by
    intro reg γ v; funext x; simp only [Irls.fStep, h.logLike]
  unfold Irls.next
  simp only [h.irlsMatVec, h.logLike, hf]
  split
  · exact ⟨rfl, rfl⟩
  · cases (s.reg.nextGuess env s.guess (Irls.irlsMatVec env.eps g d s.guess).2
      (Irls.irlsMatVec env.eps g d s.guess).1).2 with
    | error e => exact ⟨rfl, rfl⟩
    | ok v =>
      dsimp only
      split
      · exact ⟨rfl, rfl⟩
      · split
        · exact ⟨rfl, rfl⟩
        · generalize (smallDelta _ _ (options.tol * Scalar.ofNat m) && _) = c1
          generalize (smallDelta _ _ (options.tol * Scalar.ofNat n) && _) = c2
          have hsw : ∀ (t : Irls ℝ (ncols b p)) (mi : ℕ) w l, 
              (Irls.stepWith mi { t with done := true } w l).1 = (Irls.stepWith mi t w l).1 ∧
              { (Irls.stepWith mi { t with done := true } w l).2 with done := false }
                = { (Irls.stepWith mi t w l).2 with done := false } := by
            intro t mi w l
            simp only [Irls.stepWith]
            split <;> exact ⟨rfl, rfl⟩
          have hsw2 := fun t mi w l => And.intro (hsw t mi w l).1.symm (hsw t mi w l).2.symm
          cases c1 <;> cases c2
          · exact ⟨rfl, rfl⟩
          · simp only [if_true, Bool.false_eq_true, if_false]
            generalize Scalar.gt (_ : ℝ) _ = c3
            cases c3
            · simp only [Bool.false_eq_true, if_false]
              generalize stepScale env.fuel (_ : ℝ → ℝ) _ = q
              rcases q with _ | a
              · exact ⟨rfl, rfl⟩
              · dsimp only
                generalize Scalar.eq a 0 = c4
                cases c4
                · simp only [Bool.false_eq_true, if_false]
                  exact hsw2 _ _ _ _
                · exact ⟨rfl, rfl⟩
            · simp only [if_true]
              exact hsw2 _ _ _ _
          · simp only [if_true, Bool.false_eq_true, if_false]
            generalize Scalar.gt (_ : ℝ) _ = c3
            cases c3
            · simp only [Bool.false_eq_true, if_false]
              generalize stepScale env.fuel (_ : ℝ → ℝ) _ = q
              rcases q with _ | a
              · exact ⟨rfl, rfl⟩
              · dsimp only
                generalize Scalar.eq a 0 = c4
                cases c4
                · simp only [Bool.false_eq_true, if_false]
                  exact hsw { s with reg := (s.reg.nextGuess env s.guess (Irls.irlsMatVec env.eps g d s.guess).2
                (Irls.irlsMatVec env.eps g d s.guess).1).1 } _ _ _
                · exact ⟨rfl, rfl⟩
            · simp only [if_true]
              exact hsw { s with reg := (s.reg.nextGuess env s.guess (Irls.irlsMatVec env.eps g d s.guess).2
                (Irls.irlsMatVec env.eps g d s.guess).1).1 } _ _ _
          · exact ⟨rfl, rfl⟩

/-- Recounting observations does not change the model. -/
theorem sameModel (h : Reweights d d' r) : SameModel d d' where
  nObs := h.nObs
  nEff := h.nEff
  sumWeights := h.sumWeights
  standardizer := h.std
  logLike := h.logLike
  irls := h.irlsMatVec
  step := h.step_eq
  deviance f f' hs hd hd' := h.deviance_eq hs hd hd'
  dispersion f f' hs hd hd' := h.dispersion_eq hs hd hd'
  aic f f' hs hd hd' := by
    simp only [Fit.aic, h.deviance_eq hs hd hd', Fit.rank, h.sumLog_eq hd hd']
  bic f f' hs hd hd' := by
    have := h.sumLog_eq hd hd'
    subst hd hd'
    simp only [Fit.bic, Fit.rank, this, hs.modelLike, h.nObs]
  score f f' hs hd hd' := h.score_eq hs hd hd'
  fisher f f' hs hd hd' := h.fisher_eq hs hd hd'
  covariance env f f' hs hd hd' := by
    have h1 := h.fisher_eq hs hd hd'
    have h2 := h.fisherDataStd_eq hs hd hd'
    have h3 := h.dispersion_eq hs hd hd'
    subst hd hd'
    simp only [Fit.covariance, Fit.fisherInv, h1, h2, h3, h.inverseTransformFisher, hs.result,
      hs.resultStd]

/-! ### Building -/

theorem wMean_eq {raw : Dataset ℝ n p false} {raw' : Dataset ℝ m p false}
    (h : Reweights raw raw' r) (j : Fin p) : wMean raw' j = wMean raw j := by
  have h1 := h.sum_total fun i => (raw.x i j : ℝ)
  have h2 := h.sum_total fun _ => 1
  simp only [mul_one] at h2
  simp only [wMean, h.x, h1, h2]

theorem wVar_eq {raw : Dataset ℝ n p false} {raw' : Dataset ℝ m p false}
    (h : Reweights raw raw' r) (j : Fin p) : wVar raw' j = wVar raw j := by
  have h1 := h.sum_total fun i => (raw.x i j - wMean raw j) ^ 2
  have h2 := h.sum_total fun _ => 1
  simp only [mul_one] at h2
  simp only [wVar, h.x, h.wMean_eq, h1, h2, h.nEff]

theorem standardizer_eq {raw : Dataset ℝ n p false} {raw' : Dataset ℝ m p false}
    (h : Reweights raw raw' r) (hw : 0 < ∑ i, totalWt raw i) {s s' : Standardizer ℝ p}
    (hs : Standardizer.fromDataset raw b = some s)
    (hs' : Standardizer.fromDataset raw' b = some s') : s' = s := by
  have h2 := h.sum_total fun _ => 1
  simp only [mul_one] at h2
  obtain ⟨a1, a2⟩ := fromDataset_eq hw hs
  obtain ⟨c1, c2⟩ := fromDataset_eq (h2 ▸ hw) hs'
  cases s; cases s'
  simp only at a1 a2 c1 c2
  congr 1
  · funext j; rw [a1, c1, h.wMean_eq]
  · funext j; rw [a2, c2, h.wVar_eq]

/-- Recounted raw data build to recounted data. -/
theorem finalize {raw : Dataset ℝ n p false} {raw' : Dataset ℝ m p false}
    (h : Reweights raw raw' r) (hw : 0 < ∑ i, totalWt raw i) {std : Bool} {d : Dataset ℝ n p b}
    {d' : Dataset ℝ m p b} (hd : raw.finalize std b = some d) (hd' : raw'.finalize std b = some d') :
    Reweights d d' r := by
  have key : ∀ (t : Mat ℝ n p) (t' : Mat ℝ m p), (∀ k, t' k = t (r k)) →
      ∀ k, Dataset.padded b t' k = Dataset.padded b t (r k) := by
    intro t t' ht k
    cases b
    · exact ht k
    · simp only [Dataset.padded, onePad, ht]
  unfold Dataset.finalize at hd hd'
  cases std
  · simp only [Bool.false_eq_true, if_false, Option.some.injEq] at hd hd'
    subst hd hd'
    exact ⟨h.y, key _ _ h.x, h.offset, h.weights, h.freq, rfl⟩
  · simp only [if_true, Option.map_eq_some_iff] at hd hd'
    obtain ⟨s, hs, rfl⟩ := hd
    obtain ⟨s', hs', rfl⟩ := hd'
    have := h.standardizer_eq hw hs hs'
    subst this
    refine ⟨h.y, key _ _ ?_, h.offset, h.weights, h.freq, rfl⟩
    intro k
    funext j
    simp only [Standardizer.transform, h.x]

end Spec.Reweights

/-- A data set can be built if it has at most one row or more than one effective observation. -/
theorem finalize_isSome {raw : Dataset ℝ n p false} (std b : Bool) (h : n ≤ 1 ∨ 1 < raw.nEff) :
    ∃ d, raw.finalize std b = some d := by
  cases std
  · exact ⟨_, rfl⟩
  · simp only [Dataset.finalize, Standardizer.fromDataset, if_true]
    by_cases h1 : n ≤ 1
    · exact ⟨_, by rw [if_pos h1]; rfl⟩
    · have h2 := h.resolve_left h1
      exact ⟨_, by rw [if_neg h1, if_pos ((gt_real _ _).mpr h2)]; rfl⟩

/-- Conversely. -/
theorem nEff_of_finalize {raw : Dataset ℝ n p false} {b : Bool} {d : Dataset ℝ n p b}
    (h : raw.finalize true b = some d) : n ≤ 1 ∨ 1 < raw.nEff := by
  by_contra hc
  push Not at hc
  simp only [Dataset.finalize, Standardizer.fromDataset, if_true] at h
  have h2 : ¬ (Scalar.gt raw.nEff 1 = true) := by rw [gt_real]; exact not_lt.mpr hc.2
  rw [if_neg (not_le.mpr hc.1), if_neg h2] at h
  simp at h

/-! ### C11 -/

/-- Writing every row out as often as its frequency says is a recount. -/
theorem reweights_repeatRows (raw : Dataset ℝ n p b) {c : Fin n → ℕ}
    (hc : raw.freqs = some fun i => (c i : ℝ)) :
    Reweights raw (repeatRows raw c) fun k => (finSigmaFinEquiv.symm k).1 where
  y _ := rfl
  x _ := rfl
  offset := rfl
  weights := rfl
  std := rfl
  freq i := by
    have h1 : Spec.freq raw i = c i := by simp [Spec.freq, hc]
    have h2 : ∀ k, Spec.freq (repeatRows raw c) k = 1 := fun k => rfl
    rw [h1]
    simp only [h2, Finset.sum_const, nsmul_eq_mul, mul_one, Nat.cast_inj]
    rw [Finset.card_filter, ← (finSigmaFinEquiv (n := c)).sum_comp]
    simp only [Equiv.symm_apply_apply]
    rw [Fintype.sum_sigma, Finset.sum_eq_single i]
    · simp
    · intro k _ hk; simp [hk]
    · simp

/-- **C11**: integer frequencies are repeated rows.  If the user's data with frequencies `c` can be
built, so can the data with row `i` written out `c i` times and no frequencies, and the two are the
same model. -/
theorem C11_frequencies_are_repeats {raw : Dataset ℝ n p false} {c : Fin n → ℕ}
    (hc : raw.freqs = some fun i => (c i : ℝ)) (hw : 0 < ∑ i, totalWt raw i) {std : Bool}
    {d : Dataset ℝ n p b} (hd : raw.finalize std b = some d) :
    ∃ d', (repeatRows raw c).finalize std b = some d' ∧ SameModel d d' := by
  have hr := reweights_repeatRows raw hc
  have hex : ∃ d', (repeatRows raw c).finalize std b = some d' := by
    cases std
    · exact ⟨_, rfl⟩
    refine finalize_isSome true b ?_
    rw [hr.nEff]
    by_cases hm : ∑ i, c i ≤ 1
    · exact .inl hm
    refine .inr ?_
    rcases nEff_of_finalize hd with h1 | h1
    · have h0 : n = 1 := by
        rcases Nat.le_one_iff_eq_zero_or_eq_one.mp h1 with rfl | rfl
        · simp at hm
        · rfl
      subst h0
      rw [Fin.sum_univ_one] at hm hw
      push Not at hm
      have hf : freq raw 0 = c 0 := by simp [freq, hc]
      have hc0 : (1 : ℝ) < c 0 := by exact_mod_cast hm
      rw [Dataset.nEff_eq_of_sq_ne]
      · simp only [Fin.sum_univ_one, hf, totalWt]
        have hv : varWt raw 0 ≠ 0 := by
          intro h; simp [totalWt, h] at hw
        have : (↑(c 0) * varWt raw 0) ^ 2 / (↑(c 0) * varWt raw 0 ^ 2) = (c 0 : ℝ) := by
          field_simp
        linarith
      · simp only [Fin.sum_univ_one, hf]
        have hv : varWt raw 0 ≠ 0 := by
          intro h; simp [totalWt, h] at hw
        positivity
    · exact h1
  obtain ⟨d', hd'⟩ := hex
  exact ⟨d', hd', (hr.finalize hw hd hd').sameModel⟩

/-- The frequencies need not be integers: splitting a row into copies whose frequencies add up to
the original frequency changes nothing. -/
theorem C11_recount {raw : Dataset ℝ n p false} {raw' : Dataset ℝ m p false} {r : Fin m → Fin n}
    (h : Reweights raw raw' r) (hw : 0 < ∑ i, totalWt raw i) {std : Bool} {d : Dataset ℝ n p b}
    {d' : Dataset ℝ m p b} (hd : raw.finalize std b = some d) (hd' : raw'.finalize std b = some d') :
    SameModel d d' :=
  (h.finalize hw hd hd').sameModel

/-- C11 applies to the three observations with frequencies 1, 2, 1. -/
example (y : Vec ℝ 3) : ∃ (d : Dataset ℝ 3 1 true) (d' : Dataset ℝ (∑ i, ![1, 2, 1] i) 1 true),
    (exRaw y).finalize true true = some d ∧
    (repeatRows (exRaw y) ![1, 2, 1]).finalize true true = some d' ∧ SameModel d d' := by
  obtain ⟨d, hd⟩ := exRaw_finalize y true true
  obtain ⟨d', h1, h2⟩ := C11_frequencies_are_repeats (c := ![1, 2, 1])
    (by simp only [exRaw]; congr 1; funext i; fin_cases i <;> simp)
    (Finset.sum_pos (fun i _ => exRaw_totalWt_pos y i) Finset.univ_nonempty) hd
  exact ⟨d, d', hd, h1, h2⟩

/-! ### C12 -/

/-- Removing a row of frequency zero is a recount, read backwards. -/
theorem reweights_dropRow (raw : Dataset ℝ (n + 1) p b) {i : Fin (n + 1)} (hi : freq raw i = 0) :
    Reweights raw (dropRow raw i) i.succAbove where
  y _ := rfl
  x _ := rfl
  offset := rfl
  weights := rfl
  std := rfl
  freq k := by
    have h2 : ∀ k, Spec.freq (dropRow raw i) k = Spec.freq raw (i.succAbove k) := by
      intro k; simp only [Spec.freq, dropRow]; cases raw.freqs <;> rfl
    simp only [h2]
    by_cases hk : k = i
    · subst hk
      rw [hi]
      symm
      refine Finset.sum_eq_zero fun l hl => absurd (Finset.mem_filter.mp hl).2 (Fin.succAbove_ne _ _)
    · obtain ⟨l, rfl⟩ := Fin.exists_succAbove_eq hk
      rw [Finset.sum_eq_single l]
      · intro l' hl' hne
        exact absurd (Fin.succAbove_right_injective (Finset.mem_filter.mp hl').2) hne
      · intro hl
        simp at hl

/-- **C12**: a row of frequency zero is absent.  If the user's data can be built, so can the data
without that row, and the two are the same model. -/
theorem C12_zero_frequency_is_absent {raw : Dataset ℝ (n + 1) p false} {i : Fin (n + 1)}
    (hi : freq raw i = 0) (hw : 0 < ∑ k, totalWt raw k) {std : Bool} {d : Dataset ℝ (n + 1) p b}
    (hd : raw.finalize std b = some d) :
    ∃ d', (dropRow raw i).finalize std b = some d' ∧ SameModel d d' := by
  have hr := reweights_dropRow raw hi
  have hex : ∃ d', (dropRow raw i).finalize std b = some d' := by
    cases std
    · exact ⟨_, rfl⟩
    refine finalize_isSome true b ?_
    rw [hr.nEff]
    rcases nEff_of_finalize hd with h1 | h1
    · exact .inl (by omega)
    · exact .inr h1
  obtain ⟨d', hd'⟩ := hex
  exact ⟨d', hd', (hr.finalize hw hd hd').sameModel⟩

/-- Two rows, the second of frequency zero. -/
noncomputable def exZero : Dataset ℝ 2 1 false where
  y := ![1, 2]
  x := fun i _ => ![3, 5] i
  linearOffset := none
  weights := none
  freqs := some ![1, 0]
  standardizer := none

/-- The converse of C12 fails for building: the data without the row of frequency zero can be
standardized, the data with it cannot (`n_eff > 1` is asserted only when there are two rows). -/
theorem C12_build_not_conversely :
    exZero.finalize true true = none ∧ ∃ d, (dropRow exZero 1).finalize true true = some d := by
  constructor
  · by_contra h
    obtain ⟨d, hd⟩ := Option.ne_none_iff_exists'.mp h
    have := nEff_of_finalize hd
    simp [Dataset.nEff, Dataset.nObs, exZero] at this
  · exact finalize_isSome _ _ (.inl (le_refl 1))

/-- Four rows, the first of frequency zero. -/
noncomputable def exZero4 : Dataset ℝ 4 1 false where
  y := ![1, 2, 3, 5]
  x := fun i _ => ![3, 5, 7, 8] i
  linearOffset := none
  weights := none
  freqs := some ![0, 1, 2, 1]
  standardizer := none

/-- C12 applies to `exZero4`. -/
example (std b : Bool) : ∃ d : Dataset ℝ 4 1 b,
    freq exZero4 0 = 0 ∧ 0 < ∑ k, totalWt exZero4 k ∧ exZero4.finalize std b = some d := by
  obtain ⟨d, hd⟩ := finalize_isSome (raw := exZero4) std b
    (.inr (by simp [Dataset.nEff, Dataset.nObs, exZero4, Fin.sum_univ_four]; norm_num))
  refine ⟨d, ?_, ?_, hd⟩
  · simp [freq, exZero4]
  · simp [totalWt, freq, varWt, exZero4, Fin.sum_univ_four]; norm_num

end GLM
