/-
  C64: p-values.
-/
import Verif.Spec.Dists
import Verif.Lemmas.RealDists
import Verif.Lemmas.Seq
import Verif.Props.Hat
import Verif.Lemmas.Regression

namespace GLM
open Scalar
variable {n p : ℕ} {b : Bool} {env : Env ℝ} {ds : Dists ℝ} {f : Fit ℝ n p b}

namespace Dists.Lawful
variable (h : ds.Lawful)
include h

theorem chi2_le_one {ν c} (hc : ds.chi2 ν = some c) (x : ℝ) : c.2 x ≤ 1 := by
  rcases le_total x 0 with hx | hx
  · exact (h.chi2_zero hc x hx).le
  · rw [← h.chi2_zero hc 0 le_rfl]; exact h.chi2_anti hc hx

theorem f_le_one {d1 d2 sf} (hc : ds.fisherSnedecor d1 d2 = some sf) (x : ℝ) : sf x ≤ 1 := by
  rcases le_total x 0 with hx | hx
  · exact (h.f_zero hc x hx).le
  · rw [← h.f_zero hc 0 le_rfl]; exact h.f_anti hc hx

theorem t_le {ν sf} (hc : ds.studentT ν = some sf) {x : ℝ} (hx : 0 ≤ x) : 2 * sf x ≤ 1 := by
  have := h.t_anti hc hx
  rw [h.t_zero hc] at this
  linarith

theorem normal_le {x : ℝ} (hx : 0 ≤ x) : 2 * ds.normalSf x ≤ 1 := by
  have := h.normal_anti hx
  rw [h.normal_zero] at this
  linarith

end Dists.Lawful

/-! ### The likelihood-ratio test -/

/-- **C64**: `pvalue_lr_test` succeeds exactly if `lr_test` does, and is then a probability; it is 1
if the model has no more coefficients than the null model, or if the statistic is not positive. -/
theorem C64_lr (h : ds.Lawful) :
    ((∃ v, f.pvalueLrTest ds env = .ok v) ↔ ∃ s, f.lrTest env = .ok s) ∧
    ∀ s v, f.lrTest env = .ok s → f.pvalueLrTest ds env = .ok v →
      0 ≤ v ∧ v ≤ 1 ∧ (f.testNdf = 0 → v = 1) ∧ (s ≤ 0 → v = 1) := by
  have key : ∀ s, f.lrTest env = .ok s → ∃ v, f.pvalueLrTest ds env = .ok v ∧
      0 ≤ v ∧ v ≤ 1 ∧ (f.testNdf = 0 → v = 1) ∧ (s ≤ 0 → v = 1) := by
    intro s hs
    unfold Fit.pvalueLrTest
    rw [hs]
    by_cases h0 : f.testNdf = 0
    · refine ⟨1, ?_, by norm_num, le_rfl, fun _ => rfl, fun _ => rfl⟩
      simp [Outcome.bind, h0]
    · have hpos : (0 : ℝ) < ofNat f.testNdf := by
        simpa using Nat.pos_of_ne_zero h0
      obtain ⟨c, hc⟩ := (h.chi2_some _).mpr hpos
      refine ⟨c.2 s, ?_, h.chi2_nonneg hc _, h.chi2_le_one hc _, fun h' => absurd h' h0,
        h.chi2_zero hc s⟩
      simp only [Outcome.bind, h0, if_false, hc]; rfl
  refine ⟨⟨?_, fun ⟨s, hs⟩ => ?_⟩, ?_⟩
  · rintro ⟨v, hv⟩
    unfold Fit.pvalueLrTest at hv
    cases hs : f.lrTest env with
    | ok s => exact ⟨s, rfl⟩
    | err e => exact e.elim
    | panic => rw [hs] at hv; cases hv
    | diverge => rw [hs] at hv; cases hv
  · obtain ⟨v, hv, -⟩ := key s hs
    exact ⟨v, hv⟩
  · intro s v hs hv
    obtain ⟨v', hv', hr⟩ := key s hs
    rw [hv] at hv'
    cases hv'
    exact hr

/-- **C64**: of two fits with the same number of coefficients to test, the one with the larger
statistic has the smaller p-value. -/
theorem C64_lr_mono (h : ds.Lawful) {n' p' : ℕ} {b' : Bool} {f' : Fit ℝ n' p' b'} {env' : Env ℝ}
    {s s' v v' : ℝ} (hk : f.testNdf = f'.testNdf) (hs : f.lrTest env = .ok s)
    (hs' : f'.lrTest env' = .ok s') (hv : f.pvalueLrTest ds env = .ok v)
    (hv' : f'.pvalueLrTest ds env' = .ok v') (hle : s ≤ s') : v' ≤ v := by
  unfold Fit.pvalueLrTest at hv hv'
  rw [hs] at hv
  rw [hs', ← hk] at hv'
  simp only [Outcome.bind] at hv hv'
  split at hv
  · rename_i h0
    rw [if_pos h0] at hv'
    cases hv; cases hv'; exact le_rfl
  · rename_i h0
    rw [if_neg h0] at hv'
    cases hc : ds.chi2 (ofNat f.testNdf) with
    | none => rw [hc] at hv; cases hv
    | some c =>
      rw [hc] at hv hv'
      cases hv; cases hv'
      exact h.chi2_anti hc hle

/-! ### Wald -/

theorem waldZ_zero {z : Vec ℝ (ncols b p)} (hz : f.waldZ env = .ok z) {j : Fin (ncols b p)}
    (hj : f.result j = 0) : z j = 0 := by
  unfold Fit.waldZ at hz
  cases hc : f.covariance env with
  | error e => rw [hc] at hz; cases hz
  | ok c =>
    rw [hc] at hz
    cases hz
    simp [hj]

theorem pvalueWald_error {e : LinalgError} (hz : f.waldZ env = .error e) :
    f.pvalueWald ds env = .err e := by
  unfold Fit.pvalueWald; rw [hz]; rfl

theorem pvalueWald_fixed {z : Vec ℝ (ncols b p)} (hz : f.waldZ env = .ok z)
    (hdisp : f.g.dispersed = .none) :
    f.pvalueWald ds env = .ok fun j => 2 * ds.normalSf |z j| := by
  unfold Fit.pvalueWald; rw [hz, hdisp]
  simp only [Outcome.ofExcept, Outcome.bind, two_real, abs_real]

theorem pvalueWald_free {z : Vec ℝ (ncols b p)} (hz : f.waldZ env = .ok z)
    (hdisp : f.g.dispersed = .free) :
    f.pvalueWald ds env = match ds.studentT f.ndf with
      | some sf => .ok fun j => 2 * sf |z j|
      | none => .panic := by
  unfold Fit.pvalueWald; rw [hz, hdisp]
  cases ds.studentT f.ndf
  · rfl
  · simp only [Outcome.ofExcept, Outcome.bind, Outcome.map, Fit.unwrapDist, two_real, abs_real]

/-- **C64**: for families of fixed dispersion `pvalue_wald` succeeds exactly if `wald_z` does; each
p-value is a probability, 1 for a coefficient of zero, and decreasing in `|z|`. -/
theorem C64_wald_fixed (h : ds.Lawful) (hdisp : f.g.dispersed = .none) :
    ((∃ v, f.pvalueWald ds env = .ok v) ↔ ∃ z, f.waldZ env = .ok z) ∧
    ∀ z v, f.waldZ env = .ok z → f.pvalueWald ds env = .ok v →
      (∀ j, 0 ≤ v j ∧ v j ≤ 1 ∧ (f.result j = 0 → v j = 1)) ∧
      ∀ j k, |z j| ≤ |z k| → v k ≤ v j := by
  refine ⟨⟨?_, fun ⟨z, hz⟩ => ⟨_, pvalueWald_fixed hz hdisp⟩⟩, ?_⟩
  · rintro ⟨v, hv⟩
    cases hz : f.waldZ env with
    | ok z => exact ⟨z, rfl⟩
    | error e => rw [pvalueWald_error hz] at hv; cases hv
  · intro z v hz hv
    rw [pvalueWald_fixed hz hdisp] at hv
    cases hv
    refine ⟨fun j => ⟨mul_nonneg (by norm_num) (h.normal_nonneg _), h.normal_le (abs_nonneg _), ?_⟩, ?_⟩
    · intro hj
      show 2 * ds.normalSf |z j| = 1
      rw [waldZ_zero hz hj, abs_zero, h.normal_zero]; norm_num
    · intro j k hjk
      have := h.normal_anti hjk
      linarith

/-- **C64**: for families of free dispersion `pvalue_wald` panics if there are no more observations
than coefficients. -/
theorem C64_wald_free (h : ds.Lawful) (hdisp : f.g.dispersed = .free) :
    ((∃ v, f.pvalueWald ds env = .ok v) ↔ (∃ z, f.waldZ env = .ok z) ∧ 0 < f.ndf) ∧
    (f.pvalueWald ds env = .panic ↔ (∃ z, f.waldZ env = .ok z) ∧ f.ndf ≤ 0) ∧
    ∀ z v, f.waldZ env = .ok z → f.pvalueWald ds env = .ok v →
      (∀ j, 0 ≤ v j ∧ v j ≤ 1 ∧ (f.result j = 0 → v j = 1)) ∧
      ∀ j k, |z j| ≤ |z k| → v k ≤ v j := by
  cases hz : f.waldZ env with
  | error e => simp [pvalueWald_error hz]
  | ok z =>
    have hw := pvalueWald_free (ds := ds) hz hdisp
    by_cases hn : 0 < f.ndf
    · obtain ⟨sf, hsf⟩ := (h.t_some _).mpr hn
      simp only [hsf] at hw
      rw [hw]
      refine ⟨by simp [hn], by simp [hn], ?_⟩
      rintro z' v ⟨⟩ ⟨⟩
      refine ⟨fun j => ⟨mul_nonneg (by norm_num) (h.t_nonneg hsf _), h.t_le hsf (abs_nonneg _), ?_⟩, ?_⟩
      · intro hj
        show 2 * sf |z j| = 1
        rw [waldZ_zero hz hj, abs_zero, h.t_zero hsf]; norm_num
      · intro j k hjk
        have := h.t_anti hsf hjk
        linarith
    · have hsf : ds.studentT f.ndf = none := by
        cases hs : ds.studentT f.ndf with
        | none => rfl
        | some sf => exact absurd ((h.t_some _).mp ⟨sf, hs⟩) hn
      simp only [hsf] at hw
      rw [hw]
      refine ⟨by simp [hn], by simpa using hn, ?_⟩
      intro _ _ _ hv; cases hv

/-! ### Drop-one deviance -/

theorem pvalueExactAt_fixed {k : Fin (ncols b p)} {D : ℝ} (hD : f.devWithoutCovariate env k = .ok D)
    (hdisp : f.g.dispersed = .none) :
    f.pvalueExactAt ds env k = match ds.chi2 1 with
      | some c => .ok (1 - c.1 (D - f.deviance))
      | none => .panic := by
  unfold Fit.pvalueExactAt; rw [hD, hdisp]
  cases hc : ds.chi2 1 <;> simp only [Outcome.bind] <;> rfl

theorem pvalueExactAt_free {k : Fin (ncols b p)} {D : ℝ} (hD : f.devWithoutCovariate env k = .ok D)
    (hdisp : f.g.dispersed = .free) :
    f.pvalueExactAt ds env k = match ds.fisherSnedecor 1 f.ndf with
      | some sf => .ok (sf ((D - f.deviance) / f.dispersion))
      | none => .panic := by
  unfold Fit.pvalueExactAt; rw [hD, hdisp]
  cases hc : ds.fisherSnedecor 1 f.ndf <;> simp only [Outcome.bind] <;> rfl

theorem pvalueExactAt_ok {k : Fin (ncols b p)} {v : ℝ} (hv : f.pvalueExactAt ds env k = .ok v) :
    ∃ D, f.devWithoutCovariate env k = .ok D := by
  unfold Fit.pvalueExactAt at hv
  cases hD : f.devWithoutCovariate env k with
  | ok D => exact ⟨D, rfl⟩
  | err e => rw [hD] at hv; cases hv
  | panic => rw [hD] at hv; cases hv
  | diverge => rw [hD] at hv; cases hv

/-- **C64**: `pvalue_exact` returns probabilities; a column whose removal does not raise the deviance
has p-value 1, and of two columns the one whose removal raises the deviance more has the smaller
p-value. -/
theorem C64_exact (h : ds.Lawful) {v : Vec ℝ (ncols b p)} (hv : f.pvalueExact ds env = .ok v)
    (hφ : 0 ≤ f.dispersion) :
    ∃ D : Vec ℝ (ncols b p), (∀ k, f.devWithoutCovariate env k = .ok (D k)) ∧
      (∀ k, 0 ≤ v k ∧ v k ≤ 1 ∧ (D k ≤ f.deviance → v k = 1)) ∧
      ∀ j k, D j ≤ D k → v k ≤ v j := by
  have hall := seqOutcome_ok.mp hv
  choose D hD using fun k => pvalueExactAt_ok (hall k)
  refine ⟨D, hD, ?_⟩
  cases hdisp : f.g.dispersed with
  | none =>
    obtain ⟨c, hc⟩ := (h.chi2_some 1).mpr one_pos
    have hval : ∀ k, v k = c.2 (D k - f.deviance) := by
      intro k
      have h1 := pvalueExactAt_fixed (ds := ds) (hD k) hdisp
      simp only [hc] at h1
      rw [hall k] at h1
      rw [Outcome.ok.inj h1, h.chi2_sf hc]
    refine ⟨fun k => ?_, fun j k hjk => ?_⟩
    · rw [hval]
      exact ⟨h.chi2_nonneg hc _, h.chi2_le_one hc _, fun hk => h.chi2_zero hc _ (by linarith)⟩
    · rw [hval, hval]
      exact h.chi2_anti hc (by linarith)
  | free =>
    cases hc : ds.fisherSnedecor 1 f.ndf with
    | none =>
      have hno : ∀ k : Fin (ncols b p), False := by
        intro k
        have h1 := pvalueExactAt_free (ds := ds) (hD k) hdisp
        simp only [hc] at h1
        rw [hall k] at h1
        cases h1
      exact ⟨fun k => (hno k).elim, fun k => (hno k).elim⟩
    | some sf =>
      have hval : ∀ k, v k = sf ((D k - f.deviance) / f.dispersion) := by
        intro k
        have h1 := pvalueExactAt_free (ds := ds) (hD k) hdisp
        simp only [hc] at h1
        rw [hall k] at h1
        exact Outcome.ok.inj h1
      refine ⟨fun k => ?_, fun j k hjk => ?_⟩
      · rw [hval]
        exact ⟨h.f_nonneg hc _, h.f_le_one hc _, fun hk => h.f_zero hc _
          (div_nonpos_of_nonpos_of_nonneg (by linarith) hφ)⟩
      · rw [hval, hval]
        exact h.f_anti hc (div_le_div_of_nonneg_right (by linarith) hφ)

/-- **C64**: when `pvalue_exact` succeeds: every reduced fit succeeds and, for a free dispersion and
at least one coefficient, there are more observations than coefficients. -/
theorem C64_exact_iff (h : ds.Lawful) :
    (∃ v, f.pvalueExact ds env = .ok v) ↔
      (∀ k, ∃ D, f.devWithoutCovariate env k = .ok D) ∧
      (f.g.dispersed = .free → 0 < ncols b p → 0 < f.ndf) := by
  constructor
  · rintro ⟨v, hv⟩
    have hall := seqOutcome_ok.mp hv
    refine ⟨fun k => pvalueExactAt_ok (hall k), fun hdisp hpos => ?_⟩
    obtain ⟨D, hD⟩ := pvalueExactAt_ok (hall ⟨0, hpos⟩)
    have h1 := pvalueExactAt_free (ds := ds) hD hdisp
    rw [hall] at h1
    cases hc : ds.fisherSnedecor 1 f.ndf with
    | none => simp only [hc] at h1; cases h1
    | some sf => exact ((h.f_some _ _).mp ⟨sf, hc⟩).2
  · rintro ⟨hD, hn⟩
    choose D hD using hD
    cases hdisp : f.g.dispersed with
    | none =>
      obtain ⟨c, hc⟩ := (h.chi2_some 1).mpr one_pos
      refine ⟨fun k => 1 - c.1 (D k - f.deviance), seqOutcome_ok.mpr fun k => ?_⟩
      rw [pvalueExactAt_fixed (hD k) hdisp, hc]
    | free =>
      by_cases hpos : 0 < ncols b p
      · obtain ⟨sf, hc⟩ := (h.f_some 1 f.ndf).mpr ⟨one_pos, hn hdisp hpos⟩
        refine ⟨fun k => sf ((D k - f.deviance) / f.dispersion), seqOutcome_ok.mpr fun k => ?_⟩
        rw [pvalueExactAt_free (hD k) hdisp, hc]
      · exact ⟨fun _ => 0, seqOutcome_ok.mpr fun k => absurd (k.pos) hpos⟩

/-! ### Example -/

/-- The assumptions on the distributions hold for the textbook ones. -/
example : realDists.Lawful := realDists_lawful

/-- A fit with positive residual degrees of freedom and with Wald p-values. -/
example (std : Bool) : ∃ (d : Dataset ℝ 3 1 true) (f : Fit ℝ 3 1 true) (v : Vec ℝ 2),
    (exRaw ![0, 1, 4]).finalize std true = some d ∧
    regression (exactEnv 0 0) Family.linear.glm d (exOpts 0 0 none 1) = .ok f ∧
    f.g.dispersed = .free ∧ 0 < f.ndf ∧ f.pvalueWald realDists (exactEnv 0 0) = .ok v := by
  obtain ⟨d, f, hd, hf, -⟩ := exLinFit std
  have hg := Family.lawfulAdj Family.linear
  have he := exactEnv_exact (le_refl (0 : ℝ)) 0
  obtain ⟨cov, hcov⟩ := (C41_unregularized hg hd hf he le_rfl le_rfl).2.mpr
    (by rw [show Spec.fisherMat Family.linear.glm (exRaw ![0, 1, 4]) true f.result
      = Spec.gram (exRaw ![0, 1, 4]) true from lin_fisher _]; exact exRaw_gram_det _)
  have hgf : f.g = Family.linear.glm := (regression_coherent hf).1
  have hdisp : f.g.dispersed = .free := by rw [hgf]; rfl
  have hz : ∃ z, f.waldZ (exactEnv 0 0) = .ok z := by
    unfold Fit.waldZ; rw [hcov]; exact ⟨_, rfl⟩
  have hn : 0 < f.ndf := by
    have hs := regression_ofRaw hd hf
    rw [Fit.ndf, Fit.rank, hs.2.2.2.nObs, Spec.obsCount, Fin.sum_univ_three]
    simp [Spec.freq, exRaw]
  obtain ⟨v, hv⟩ := (C64_wald_free realDists_lawful hdisp).1.mpr ⟨hz, hn⟩
  exact ⟨d, f, v, hd, hf, hdisp, hn, hv⟩

end GLM
