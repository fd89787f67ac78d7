/-
  Properties C05-C08, C14: standardization of the design matrix and effective sample size, in
  exact arithmetic.  `raw` is the dataset assembled by `build()` from the user's arrays, `d` the
  dataset of the built model.
-/
import Verif.Lemmas.Data
import Verif.Spec.Stats
import Mathlib.Algebra.Order.BigOperators.Ring.Finset
import Mathlib.Algebra.BigOperators.Field

namespace GLM
open Spec
variable {n p : ℕ} {b : Bool}

/-! ### C14 -/

private theorem wsq_pos (d : Dataset ℝ n p b) (hf : ∀ i, 0 ≤ freq d i)
    (hs : 0 < ∑ i, totalWt d i) : 0 < ∑ i, freq d i * varWt d i ^ 2 := by
  by_contra hc
  have hnn : ∀ i ∈ Finset.univ, 0 ≤ freq d i * varWt d i ^ 2 :=
    fun i _ => mul_nonneg (hf i) (sq_nonneg _)
  have h0 : ∑ i, freq d i * varWt d i ^ 2 = 0 :=
    le_antisymm (not_lt.mp hc) (Finset.sum_nonneg hnn)
  rw [Finset.sum_eq_zero_iff_of_nonneg hnn] at h0
  have : ∑ i, totalWt d i = 0 := by
    refine Finset.sum_eq_zero fun i hi => ?_
    have := h0 i hi
    rcases mul_eq_zero.mp this with h | h
    · simp [totalWt, h]
    · simp [totalWt, pow_eq_zero_iff (two_ne_zero) |>.mp h]
  linarith

/-- C14: with non-negative frequencies and a positive total weight, the effective sample size is
`(Σ f w)² / Σ f w²`, is positive, at most the number of observations `Σ f`, and equal to it
exactly when the variance weights agree on all observations with positive frequency. -/
theorem C14_n_eff (d : Dataset ℝ n p b) (hf : ∀ i, 0 ≤ freq d i) (hs : 0 < ∑ i, totalWt d i) :
    d.nEff = (∑ i, freq d i * varWt d i) ^ 2 / ∑ i, freq d i * varWt d i ^ 2 ∧
    d.nObs = ∑ i, freq d i ∧
    0 < d.nEff ∧ d.nEff ≤ d.nObs ∧
    (d.nEff = d.nObs ↔ ∃ c, ∀ i, 0 < freq d i → varWt d i = c) := by
  have h2 := wsq_pos d hf hs
  have he := d.nEff_eq_of_sq_ne h2.ne'
  have hsum : ∑ i, totalWt d i = ∑ i, freq d i * varWt d i := rfl
  rw [hsum] at he hs
  set S0 := ∑ i, freq d i with hS0
  set S1 := ∑ i, freq d i * varWt d i with hS1
  set S2 := ∑ i, freq d i * varWt d i ^ 2 with hS2
  -- the variance identity behind Cauchy-Schwarz
  have key : ∑ i, freq d i * (S2 - S1 * varWt d i) ^ 2 = S2 * (S0 * S2 - S1 ^ 2) := by
    have : ∀ i, freq d i * (S2 - S1 * varWt d i) ^ 2
        = S2 ^ 2 * freq d i - 2 * S1 * S2 * (freq d i * varWt d i)
          + S1 ^ 2 * (freq d i * varWt d i ^ 2) := fun i => by ring
    simp only [this, Finset.sum_add_distrib, Finset.sum_sub_distrib, ← Finset.mul_sum]
    rw [← hS0, ← hS1, ← hS2]; ring
  have hnn : ∀ i ∈ Finset.univ, 0 ≤ freq d i * (S2 - S1 * varWt d i) ^ 2 :=
    fun i _ => mul_nonneg (hf i) (sq_nonneg _)
  have hle : S1 ^ 2 ≤ S0 * S2 := by
    have := Finset.sum_nonneg hnn
    rw [key] at this
    have := nonneg_of_mul_nonneg_right this h2
    linarith
  refine ⟨he, d.nObs_real, ?_, ?_, ?_⟩
  · rw [he]; positivity
  · rw [he, d.nObs_real, div_le_iff₀ h2]; exact hle
  · rw [he, d.nObs_real, div_eq_iff h2.ne', ← hS0]
    constructor
    · intro heq
      refine ⟨S2 / S1, fun i hi => ?_⟩
      have hz : ∑ i, freq d i * (S2 - S1 * varWt d i) ^ 2 = 0 := by
        rw [key, heq]; ring
      rw [Finset.sum_eq_zero_iff_of_nonneg hnn] at hz
      have := hz i (Finset.mem_univ i)
      rcases mul_eq_zero.mp this with h | h
      · exact absurd h hi.ne'
      · have := pow_eq_zero_iff (two_ne_zero) |>.mp h
        field_simp; linarith
    · rintro ⟨c, hc⟩
      have hterm : ∀ i, freq d i * varWt d i = c * freq d i := by
        intro i
        rcases (hf i).eq_or_lt with h | h
        · simp [← h]
        · rw [hc i h]; ring
      have h1 : S1 = c * S0 := by
        rw [hS1, hS0, Finset.mul_sum]; exact Finset.sum_congr rfl fun i _ => hterm i
      have h3 : S2 = c ^ 2 * S0 := by
        rw [hS2, hS0, Finset.mul_sum]
        refine Finset.sum_congr rfl fun i _ => ?_
        have := hterm i
        calc freq d i * varWt d i ^ 2 = freq d i * varWt d i * varWt d i := by ring
          _ = c * (freq d i * varWt d i) := by rw [this, mul_assoc, this]
          _ = c ^ 2 * freq d i := by rw [this]; ring
      rw [h1, h3]; ring

/-- A dataset with genuinely different weights for which the bound is strict. -/
example : ∃ d : Dataset ℝ 2 0 false, (∀ i, 0 ≤ freq d i) ∧ 0 < ∑ i, totalWt d i ∧
    d.nEff < d.nObs := by
  refine ⟨⟨fun _ => 0, fun _ _ => 0, none, some ![1, 3], none, none⟩, ?_, ?_, ?_⟩
  · intro i; simp [freq]
  · simp [totalWt, freq, varWt]; norm_num
  · simp [Dataset.nEff, Dataset.nObs, Dataset.freqSum, Dataset.applyFreqWeights, vmul]; norm_num

/-! ### C05 -/

/-- The scale factors and shifts in closed form. -/
private theorem fromDataset_real (raw : Dataset ℝ n p false) (icpt : Bool) {s : Standardizer ℝ p}
    (h : Standardizer.fromDataset raw icpt = some s) :
    (∀ j, s.shifts j = if icpt then (∑ i, totalWt raw i * raw.x i j) / ∑ i, totalWt raw i else 0) ∧
    (2 ≤ n → 1 < raw.nEff ∧ ∀ j, ∃ v,
      v = (∑ i, totalWt raw i *
        (raw.x i j - (∑ i, totalWt raw i * raw.x i j) / ∑ i, totalWt raw i) ^ 2)
          / (∑ i, totalWt raw i) * (raw.nEff / (raw.nEff - 1)) ∧
      s.scales j = Real.sqrt (if 0 < v then v else 1)) ∧
    (n ≤ 1 → ∀ j, s.scales j = 1) := by
  unfold Standardizer.fromDataset at h
  dsimp only at h
  rw [Option.map_eq_some_iff] at h
  obtain ⟨vars, hv, rfl⟩ := h
  simp only [vsum_real, Dataset.applyTotalWeights_real, vfill, mul_one, gt_real] at hv ⊢
  refine ⟨?_, ?_, ?_⟩
  · intro j
    cases icpt
    · simp [vzeros]
    · by_cases hn : n = 0
      · subst hn; simp [vzeros]
      · simp [hn]
  · intro hn
    have h1 : ¬ n ≤ 1 := by omega
    have h0 : n ≠ 0 := by omega
    simp only [h1, h0, if_false] at hv
    split at hv
    · rename_i hne
      refine ⟨hne, fun j => ⟨_, rfl, ?_⟩⟩
      simp only [Option.some.injEq] at hv
      subst hv
      simp only [sqrt_real, sq, gt_iff_lt]
    · simp at hv
  · intro hn j
    simp only [hn, if_true, Option.some.injEq] at hv
    subst hv
    simp [vfill]

/-- The effective number of observations the code computes is the one of the specification. -/
theorem nEff_eq_effCount (raw : Dataset ℝ n p false) : raw.nEff = effCount raw := by
  unfold Dataset.nEff effCount
  cases hw : raw.weights with
  | none =>
    have : ∀ i, varWt raw i = 1 := fun i => by simp [varWt, hw]
    simp only [this, mul_one, one_pow, Dataset.nObs_real]
    by_cases h0 : ∑ i, freq raw i = 0
    · simp [h0]
    · field_simp
  | some w =>
    have : ∀ i, varWt raw i = w i := fun i => by simp [varWt, hw]
    simp only [this, Dataset.freqSum_real, vmul, sq]

/-- C05: after a default build with an intercept, for non-negative weights with a positive total,
every feature column of the internal design matrix has total-weighted mean zero; its bias-corrected
total-weighted variance is one, unless the input column is constant on the observations with
positive weight, in which case it is zero on all of them. -/
theorem C05_standardized_columns {raw : Dataset ℝ n p false} {d : Dataset ℝ n p true}
    (h : raw.finalize true true = some d)
    (hw : ∀ i, 0 ≤ totalWt raw i) (hs : 0 < ∑ i, totalWt raw i) (j : Fin p) :
    ∑ i, totalWt raw i * d.x i (Fin.succ j : Fin (p + 1)) = 0 ∧
    ((∃ c, ∀ i, 0 < totalWt raw i → raw.x i j = c) →
      ∀ i, 0 < totalWt raw i → d.x i (Fin.succ j : Fin (p + 1)) = 0) ∧
    ((¬ ∃ c, ∀ i, 0 < totalWt raw i → raw.x i j = c) →
      (∑ i, totalWt raw i * d.x i (Fin.succ j : Fin (p + 1)) ^ 2) / (∑ i, totalWt raw i)
        * (effCount raw / (effCount raw - 1)) = 1) := by
  rw [← nEff_eq_effCount]
  obtain ⟨-, -, -, -, h⟩ := Dataset.finalize_cases h
  rcases h with ⟨h, -⟩ | ⟨-, s, hs0, hs1, hx⟩
  · cases h
  obtain ⟨hsh, hsc, hsc1⟩ := fromDataset_real raw true hs0
  have hpos := Standardizer.fromDataset_scales_pos hs0 j
  have hval : ∀ i, d.x i (Fin.succ j : Fin (p + 1)) = (raw.x i j - s.shifts j) / s.scales j := by
    intro i; rw [hx]; rfl
  simp only [if_true] at hsh
  set W := ∑ i, totalWt raw i with hW
  set m := s.shifts j with hm
  set c := s.scales j with hc
  have hmW : m * W = ∑ i, totalWt raw i * raw.x i j := by
    rw [hm, hsh j]; field_simp
  simp only [hval]
  refine ⟨?_, ?_, ?_⟩
  · have : ∀ i, totalWt raw i * ((raw.x i j - m) / c)
        = (totalWt raw i * raw.x i j - m * totalWt raw i) / c := fun i => by ring
    simp only [this]
    rw [← Finset.sum_div, Finset.sum_sub_distrib, ← Finset.mul_sum, ← hmW, ← hW]
    simp
  · rintro ⟨k, hk⟩ i hi
    have : m = k := by
      have : ∑ i, totalWt raw i * raw.x i j = k * W := by
        rw [hW, Finset.mul_sum]
        refine Finset.sum_congr rfl fun i _ => ?_
        rcases (hw i).eq_or_lt with h | h
        · simp [← h]
        · rw [hk i h]; ring
      rw [this] at hmW
      exact mul_right_cancel₀ hs.ne' hmW
    rw [hk i hi, this]; simp
  · intro hnc
    have hn : 2 ≤ n := by
      by_contra hlt
      apply hnc
      by_cases h0 : n = 0
      · subst h0; exact ⟨0, fun i => i.elim0⟩
      · have : n = 1 := by omega
        subst this
        exact ⟨raw.x 0 j, fun i _ => by rw [Subsingleton.elim i 0]⟩
    obtain ⟨hne, hv⟩ := hsc hn
    obtain ⟨v, hv, hvc⟩ := hv j
    rw [← hsh j, ← hm] at hv
    have hbias : 0 < raw.nEff / (raw.nEff - 1) := div_pos (by linarith) (by linarith)
    have hvar : 0 < ∑ i, totalWt raw i * (raw.x i j - m) ^ 2 := by
      by_contra hcc
      have hnn : ∀ i ∈ Finset.univ, 0 ≤ totalWt raw i * (raw.x i j - m) ^ 2 :=
        fun i _ => mul_nonneg (hw i) (sq_nonneg _)
      have hz := le_antisymm (not_lt.mp hcc) (Finset.sum_nonneg hnn)
      rw [Finset.sum_eq_zero_iff_of_nonneg hnn] at hz
      apply hnc
      refine ⟨m, fun i hi => ?_⟩
      rcases mul_eq_zero.mp (hz i (Finset.mem_univ i)) with h | h
      · exact absurd h hi.ne'
      · have := pow_eq_zero_iff (two_ne_zero) |>.mp h
        linarith
    have hvpos : 0 < v := by rw [hv]; positivity
    rw [if_pos hvpos] at hvc
    have hc2 : c ^ 2 = v := by rw [hc, hvc, Real.sq_sqrt hvpos.le]
    have : ∀ i, totalWt raw i * ((raw.x i j - m) / c) ^ 2
        = (totalWt raw i * (raw.x i j - m) ^ 2) / v := fun i => by
      rw [div_pow, hc2]; ring
    simp only [this]
    rw [← Finset.sum_div]
    have hne' := hvpos.ne'
    calc _ = (∑ i, totalWt raw i * (raw.x i j - m) ^ 2) / W * (raw.nEff / (raw.nEff - 1)) / v := by
          ring
      _ = 1 := by rw [← hv]; field_simp

/-- C05: the standardizing build panics exactly when there are at least two observations and the
effective sample size does not exceed one; otherwise it succeeds. -/
theorem C05_panic_iff (raw : Dataset ℝ n p false) (icpt : Bool) :
    (raw.finalize true icpt = none ↔ 2 ≤ n ∧ effCount raw ≤ 1) ∧
    raw.finalize false icpt ≠ none := by
  rw [← nEff_eq_effCount]
  refine ⟨?_, by simp [Dataset.finalize]⟩
  simp only [Dataset.finalize, if_true, Option.map_eq_none_iff, Standardizer.fromDataset]
  by_cases hn : n ≤ 1
  · simp [hn]
  · have : 2 ≤ n := by omega
    by_cases h1 : raw.nEff ≤ 1
    · simp [hn, h1, this]
    · simp [hn, h1, not_le.mp h1]

/-- A build with unequal weights and a varying column to which C05 applies. -/
example : ∃ (raw : Dataset ℝ 3 1 false) (d : Dataset ℝ 3 1 true),
    raw.finalize true true = some d ∧ (∀ i, 0 ≤ totalWt raw i) ∧ 0 < ∑ i, totalWt raw i ∧
    ¬ ∃ c, ∀ i, 0 < totalWt raw i → raw.x i 0 = c := by
  let raw : Dataset ℝ 3 1 false :=
    ⟨fun _ => 0, fun i _ => ![1, 2, 4] i, none, some ![1, 2, 1], none, none⟩
  have hne : raw.nEff = 16 / 6 := by
    simp [raw, Dataset.nEff, Dataset.freqSum, Dataset.applyFreqWeights, vmul, Fin.sum_univ_succ]
    norm_num
  have hsome : raw.finalize true true ≠ none := by
    rw [Ne, (C05_panic_iff raw true).1, ← nEff_eq_effCount, hne]; norm_num
  obtain ⟨d, hd⟩ := Option.ne_none_iff_exists'.mp hsome
  refine ⟨raw, d, hd, ?_, ?_, ?_⟩
  · intro i; fin_cases i <;> simp [raw, totalWt, freq, varWt]
  · simp [raw, totalWt, freq, varWt, Fin.sum_univ_succ]; norm_num
  · rintro ⟨c, hc⟩
    have h0 := hc 0 (by simp [raw, totalWt, freq, varWt])
    have h1 := hc 1 (by simp [raw, totalWt, freq, varWt])
    simp [raw] at h0 h1
    linarith

/-! ### C06 -/

/-- C06: without an intercept, every internal feature column is the input column divided by a
positive factor (one if standardization is off); in particular zeros stay zero. -/
theorem C06_no_centring {raw : Dataset ℝ n p false} {std : Bool} {d : Dataset ℝ n p false}
    (h : raw.finalize std false = some d) :
    ∃ c : Fin p → ℝ, (∀ j, 0 < c j) ∧ (std = false → ∀ j, c j = 1) ∧
      ∀ (i : Fin n) (j : Fin p), d.x i j = raw.x i j / c j ∧ (raw.x i j = 0 → d.x i j = 0) := by
  obtain ⟨-, -, -, -, h⟩ := Dataset.finalize_cases h
  rcases h with ⟨hf, hx, -⟩ | ⟨ht, s, hs0, -, hx⟩
  · refine ⟨fun _ => 1, fun _ => one_pos, fun _ _ => rfl, fun i j => ?_⟩
    have : d.x i j = raw.x i j := by rw [hx]; rfl
    rw [this]; simp
  · refine ⟨s.scales, Standardizer.fromDataset_scales_pos hs0, by simp [ht], fun i j => ?_⟩
    have : d.x i j = (raw.x i j - s.shifts j) / s.scales j := by rw [hx]; rfl
    rw [this, Standardizer.fromDataset_shifts hs0 j]; simp +contextual

/-! ### C07 -/

/-- C07: for every built model the original features are recovered from the internal design
matrix, and the two coefficient transformations are inverse to each other. -/
theorem C07_lossless {raw : Dataset ℝ n p false} {std : Bool} {d : Dataset ℝ n p b}
    (h : raw.finalize std b = some d) :
    d.xOrig = raw.x ∧ Matrix.of d.xExt = design b raw.x ∧
    (∀ β, d.inverseTransformBeta (d.transformBeta β) = β) ∧
    (∀ β, d.transformBeta (d.inverseTransformBeta β) = β) :=
  ⟨Dataset.finalize_xOrig h, Dataset.finalize_xExt h,
   (Dataset.finalize_wf h).inverseTransformBeta_transformBeta,
   (Dataset.finalize_wf h).transformBeta_inverseTransformBeta⟩

/-! ### C08 -/

/-- C08: for every built model and external coefficients `β`, the internal linear predictor at the
transformed coefficients is the user's linear predictor `X β + offset`; conversely for internal
coefficients. -/
theorem C08_linear_predictor {raw : Dataset ℝ n p false} {std : Bool} {d : Dataset ℝ n p b}
    (h : raw.finalize std b = some d) (i : Fin n) :
    (∀ β, d.linearPredictorStd (d.transformBeta β) i = linPred raw b β i) ∧
    (∀ γ, d.linearPredictorStd γ i = linPred raw b (d.inverseTransformBeta γ) i) := by
  refine ⟨fun β => Dataset.finalize_linPred h β i, fun γ => ?_⟩
  rw [← Dataset.finalize_linPred h, (Dataset.finalize_wf h).transformBeta_inverseTransformBeta]

end GLM
