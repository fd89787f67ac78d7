/-
  Building a data set in the arithmetic with not-a-number.
-/
import Verif.Lemmas.Strict
import Verif.Lemmas.Data

namespace GLM
open Scalar NReal Spec
variable {n p : ℕ}

theorem padded_strict (b : Bool) (x : Mat ℝ n p) :
    Dataset.padded b (Mat.strict x) = Mat.strict (Dataset.padded b x) := by
  cases b
  · rfl
  · funext i
    exact Dataset.cons_strict 1 (x i)

def Standardizer.strict (s : Standardizer ℝ p) : Standardizer NReal p :=
  { shifts := Vec.strict s.shifts, scales := Vec.strict s.scales }

/-- The effective number of observations exceeds one in both arithmetics or in neither. -/
theorem Dataset.strict_gt_nEff {b : Bool} (d : Dataset ℝ n p b) :
    gt d.strict.nEff 1 = gt d.nEff 1 := by
  by_cases h : ∀ w, d.weights = some w → d.freqSum (vmul w w) ≠ 0
  · rw [d.strict_nEff h]; rfl
  · push Not at h
    obtain ⟨w, hw, h0⟩ := h
    have e : d.strict.weights = some (Vec.strict w) := by
      have e : d.strict.weights = d.weights.map Vec.strict := rfl
      rw [e, hw]; rfl
    have h1 : d.strict.nEff = nan := by
      simp only [Dataset.nEff, e, vmul_strict, Dataset.strict_freqSum, mul_val, h0, div_val_zero]
    have h2 : d.nEff = 0 := by
      simp only [Dataset.nEff, hw, h0, div_zero]
    rw [h1, h2]
    have h3 : gt (0 : ℝ) 1 = false := by
      rw [← Bool.not_eq_true, gt_real]; norm_num
    rw [h3]; rfl

/-- If the effective number of observations exceeds one, the sum of the weights is not zero. -/
theorem Dataset.sumWeights_ne {b : Bool} {d : Dataset ℝ n p b} (h : gt d.nEff 1 = true) :
    vsum (d.applyTotalWeights (vfill 1)) ≠ 0 := by
  rw [gt_real] at h
  have hs : vsum (d.applyTotalWeights (vfill 1)) = ∑ i, totalWt d i := by
    rw [vsum_real]
    exact Finset.sum_congr rfl fun i _ => by rw [applyTotalWeights_real]; simp [vfill]
  rw [hs]
  intro h0
  unfold Dataset.nEff at h
  have hw : ∀ i, totalWt d i = freq d i * varWt d i := fun _ => rfl
  cases e : d.weights with
  | none =>
    rw [e] at h
    dsimp only at h
    rw [nObs_real] at h
    have : ∑ i, totalWt d i = ∑ i, freq d i := by
      refine Finset.sum_congr rfl fun i _ => ?_
      simp [totalWt, varWt, e]
    linarith
  | some w =>
    rw [e] at h
    dsimp only at h
    have : d.freqSum w = ∑ i, totalWt d i := by
      rw [freqSum_real]
      refine Finset.sum_congr rfl fun i _ => ?_
      simp [totalWt, varWt, e]
    rw [this, h0, zero_mul, zero_div] at h
    exact absurd h (by norm_num)

theorem scale_val (v : ℝ) : sqrt (if gt (val v) 0 = true then val v else 1)
    = val (sqrt (if gt v 0 = true then v else 1)) := by
  have h : gt (val v) 0 = gt v 0 := rfl
  rw [h, one_eq, ite_val]
  refine sqrt_val ?_
  split
  · rename_i h; rw [gt_real] at h; exact le_of_lt h
  · exact zero_le_one

theorem fromDataset_strict (raw : Dataset ℝ n p false) (b : Bool)
    (h1 : n = 1 → ∀ i, totalWt raw i ≠ 0) :
    Standardizer.fromDataset raw.strict b
      = (Standardizer.fromDataset raw b).map Standardizer.strict := by
  have hwt : raw.strict.applyTotalWeights (vfill 1)
      = Vec.strict (raw.applyTotalWeights (vfill 1)) := raw.strict_applyTotalWeights (vfill 1)
  have hx : raw.strict.x = Mat.strict raw.x := rfl
  unfold Standardizer.fromDataset
  dsimp only
  rw [hwt, vsum_strict, hx]
  set S := vsum (raw.applyTotalWeights (vfill 1)) with hS
  set w := raw.applyTotalWeights (vfill 1) with hw
  have hmeans : n = 0 ∨ S ≠ 0 → (if n = 0 then vzeros else fun j =>
      (vsum fun i => Vec.strict w i * Mat.strict raw.x i j) / val S : Vec NReal p)
      = Vec.strict (if n = 0 then vzeros else fun j => (vsum fun i => w i * raw.x i j) / S) := by
    intro hne
    split
    · rfl
    · rename_i h0
      funext j
      simp only [Vec.strict, Mat.strict, mul_val, vsum_val, div_val _ (hne.resolve_left h0)]
  have hshift : n = 0 ∨ S ≠ 0 → (if b = true then (if n = 0 then vzeros else fun j =>
      (vsum fun i => Vec.strict w i * Mat.strict raw.x i j) / val S : Vec NReal p) else vzeros)
      = Vec.strict (if b = true then
          (if n = 0 then vzeros else fun j => (vsum fun i => w i * raw.x i j) / S) else vzeros) := by
    intro hne
    rw [hmeans hne]
    split <;> rfl
  rw [raw.strict_gt_nEff]
  by_cases hn : n ≤ 1
  · have hne : n = 0 ∨ S ≠ 0 := by
      rcases Nat.le_one_iff_eq_zero_or_eq_one.mp hn with h | h
      · exact Or.inl h
      · right
        subst h
        rw [hS, vsum_real, Fin.sum_univ_one, hw, Dataset.applyTotalWeights_real]
        simpa [vfill] using h1 rfl 0
    simp only [if_pos hn, Option.map_some, Option.some.injEq, hshift hne]
    simp only [Standardizer.strict, Standardizer.mk.injEq, true_and]
    exact funext fun _ => scale_val 1
  · simp only [if_neg hn]
    cases hg : gt raw.nEff 1 with
    | false => rfl
    | true =>
      have hne : S ≠ 0 := Dataset.sumWeights_ne hg
      have hgt := hg
      rw [gt_real] at hgt
      have h2 : ∀ w, raw.weights = some w → raw.freqSum (vmul w w) ≠ 0 := by
        intro w hw h0
        simp only [Dataset.nEff, hw, h0, div_zero] at hgt
        exact absurd hgt (by norm_num)
      have h3 : raw.nEff - 1 ≠ 0 := (sub_pos.mpr hgt).ne'
      simp only [if_true, Option.map_some, Option.some.injEq, hshift (Or.inr hne)]
      simp only [Standardizer.strict, Standardizer.mk.injEq, true_and]
      funext j
      rw [hmeans (Or.inr hne), raw.strict_nEff h2]
      simp only [Vec.strict, Mat.strict, one_eq, sub_val, mul_val, vsum_val, div_val _ h3,
        div_val _ hne]
      exact scale_val _

/-- Building a data set gives the same data set. -/
theorem finalize_strict (raw : Dataset ℝ n p false) (std b : Bool)
    (h1 : std = true → n = 1 → ∀ i, totalWt raw i ≠ 0) :
    raw.strict.finalize std b = (raw.finalize std b).map Dataset.strict := by
  have hx : raw.strict.x = Mat.strict raw.x := rfl
  unfold Dataset.finalize
  cases std with
  | false =>
    simp only [Bool.false_eq_true, if_false, Option.map_some, Option.some.injEq, hx, padded_strict]
    rfl
  | true =>
    simp only [if_true, fromDataset_strict raw b (h1 rfl), Option.map_map]
    cases hs : Standardizer.fromDataset raw b with
    | none => rfl
    | some s =>
      have hne := Standardizer.fromDataset_scales_pos hs
      have ht : s.strict.transform (Mat.strict raw.x) = Mat.strict (s.transform raw.x) :=
        funext fun i => funext fun j => div_val _ (hne j).ne'
      simp only [Option.map_some, Function.comp, hx, ht, padded_strict]
      rfl

end GLM
