/-
  Existence of maxima: a function that decays along every direction of a subspace attains its
  maximum there; growth bounds for the log-likelihood of one observation.
-/
import Verif.Spec.Existence
import Verif.Lemmas.Concave
import Verif.Lemmas.Saturation
import Mathlib.Topology.Algebra.Module.FiniteDimension

namespace GLM
open Spec Set

/-- A continuous function on a closed part of a subspace that is bounded by a constant minus a positive
homogeneous function attains its maximum. -/
theorem exists_max_of_decayOn {κ : Type*} [Fintype κ] (L : Submodule ℝ (κ → ℝ)) {S : Set (κ → ℝ)}
    (hS : IsClosed S) (hSL : ∀ z ∈ S, z ∈ L) (hS0 : S.Nonempty) {G N : (κ → ℝ) → ℝ}
    (hG : ContinuousOn G S) (hN : Continuous N) (hom : ∀ c : ℝ, 0 ≤ c → ∀ z, N (c • z) = c * N z)
    (pos : ∀ z ∈ L, z ≠ 0 → 0 < N z) {M : ℝ} (hle : ∀ z ∈ S, G z ≤ M - N z) :
    ∃ z ∈ S, ∀ z' ∈ S, G z' ≤ G z := by
  have hL : IsClosed (L : Set (κ → ℝ)) := L.closed_of_finiteDimensional
  have hN0 : N 0 = 0 := by simpa using hom 0 le_rfl 0
  obtain ⟨δ, hδ, hb⟩ : ∃ δ : ℝ, 0 < δ ∧ ∀ z ∈ L, δ * ‖z‖ ≤ N z := by
    have hS : IsCompact (Metric.sphere (0 : κ → ℝ) 1 ∩ L) := (isCompact_sphere 0 1).inter_right hL
    rcases (Metric.sphere (0 : κ → ℝ) 1 ∩ L).eq_empty_or_nonempty with he | hne
    · refine ⟨1, one_pos, fun z hz => ?_⟩
      by_cases h0 : z = 0
      · simp [h0, hN0]
      · exfalso
        have : ‖z‖⁻¹ • z ∈ Metric.sphere (0 : κ → ℝ) 1 ∩ L := by
          refine ⟨?_, L.smul_mem _ hz⟩
          simp [norm_smul, norm_ne_zero_iff.mpr h0]
        rw [he] at this
        exact this
    · obtain ⟨u, hu, hmin⟩ := hS.exists_isMinOn hne hN.continuousOn
      have hu0 : u ≠ 0 := by
        rintro rfl
        simpa using hu.1
      refine ⟨N u, pos u hu.2 hu0, fun z hz => ?_⟩
      by_cases h0 : z = 0
      · simp [h0, hN0]
      · have hz0 : 0 < ‖z‖ := norm_pos_iff.mpr h0
        have h1 : N u ≤ N (‖z‖⁻¹ • z) := hmin ⟨by simp [norm_smul, hz0.ne'], L.smul_mem _ hz⟩
        rw [hom _ (inv_nonneg.mpr hz0.le)] at h1
        calc N u * ‖z‖ ≤ (‖z‖⁻¹ * N z) * ‖z‖ := mul_le_mul_of_nonneg_right h1 hz0.le
          _ = N z := by field_simp
  obtain ⟨z₀, hz₀⟩ := hS0
  have hK : IsCompact (Metric.closedBall (0 : κ → ℝ) (max ‖z₀‖ ((M - G z₀) / δ)) ∩ S) :=
    (isCompact_closedBall _ _).inter_right hS
  have hK0 : z₀ ∈ Metric.closedBall (0 : κ → ℝ) (max ‖z₀‖ ((M - G z₀) / δ)) ∩ S :=
    ⟨by simp, hz₀⟩
  obtain ⟨z, hz, hmax⟩ := hK.exists_isMaxOn ⟨z₀, hK0⟩ (hG.mono Set.inter_subset_right)
  refine ⟨z, hz.2, fun z' hz' => ?_⟩
  by_cases hin : ‖z'‖ ≤ max ‖z₀‖ ((M - G z₀) / δ)
  · exact hmax ⟨by simpa using hin, hz'⟩
  · push Not at hin
    have hin' := (le_max_right _ _).trans_lt hin
    rw [div_lt_iff₀ hδ] at hin'
    have h1 := hle z' hz'
    have h2 := hb z' (hSL z' hz')
    have h3 : G z₀ ≤ G z := hmax hK0
    linarith

/-- The same on a whole subspace. -/
theorem exists_max_of_decay {κ : Type*} [Fintype κ] (L : Submodule ℝ (κ → ℝ)) {G N : (κ → ℝ) → ℝ}
    (hG : Continuous G) (hN : Continuous N) (hom : ∀ c : ℝ, 0 ≤ c → ∀ z, N (c • z) = c * N z)
    (pos : ∀ z ∈ L, z ≠ 0 → 0 < N z) {M : ℝ} (hle : ∀ z, G z ≤ M - N z) :
    ∃ z ∈ L, ∀ z' ∈ L, G z' ≤ G z :=
  exists_max_of_decayOn L L.closed_of_finiteDimensional (fun _ h => h) ⟨0, L.zero_mem⟩
    hG.continuousOn hN hom pos fun z _ => hle z

theorem exists_mean_above {fam : Family} {y : ℝ}
    (hy : y ∈ yDom fam) (ht : ¬ AtTop fam y) : ∃ μ ∈ meanDom fam, y < μ := by
  cases fam with
  | linear => exact ⟨y + 1, trivial, by linarith⟩
  | logisticLogit | logisticCloglog =>
    have h1 : y < 1 := lt_of_le_of_ne hy.2 ht
    have h0 : 0 ≤ y := hy.1
    exact ⟨(y + 1) / 2, ⟨by linarith, by linarith⟩, by linarith⟩
  | binomial N =>
    have h1 : y < N := lt_of_le_of_ne hy.2 ht
    have h0 : 0 ≤ y := hy.1
    exact ⟨(y + N) / 2, ⟨by linarith, by linarith⟩, by linarith⟩
  | poisson =>
    have h0 : 0 ≤ y := hy
    exact ⟨y + 1, show (0 : ℝ) < y + 1 by linarith, by linarith⟩
  | exponentialLog | gammaLog | invGaussLog | exponentialNegRec | gammaNegRec | invGaussNegRecSq =>
    have h0 : 0 < y := hy
    exact ⟨y + 1, show (0 : ℝ) < y + 1 by linarith, by linarith⟩

theorem exists_mean_below {fam : Family} {y : ℝ}
    (hy : y ∈ yDom fam) (ht : ¬ AtBottom fam y) : ∃ μ ∈ meanDom fam, μ < y := by
  cases fam with
  | linear => exact ⟨y - 1, trivial, by linarith⟩
  | logisticLogit | logisticCloglog =>
    have h1 : y ≤ 1 := hy.2
    have h0 : 0 < y := lt_of_le_of_ne hy.1 (Ne.symm ht)
    exact ⟨y / 2, ⟨by linarith, by linarith⟩, by linarith⟩
  | binomial N =>
    have h1 : y ≤ N := hy.2
    have h0 : 0 < y := lt_of_le_of_ne hy.1 (Ne.symm ht)
    exact ⟨y / 2, ⟨by linarith, by linarith⟩, by linarith⟩
  | poisson =>
    have h0 : 0 < y := lt_of_le_of_ne hy (Ne.symm ht)
    exact ⟨y / 2, show (0 : ℝ) < y / 2 by linarith, by linarith⟩
  | exponentialLog | gammaLog | invGaussLog | exponentialNegRec | gammaNegRec | invGaussNegRecSq =>
    have h0 : 0 < y := hy
    exact ⟨y / 2, show (0 : ℝ) < y / 2 by linarith, by linarith⟩

/-- The log-likelihood of one observation decays at least linearly towards the ends at which the
response does not lie. -/
theorem logLikeAt_decay {fam : Family} (hv : ValidFamily fam) (hc : ConcavePair fam)
    (hd : predDom fam = univ) {y : ℝ} (hy : y ∈ yDom fam) (o : ℝ) :
    ∃ C a c : ℝ, 0 ≤ a ∧ 0 ≤ c ∧ (¬ AtTop fam y → 0 < a) ∧ (¬ AtBottom fam y → 0 < c) ∧
      ∀ t, (fam.glm (F := ℝ)).logLikeNatural y ((fam.glm (F := ℝ)).link.natParam (t + o))
        ≤ C - (a * max t 0 + c * max (-t) 0) := by
  have hall : ∀ t : ℝ, t ∈ predDom fam := fun t => hd ▸ mem_univ t
  set l := fun t => (fam.glm (F := ℝ)).logLikeNatural y ((fam.glm (F := ℝ)).link.natParam (t + o))
    with hl
  have hsat : ∀ t, l t ≤ (fam.glm (F := ℝ)).logLikeSat y := fun t =>
    logLikeNatural_le_sat fam hv hy (natParam_mem fam (hall _))
  have htan : ∀ μ ∈ meanDom fam, ∃ k m : ℝ, 0 < m ∧ ∀ t, l t ≤ k + m * (y - μ) * t := by
    intro μ hμ
    have hw := func_mem fam hμ
    have h1 := funcInv_func fam hμ
    refine ⟨(fam.glm (F := ℝ)).logLikeNatural y
        ((fam.glm (F := ℝ)).link.natParam ((fam.glm (F := ℝ)).link.func μ))
        + (fam.glm (F := ℝ)).link.dNatParam ((fam.glm (F := ℝ)).link.func μ) * (y - μ)
          * (o - (fam.glm (F := ℝ)).link.func μ), _, dNatParam_pos fam
        ((fam.glm (F := ℝ)).link.func μ), fun t => ?_⟩
    have h2 := logLikeAt_tangent_le fam hv hc (Or.inr hy) (hall (t + o)) hw
    rw [h1] at h2
    refine h2.trans (le_of_eq ?_)
    ring
  have hup : ∃ C a : ℝ, 0 ≤ a ∧ (¬ AtTop fam y → 0 < a) ∧ ∀ t, l t ≤ C - a * t := by
    by_cases ht : AtTop fam y
    · exact ⟨_, 0, le_rfl, fun h => absurd ht h, fun t => by simpa using hsat t⟩
    · obtain ⟨μ, hμ, hlt⟩ := exists_mean_above hy ht
      obtain ⟨k, m, hm, h⟩ := htan μ hμ
      have : 0 < m * (μ - y) := mul_pos hm (by linarith)
      exact ⟨k, m * (μ - y), this.le, fun _ => this, fun t => (h t).trans (le_of_eq (by ring))⟩
  have hdown : ∃ C c : ℝ, 0 ≤ c ∧ (¬ AtBottom fam y → 0 < c) ∧ ∀ t, l t ≤ C + c * t := by
    by_cases ht : AtBottom fam y
    · exact ⟨_, 0, le_rfl, fun h => absurd ht h, fun t => by simpa using hsat t⟩
    · obtain ⟨μ, hμ, hlt⟩ := exists_mean_below hy ht
      obtain ⟨k, m, hm, h⟩ := htan μ hμ
      have : 0 < m * (y - μ) := mul_pos hm (by linarith)
      exact ⟨k, m * (y - μ), this.le, fun _ => this, fun t => h t⟩
  obtain ⟨C, a, ha, hat, hC⟩ := hup
  obtain ⟨C', c, hc', hct, hC'⟩ := hdown
  refine ⟨max C C', a, c, ha, hc', hat, hct, fun t => ?_⟩
  rcases le_total 0 t with h | h
  · rw [max_eq_left h, max_eq_right (by linarith : -t ≤ 0)]
    linarith [hC t, le_max_left C C']
  · rw [max_eq_right h, max_eq_left (by linarith : 0 ≤ -t)]
    linarith [hC' t, le_max_right C C']

end GLM
