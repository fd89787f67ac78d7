/-
  C71: with an L2 penalty the optimum exists, is unique, and the score of a fit bounds its distance
  from it.
-/
import Verif.Props.Ascent

namespace GLM
open Spec Matrix
variable {n p : ℕ} {b : Bool} {env : Env ℝ} {raw : Dataset ℝ n p false} {std : Bool}
  {d : Dataset ℝ n p b} {options : FitOptions ℝ (ncols b p)} {fam : Family} {f : Fit ℝ n p b}

/-- The penalized log-likelihood is strongly concave in the standardized slopes. -/
theorem penLogLik_strong (hc : Spec.Concave fam raw) {l1 l2 : ℝ} (hl2 : 0 < l2) {σ : Fin p → ℝ}
    (hσ : ∀ j, 0 < σ j) {β β' : Vec ℝ (ncols b p)} (hβ : Admissible fam raw b β)
    (hβ' : Admissible fam raw b β') :
    penLogLik fam.glm raw b l1 l2 σ β' + l2 / 2 * ∑ j, (σ j * (slopes b β' j - slopes b β j)) ^ 2
      ≤ penLogLik fam.glm raw b l1 l2 σ β
        + penScore fam.glm raw b l1 l2 σ β ⬝ᵥ (β' - β) := by
  have h1 := penLogLik_gap (raw := raw) (fam := fam) l1 l2 hσ β β'
  have h2 := Finset.sum_nonneg fun i (_ : i ∈ Finset.univ) => gapAt_nonneg hc hβ hβ' i
  have hs : slopes b (β' - β) = slopes b β' - slopes b β := by cases b <;> rfl
  rw [quad_ridge, hs, max_eq_left hl2.le] at h1
  have e : ∑ j, l2 * σ j ^ 2 * (slopes b β' - slopes b β) j ^ 2
      = l2 * ∑ j, (σ j * (slopes b β' j - slopes b β j)) ^ 2 := by
    rw [Finset.mul_sum]
    exact Finset.sum_congr rfl fun j _ => by rw [Pi.sub_apply]; ring
  rw [e] at h1
  linarith

/-- Product with a vector that has no intercept component. -/
theorem slopes_dot {s x : Vec ℝ (ncols b p)} (h : s = onSlopes b (slopes b s)) :
    s ⬝ᵥ x = ∑ j, slopes b s j * slopes b x j := by
  rw [h, onSlopes_dot _ (slopes b x) x rfl]
  cases b <;> rfl

theorem score_gap (hc : Spec.Concave fam raw) (hd : raw.finalize std b = some d)
    (hl2 : 0 < options.l2) (h : regression env fam.glm d options = .ok f)
    (ha : Admissible fam raw b f.result)
    (hi : f.score f.result = onSlopes b (slopes b (f.score f.result)))
    {β : Vec ℝ (ncols b p)} (hβ : Admissible fam raw b β) :
    penLogLik fam.glm raw b options.l1 options.l2 (scale d) β
      + options.l2 / 2 * ∑ j, (scale d j * (slopes b β j - slopes b f.result j)) ^ 2
      ≤ penLogLik fam.glm raw b options.l1 options.l2 (scale d) f.result
        + ∑ j, slopes b (f.score f.result) j / scale d j
          * (scale d j * (slopes b β j - slopes b f.result j)) := by
  have hσ := Dataset.scale_pos hd
  have h1 := penLogLik_strong (l1 := options.l1) hc hl2 hσ ha hβ
  have hsc : f.score f.result
      = penScore fam.glm raw b options.l1 options.l2 (scale d) f.result := by
    obtain ⟨hg, rfl, rfl, hf⟩ := regression_ofRaw hd h
    rw [Fit.score_ext hd (by rw [hg]; exact Family.lawfulAdj fam) hf.same, hg]
  rw [← hsc, slopes_dot hi] at h1
  have hs : slopes b (β - f.result) = slopes b β - slopes b f.result := by cases b <;> rfl
  rw [hs] at h1
  refine h1.trans_eq (congrArg _ (Finset.sum_congr rfl fun j _ => ?_))
  have := (hσ j).ne'
  rw [Pi.sub_apply]
  field_simp

/-- **C71** (suboptimality).  Concave family, L2 strength `l2 > 0`, with or without L1 and
standardization: no admissible coefficients beat the result of a fit by more than
`Σ_j (score_j / σ_j)² / (2 l2)`, where `score` is what the fit reports at its result and `σ_j` are
the scales of the features.  With an intercept its component of the score must be zero. -/
theorem C71_suboptimality (hc : Spec.Concave fam raw) (hd : raw.finalize std b = some d)
    (hl2 : 0 < options.l2) (h : regression env fam.glm d options = .ok f)
    (ha : Admissible fam raw b f.result)
    (hi : f.score f.result = onSlopes b (slopes b (f.score f.result)))
    {β : Vec ℝ (ncols b p)} (hβ : Admissible fam raw b β) :
    penLogLik fam.glm raw b options.l1 options.l2 (scale d) β
      ≤ penLogLik fam.glm raw b options.l1 options.l2 (scale d) f.result
        + (∑ j, (slopes b (f.score f.result) j / scale d j) ^ 2) / (2 * options.l2) := by
  have h1 := score_gap hc hd hl2 h ha hi hβ
  have h2 : ∑ j, slopes b (f.score f.result) j / scale d j
        * (scale d j * (slopes b β j - slopes b f.result j))
      ≤ (∑ j, (slopes b (f.score f.result) j / scale d j) ^ 2) / (2 * options.l2)
        + options.l2 / 2 * ∑ j, (scale d j * (slopes b β j - slopes b f.result j)) ^ 2 := by
    rw [Finset.sum_div, Finset.mul_sum, ← Finset.sum_add_distrib]
    refine Finset.sum_le_sum fun j _ => ?_
    generalize slopes b (f.score f.result) j / scale d j = u
    generalize scale d j * (slopes b β j - slopes b f.result j) = v
    have : u ^ 2 / (2 * options.l2) + options.l2 / 2 * v ^ 2 - u * v
        = (u - options.l2 * v) ^ 2 / (2 * options.l2) := by field_simp; ring
    have : 0 ≤ (u - options.l2 * v) ^ 2 / (2 * options.l2) := by positivity
    linarith
  linarith

/-- **C71** (distance).  In the same setting, every admissible coefficient vector at least as good as
the result, in particular the optimum, is within `2 ‖score / σ‖ / l2` of it in standardized slopes. -/
theorem C71_distance (hc : Spec.Concave fam raw) (hd : raw.finalize std b = some d)
    (hl2 : 0 < options.l2) (h : regression env fam.glm d options = .ok f)
    (ha : Admissible fam raw b f.result)
    (hi : f.score f.result = onSlopes b (slopes b (f.score f.result)))
    {β : Vec ℝ (ncols b p)} (hβ : Admissible fam raw b β)
    (hge : penLogLik fam.glm raw b options.l1 options.l2 (scale d) f.result
      ≤ penLogLik fam.glm raw b options.l1 options.l2 (scale d) β) :
    ∑ j, (scale d j * (slopes b β j - slopes b f.result j)) ^ 2
      ≤ 4 * (∑ j, (slopes b (f.score f.result) j / scale d j) ^ 2) / options.l2 ^ 2 := by
  have h1 := score_gap hc hd hl2 h ha hi hβ
  have h2 : ∑ j, slopes b (f.score f.result) j / scale d j
        * (scale d j * (slopes b β j - slopes b f.result j))
      ≤ (∑ j, (slopes b (f.score f.result) j / scale d j) ^ 2) / options.l2
        + options.l2 / 4 * ∑ j, (scale d j * (slopes b β j - slopes b f.result j)) ^ 2 := by
    rw [Finset.sum_div, Finset.mul_sum, ← Finset.sum_add_distrib]
    refine Finset.sum_le_sum fun j _ => ?_
    generalize slopes b (f.score f.result) j / scale d j = u
    generalize scale d j * (slopes b β j - slopes b f.result j) = v
    have : u ^ 2 / options.l2 + options.l2 / 4 * v ^ 2 - u * v
        = (2 * u - options.l2 * v) ^ 2 / (4 * options.l2) := by field_simp; ring
    have : 0 ≤ (2 * u - options.l2 * v) ^ 2 / (4 * options.l2) := by positivity
    linarith
  have h3 : options.l2 / 4 * ∑ j, (scale d j * (slopes b β j - slopes b f.result j)) ^ 2
      ≤ (∑ j, (slopes b (f.score f.result) j / scale d j) ^ 2) / options.l2 := by linarith
  rw [le_div_iff₀ hl2] at h3
  rw [le_div_iff₀ (by positivity)]
  linarith

/-- **C71** (existence).  Without an intercept, for a concave family in which every linear predictor
is admissible, the penalized log-likelihood with `l2 > 0` has exactly one maximizer, whatever the
data: perfectly separated or collinear data included. -/
theorem C71_exists (hc : Spec.Concave fam raw) (hdom : predDom fam = Set.univ) {l1 l2 : ℝ}
    (hl2 : 0 < l2) {σ : Fin p → ℝ} (hσ : ∀ j, 0 < σ j) :
    ∃! βs : Vec ℝ (ncols false p), ∀ β,
      penLogLik fam.glm raw false l1 l2 σ β ≤ penLogLik fam.glm raw false l1 l2 σ βs := by
  have hadm : ∀ β, Admissible fam raw false β := fun β i => hdom ▸ Set.mem_univ _
  have hstrong := fun β β' : Vec ℝ (ncols false p) =>
    penLogLik_strong (b := false) (l1 := l1) hc hl2 hσ (hadm β) (hadm β')
  simp only [slopes] at hstrong
  set L : (Fin p → ℝ) → ℝ := penLogLik fam.glm raw false l1 l2 σ with hL
  have hcont : Continuous L := by
    have h1 : Continuous (logLik fam.glm raw false) := continuous_iff_continuousAt.mpr fun β =>
      (logLik_isGradientAt hc.valid (hadm β) : HasFDerivAt _ _ _).continuousAt
    have h2 : Continuous (penalty l1 l2 σ false) := by
      unfold penalty
      simp only [slopes]
      fun_prop
    exact h1.sub h2
  obtain ⟨βs, hβs⟩ : ∃ x, ∀ y, L y ≤ L x := by
    refine hcont.exists_forall_ge' 0 (Filter.mem_cocompact.mpr ?_)
    set s := penScore fam.glm raw false l1 l2 σ 0
    set t : Fin p → ℝ := fun j => s j / (l2 * σ j) with ht
    refine ⟨Set.pi Set.univ fun k => Set.Icc ((t k - √(∑ j, t j ^ 2)) / σ k)
      ((t k + √(∑ j, t j ^ 2)) / σ k), isCompact_univ_pi fun k => isCompact_Icc, ?_⟩
    intro β hβ
    by_contra hgt
    simp only [Set.mem_ofPred_eq, not_le] at hgt
    apply hβ
    have h1 := hstrong 0 β
    have h2 : s ⬝ᵥ (β - 0) = ∑ j, s j * β j := by simp [dotProduct]
    have h3 : ∑ j, (σ j * β j - t j) ^ 2 < ∑ j, t j ^ 2 := by
      have e : ∑ j, (σ j * β j - t j) ^ 2 = ∑ j, (σ j * β j) ^ 2 - 2 / l2 * ∑ j, s j * β j
          + ∑ j, t j ^ 2 := by
        rw [Finset.mul_sum, ← Finset.sum_sub_distrib, ← Finset.sum_add_distrib]
        refine Finset.sum_congr rfl fun j _ => ?_
        have := (hσ j).ne'
        simp only [ht]
        field_simp
        ring
      have h4 : l2 / 2 * ∑ j, (σ j * β j) ^ 2 < ∑ j, s j * β j := by
        have h5 : ∑ j, (σ j * (β j - (0 : Fin p → ℝ) j)) ^ 2 = ∑ j, (σ j * β j) ^ 2 := by simp
        have h6 : L β + l2 / 2 * ∑ j, (σ j * β j) ^ 2 ≤ L 0 + ∑ j, s j * β j := by
          rw [← h2, ← h5]; exact h1
        linarith
      have h5 : ∑ j, (σ j * β j) ^ 2 < 2 / l2 * ∑ j, s j * β j := by
        rw [div_mul_eq_mul_div, lt_div_iff₀ hl2]; linarith
      rw [e]; linarith
    intro k _
    have h4 : (σ k * β k - t k) ^ 2 ≤ ∑ j, t j ^ 2 :=
      (Finset.single_le_sum (f := fun j => (σ j * β j - t j) ^ 2) (fun j _ => sq_nonneg _)
        (Finset.mem_univ k)).trans h3.le
    have h5 := abs_le.mp (Real.abs_le_sqrt h4)
    rw [Set.mem_Icc, div_le_iff₀ (hσ k), le_div_iff₀ (hσ k)]
    constructor <;> linarith [h5.1, h5.2]
  refine ⟨βs, hβs, fun β' hβ' => ?_⟩
  have heq : L β' = L βs := le_antisymm (hβs β') (hβ' βs)
  set m : Fin p → ℝ := (1 / 2 : ℝ) • (β' + βs) with hm
  have h1 := hstrong m β'
  have h2 := hstrong m βs
  have e : penScore fam.glm raw false l1 l2 σ m ⬝ᵥ (β' - m)
      = -(penScore fam.glm raw false l1 l2 σ m ⬝ᵥ (βs - m)) := by
    rw [← dotProduct_neg]
    congr 1
    funext j
    simp only [hm, Pi.sub_apply, Pi.neg_apply, Pi.smul_apply, Pi.add_apply, smul_eq_mul]
    ring
  have h3 := hβs m
  have h4 : 0 ≤ ∑ j, (σ j * (βs j - m j)) ^ 2 := Finset.sum_nonneg fun j _ => sq_nonneg _
  have h5 : 0 ≤ ∑ j, (σ j * (β' j - m j)) ^ 2 := Finset.sum_nonneg fun j _ => sq_nonneg _
  have h6 : ∑ j, (σ j * (β' j - m j)) ^ 2 = 0 := by
    have : l2 / 2 * (∑ j, (σ j * (βs j - m j)) ^ 2 + ∑ j, (σ j * (β' j - m j)) ^ 2) ≤ 0 := by
      change L β' + _ ≤ L m + _ at h1
      change L βs + _ ≤ L m + _ at h2
      rw [e] at h1
      linarith
    have : ∑ j, (σ j * (βs j - m j)) ^ 2 + ∑ j, (σ j * (β' j - m j)) ^ 2 ≤ 0 := by
      by_contra hcon
      push Not at hcon
      have := mul_pos (by linarith : 0 < l2 / 2) hcon
      linarith
    linarith
  rw [Finset.sum_eq_zero_iff_of_nonneg fun j _ => sq_nonneg _] at h6
  funext j
  have h7 := h6 j (Finset.mem_univ j)
  have h8 : β' j - m j = 0 := by
    have := pow_eq_zero_iff (two_ne_zero) |>.mp h7
    exact (mul_eq_zero.mp this).resolve_left (hσ j).ne'
  simp only [hm, Pi.smul_apply, Pi.add_apply, smul_eq_mul] at h8
  linarith

/-! ### Concrete cases -/

/-- Logistic regression of perfectly separated responses: the ridge optimum exists and is unique. -/
example (l2 : ℝ) (hl2 : 0 < l2) : ∃! βs : Vec ℝ (ncols false 1), ∀ β,
    penLogLik Family.logisticLogit.glm (exRaw ![0, 1, 1]) false 0 l2 (fun _ => 1) β
      ≤ penLogLik Family.logisticLogit.glm (exRaw ![0, 1, 1]) false 0 l2 (fun _ => 1) βs :=
  C71_exists (fam := .logisticLogit) ⟨trivial, trivial, Or.inl trivial, fun i => (exRaw_totalWt_pos _ i).le⟩ rfl hl2
    fun _ => one_pos

/-- A ridge logistic fit of the same data, standardized or not, and the bound it comes with. -/
example (std : Bool) (init : Option (Vec ℝ (ncols false 1))) : ∃ d tol f,
    (exRaw ![0, 1, 1]).finalize std false = some d ∧
    regression (exactEnv (1 / 1000) 7) Family.logisticLogit.glm d
      { exOpts 0 2 init 9 with tol := tol } = .ok f ∧
    ∀ β, penLogLik Family.logisticLogit.glm (exRaw ![0, 1, 1]) false 0 2 (scale d) β
      ≤ penLogLik Family.logisticLogit.glm (exRaw ![0, 1, 1]) false 0 2 (scale d) f.result
        + (∑ j, (f.score f.result j / scale d j) ^ 2) / (2 * 2) := by
  obtain ⟨d, hd⟩ := exRaw_finalize ![0, 1, 1] std false
  have he : (exactEnv (1 / 1000) 7).Exact := exactEnv_exact (by norm_num) 7
  obtain ⟨tol, -, f, hf⟩ := exists_tolerance_ok (env := exactEnv (1 / 1000) 7)
    (g := Family.logisticLogit.glm) (d := d) (options := exOpts 0 2 init 9) le_rfl (by norm_num)
    (by norm_num [ncols]) (by norm_num [exactEnv]) (by norm_num [exOpts]) fun tol =>
    C30_families .logisticLogit trivial he hd le_rfl (by norm_num [exactEnv])
      (fun i => (exRaw_totalWt_pos _ i).le) (Or.inl ⟨by norm_num [exOpts], by simp⟩)
  exact ⟨d, tol, f, hd, hf, fun β => C71_suboptimality (fam := .logisticLogit)
    (options := { exOpts 0 2 init 9 with tol := tol })
    ⟨trivial, trivial, Or.inl trivial, fun i => (exRaw_totalWt_pos _ i).le⟩ hd
    (by norm_num [exOpts]) hf (fun _ => trivial) rfl fun _ => trivial⟩

end GLM
