/-
  C89: which coefficients a penalty keeps.
-/
import Verif.Props.Compare
import Verif.Props.Gradient

namespace GLM
open Spec Matrix Filter Topology
variable {n p : ℕ} {b : Bool} {env envn : Env ℝ} {raw : Dataset ℝ n p false} {std : Bool}
  {d : Dataset ℝ n p b} {options : FitOptions ℝ (ncols b p)} {f : Fit ℝ n p b} {fam : Family}

/-! ### Optimality conditions are necessary -/

/-- First-order condition at a maximum of a smooth function minus `l |x + t|`. -/
theorem isSubgrad_of_le {ψ : ℝ → ℝ} {u l x : ℝ} (hψ : HasDerivAt ψ u 0)
    (h : ∀ᶠ t in 𝓝 0, ψ t - ψ 0 ≤ l * (|x + t| - |x|)) (hl : 0 ≤ l) : IsSubgrad l x u := by
  rcases lt_trichotomy x 0 with hx | rfl | hx
  · have hd : HasDerivAt (fun t => ψ t + l * t) (u + l * 1) 0 :=
      hψ.add ((hasDerivAt_id 0).const_mul l)
    have hmax : IsLocalMax (fun t => ψ t + l * t) 0 := by
      filter_upwards [h, Iio_mem_nhds (neg_pos.mpr hx)] with t h1 h2
      have h2' : x + t < 0 := by have := Set.mem_Iio.mp h2; linarith
      rw [abs_of_neg h2', abs_of_neg hx] at h1
      nlinarith
    have := hmax.hasDerivAt_eq_zero hd
    have hu : u = -l := by linarith
    exact ⟨by rw [hu, abs_neg, abs_of_nonneg hl], by rw [hu, abs_of_neg hx]; ring⟩
  · have h' : ∀ᶠ t in 𝓝 0, ψ t - ψ 0 ≤ l * |t| := h.mono fun t ht => by simpa using ht
    refine ⟨abs_le.mpr ⟨?_, ?_⟩, by simp⟩
    · have ht := (hasDerivAt_iff_tendsto_slope_left_right.mp hψ).1
      refine ge_of_tendsto ht ?_
      filter_upwards [nhdsWithin_le_nhds h', self_mem_nhdsWithin] with t h1 h2
      have h2 : t < 0 := h2
      rw [slope_def_field, sub_zero, le_div_iff_of_neg h2]
      rw [abs_of_neg h2] at h1
      linarith
    · have ht := (hasDerivAt_iff_tendsto_slope_left_right.mp hψ).2
      refine le_of_tendsto ht ?_
      filter_upwards [nhdsWithin_le_nhds h', self_mem_nhdsWithin] with t h1 h2
      have h2 : 0 < t := h2
      rw [slope_def_field, sub_zero, div_le_iff₀ h2]
      rwa [abs_of_pos h2] at h1
  · have hd : HasDerivAt (fun t => ψ t - l * t) (u - l * 1) 0 :=
      hψ.sub ((hasDerivAt_id 0).const_mul l)
    have hmax : IsLocalMax (fun t => ψ t - l * t) 0 := by
      filter_upwards [h, Ioi_mem_nhds (neg_neg_of_pos hx)] with t h1 h2
      have h2' : 0 < x + t := by have := Set.mem_Ioi.mp h2; linarith
      rw [abs_of_pos h2', abs_of_pos hx] at h1
      nlinarith
    have := hmax.hasDerivAt_eq_zero hd
    have hu : u = l := by linarith
    exact ⟨by rw [hu, abs_of_nonneg hl], by rw [hu, abs_of_pos hx]⟩

theorem gradient_hasDerivAt_line {k : ℕ} {φ : (Fin k → ℝ) → ℝ} {grad β : Fin k → ℝ}
    (h : IsGradientAt φ grad β) (v : Fin k → ℝ) :
    HasDerivAt (fun t : ℝ => φ (β + t • v)) (grad ⬝ᵥ v) 0 := by
  have hl : HasDerivAt (fun t : ℝ => β + t • v) v 0 := by
    simpa using ((hasDerivAt_id (0 : ℝ)).smul_const v).const_add β
  have h' : HasFDerivAt φ (∑ j, grad j • ContinuousLinearMap.proj (R := ℝ)
      (φ := fun _ : Fin k => ℝ) j) (β + (0 : ℝ) • v) := by simpa [IsGradientAt] using h
  have := h'.comp_hasDerivAt (0 : ℝ) hl
  refine this.congr_deriv ?_
  simp [dotProduct]

theorem admissible_line {β : Vec ℝ (ncols b p)} (ha : Admissible fam raw b β)
    (v : Vec ℝ (ncols b p)) : ∀ᶠ t : ℝ in 𝓝 0, Admissible fam raw b (β + t • v) := by
  refine eventually_all.mpr fun i => ?_
  have hc : Continuous fun t : ℝ => linPred raw b (β + t • v) i := by
    simp only [linPred]
    fun_prop
  have h0 : linPred raw b (β + (0 : ℝ) • v) i ∈ predDom fam := by
    rw [zero_smul, add_zero]; exact ha i
  exact hc.continuousAt.eventually_mem ((predDom_isOpen fam).mem_nhds h0)

/-- Admissible coefficients that maximize the penalized log-likelihood satisfy the optimality
conditions. -/
theorem kkt_of_max (hv : ValidFamily fam) {l1 l2 : ℝ} {σ : Fin p → ℝ} (hσ : ∀ j, 0 < σ j)
    {β : Vec ℝ (ncols b p)} (ha : Admissible fam raw b β)
    (hm : ∀ β', Admissible fam raw b β' →
      penLogLik fam.glm raw b l1 l2 σ β' ≤ penLogLik fam.glm raw b l1 l2 σ β) :
    KKT fam.glm raw b l1 l2 σ β := by
  have hgrad := logLik_isGradientAt (raw := raw) hv ha
  set s := scoreVec fam.glm raw b β with hs
  -- moving along `v` the log-likelihood gains at most what the penalty costs
  have hline : ∀ v : Vec ℝ (ncols b p), ∀ᶠ t : ℝ in 𝓝 0,
      logLik fam.glm raw b (β + t • v) - logLik fam.glm raw b β
        ≤ penalty l1 l2 σ b (β + t • v) - penalty l1 l2 σ b β := fun v => by
    filter_upwards [admissible_line ha v] with t ht
    have := hm _ ht
    simp only [penLogLik] at this
    linarith
  refine ⟨fun j => slopes b s j - max l2 0 * (σ j ^ 2 * slopes b β j), fun j => ?_, ?_⟩
  · have hdot : s ⬝ᵥ onSlopes b (Pi.single j 1) = slopes b s j := by
      rw [dotProduct_comm, onSlopes_dot _ _ _ rfl]
      simp [Pi.single_apply]
    have hsl : ∀ t : ℝ, slopes b (β + t • onSlopes b (Pi.single j 1))
        = slopes b β + t • Pi.single j 1 := fun t => by
      funext k; cases b <;> rfl
    have hpen : ∀ t : ℝ, penalty l1 l2 σ b (β + t • onSlopes b (Pi.single j 1))
        - penalty l1 l2 σ b β = max l1 0 * σ j * (|slopes b β j + t| - |slopes b β j|)
          + max l2 0 / 2 * (σ j ^ 2 * ((slopes b β j + t) ^ 2 - slopes b β j ^ 2)) := fun t => by
      have e1 : ∑ k, |σ k * slopes b (β + t • onSlopes b (Pi.single j 1)) k|
          - ∑ k, |σ k * slopes b β k| = σ j * (|slopes b β j + t| - |slopes b β j|) := by
        rw [← Finset.sum_sub_distrib, Finset.sum_eq_single j]
        · rw [hsl]; simp [abs_mul, abs_of_pos (hσ j)]; ring
        · intro k _ hk; rw [hsl]; simp [hk]
        · simp
      have e2 : ∑ k, (σ k * slopes b (β + t • onSlopes b (Pi.single j 1)) k) ^ 2
          - ∑ k, (σ k * slopes b β k) ^ 2
          = σ j ^ 2 * ((slopes b β j + t) ^ 2 - slopes b β j ^ 2) := by
        rw [← Finset.sum_sub_distrib, Finset.sum_eq_single j]
        · rw [hsl]; simp; ring
        · intro k _ hk; rw [hsl]; simp [hk]
        · simp
      rw [← e2, mul_assoc, ← e1]
      simp only [penalty]
      ring
    have hd := gradient_hasDerivAt_line hgrad (onSlopes b (Pi.single j 1))
    rw [hdot] at hd
    have hq : HasDerivAt (fun t : ℝ => max l2 0 / 2 * (σ j ^ 2 * ((slopes b β j + t) ^ 2
        - slopes b β j ^ 2))) (max l2 0 * (σ j ^ 2 * slopes b β j)) 0 := by
      have := ((((hasDerivAt_id (0 : ℝ)).const_add (slopes b β j)).pow 2).sub_const
        (slopes b β j ^ 2)).const_mul (σ j ^ 2) |>.const_mul (max l2 0 / 2)
      refine (this.congr_deriv ?_).congr_of_eventuallyEq (Eventually.of_forall fun t => ?_)
      · simp; ring
      · simp
    refine isSubgrad_of_le (hd.sub hq) ?_ (mul_nonneg (le_max_right _ _) (hσ j).le)
    filter_upwards [hline (onSlopes b (Pi.single j 1))] with t ht
    rw [hpen] at ht
    simp only [Pi.sub_apply, zero_smul, add_zero, sub_self, mul_zero, sub_zero]
    linarith
  · cases b with
    | false => funext j; simp [onSlopes, slopes, hs]
    | true =>
      funext j
      refine Fin.cases ?_ (fun j => ?_) (j : Fin (p + 1))
      · have hd := gradient_hasDerivAt_line hgrad (interceptOnly 1)
        have hz : ∀ t : ℝ, penalty l1 l2 σ true (β + t • interceptOnly 1)
            = penalty l1 l2 σ true β := fun t => by
          have : slopes true (β + t • interceptOnly 1) = slopes true β := by
            funext k; simp [slopes, interceptOnly]
          simp only [penalty, this]
        have hmax : IsLocalMax (fun t : ℝ => logLik fam.glm raw true (β + t • interceptOnly 1)) 0 := by
          filter_upwards [hline (interceptOnly 1)] with t ht
          rw [hz, sub_self] at ht
          simpa using ht
        have h0 := hmax.hasDerivAt_eq_zero hd
        have e : s ⬝ᵥ interceptOnly 1 = s (0 : Fin (p + 1)) := by
          refine (Fin.sum_univ_succ _).trans ?_
          simp [interceptOnly]
        rw [e] at h0
        simpa [onSlopes] using h0
      · simp [onSlopes, slopes, hs]

/-- C89 (optimality).  An admissible fit is optimal exactly if its coefficients satisfy the optimality
conditions of its L1 and L2 penalties; for inverse Gaussian with log link they are necessary. -/
theorem C89_necessary (hv : ValidFamily fam) (hd : raw.finalize std b = some d)
    (h : regression env fam.glm d options = .ok f) (ha : Admissible fam raw b f.result)
    (ho : Optimal fam raw f) :
    KKT fam.glm raw b options.l1 options.l2 (scale d) f.result := by
  refine kkt_of_max hv (Dataset.scale_pos hd) ha fun β' hβ' => ?_
  have := ho β' hβ'
  rw [C36_lr hd h] at this
  linarith

theorem C89_optimal_iff (hc : Spec.Concave fam raw) (hd : raw.finalize std b = some d)
    (h : regression env fam.glm d options = .ok f) (ha : Admissible fam raw b f.result) :
    Optimal fam raw f ↔ KKT fam.glm raw b options.l1 options.l2 (scale d) f.result :=
  ⟨C89_necessary hc.valid hd h ha, C88_optimal_l1 hc hd h ha⟩

/-! ### What the conditions say about a fit -/

/-- The score of feature `j` written out: what is left of the responses, against the feature. -/
theorem slopes_scoreVec (g : Glm ℝ) (β : Vec ℝ (ncols b p)) (j : Fin p) :
    slopes b (scoreVec g raw b β) j = ∑ i, totalWt raw i * g.link.dNatParam (linPred raw b β i)
      * (raw.y i - meanAt g raw b β i) * raw.x i j := by
  cases b <;> simp [slopes, scoreVec, design]

theorem slopes_onSlopes (v : Vec ℝ p) : slopes b (onSlopes b v) = v := by
  cases b <;> rfl

theorem Spec.IsSubgrad.mono {l x u x' u' : ℝ} (h : IsSubgrad l x u) (h' : IsSubgrad l x' u') :
    0 ≤ (u - u') * (x - x') := by
  obtain ⟨h1, h2⟩ := h
  obtain ⟨h3, h4⟩ := h'
  have e1 : u * x' ≤ l * |x'| := (le_abs_self _).trans (by
    rw [abs_mul]; exact mul_le_mul_of_nonneg_right h1 (abs_nonneg _))
  have e2 : u' * x ≤ l * |x| := (le_abs_self _).trans (by
    rw [abs_mul]; exact mul_le_mul_of_nonneg_right h3 (abs_nonneg _))
  nlinarith

/-- The subgradient in standardized units. -/
theorem Spec.IsSubgrad.standardize {l σ x u : ℝ} (hσ : 0 < σ) (h : IsSubgrad (l * σ) x u) :
    IsSubgrad l (σ * x) (u / σ) := by
  refine ⟨?_, ?_⟩
  · rw [abs_div, abs_of_pos hσ, div_le_iff₀ hσ]; exact h.1
  · rw [abs_mul, abs_of_pos hσ, ← mul_assoc, ← mul_assoc, ← h.2]; field_simp

/-- C89 (kept and dropped).  In an optimal fit a feature has a zero coefficient only if its score, the
sum of weight times residual times feature, is at most `l1` in size; otherwise the score has the sign
of the coefficient and size `l1 + l2 |slope|`, all in standardized units. -/
theorem C89_kept (hv : ValidFamily fam) (hd : raw.finalize std b = some d)
    (h : regression env fam.glm d options = .ok f) (ha : Admissible fam raw b f.result)
    (ho : Optimal fam raw f) (j : Fin p) :
    let s := (∑ i, totalWt raw i * (fam.glm (F := ℝ)).link.dNatParam (linPred raw b f.result i)
      * (raw.y i - f.yHat i) * raw.x i j) / scale d j
    let x := scale d j * slopes b f.result j
    (x = 0 → |s| ≤ max options.l1 0) ∧ (0 < x → s = max options.l1 0 + max options.l2 0 * x) ∧
      (x < 0 → s = -max options.l1 0 + max options.l2 0 * x) := by
  intro s x
  obtain ⟨u, hu, hk⟩ := C89_necessary hv hd h ha ho
  have hσ := Dataset.scale_pos hd j
  have hs : s = u j / scale d j + max options.l2 0 * x := by
    have e := congrFun (congrArg (slopes b) hk) j
    rw [slopes_scoreVec, slopes_onSlopes] at e
    obtain ⟨hg, rfl, rfl, hf⟩ := regression_ofRaw hd h
    simp only [s, x, hf.mean, hg, e]
    field_simp
  obtain ⟨h1, h2⟩ := (hu j).standardize hσ
  change u j / scale d j * x = _ * |x| at h2
  refine ⟨fun hx => ?_, fun hx => ?_, fun hx => ?_⟩
  · rwa [hs, hx, mul_zero, add_zero]
  · rw [abs_of_pos hx] at h2
    rw [hs, mul_right_cancel₀ hx.ne' h2]
  · rw [abs_of_neg hx, mul_neg, ← neg_mul] at h2
    rw [hs, mul_right_cancel₀ hx.ne h2]

/-- C89 (grouping).  The standardized slopes of two features differ by at most `1 / l2` times the
difference of their standardized scores. -/
theorem C89_grouping (hv : ValidFamily fam) (hd : raw.finalize std b = some d)
    (h : regression env fam.glm d options = .ok f) (ha : Admissible fam raw b f.result)
    (ho : Optimal fam raw f) (j k : Fin p) :
    max options.l2 0 * |scale d j * slopes b f.result j - scale d k * slopes b f.result k|
      ≤ |∑ i, totalWt raw i * (fam.glm (F := ℝ)).link.dNatParam (linPred raw b f.result i)
        * (raw.y i - f.yHat i) * (raw.x i j / scale d j - raw.x i k / scale d k)| := by
  obtain ⟨u, hu, hk⟩ := C89_necessary hv hd h ha ho
  have hσ := Dataset.scale_pos hd
  have e : ∀ j, (∑ i, totalWt raw i * (fam.glm (F := ℝ)).link.dNatParam (linPred raw b f.result i)
      * (raw.y i - f.yHat i) * (raw.x i j / scale d j))
      = u j / scale d j + max options.l2 0 * (scale d j * slopes b f.result j) := fun j => by
    have e := congrFun (congrArg (slopes b) hk) j
    rw [slopes_scoreVec, slopes_onSlopes] at e
    have hj := (hσ j).ne'
    obtain ⟨hg, rfl, rfl, hf⟩ := regression_ofRaw hd h
    simp only [hf.mean, hg, ← mul_div_assoc, ← Finset.sum_div, e]
    field_simp
  have hsplit : ∑ i, totalWt raw i * (fam.glm (F := ℝ)).link.dNatParam (linPred raw b f.result i)
      * (raw.y i - f.yHat i) * (raw.x i j / scale d j - raw.x i k / scale d k)
      = (u j / scale d j + max options.l2 0 * (scale d j * slopes b f.result j))
        - (u k / scale d k + max options.l2 0 * (scale d k * slopes b f.result k)) := by
    rw [← e j, ← e k, ← Finset.sum_sub_distrib]
    exact Finset.sum_congr rfl fun i _ => mul_sub _ _ _
  rw [hsplit]
  have hm := ((hu j).standardize (hσ j)).mono ((hu k).standardize (hσ k))
  generalize u j / scale d j = v at *
  generalize u k / scale d k = v' at *
  generalize scale d j * slopes b f.result j = x at *
  generalize scale d k * slopes b f.result k = x' at *
  have hl : 0 ≤ max options.l2 0 := le_max_right _ _
  generalize max options.l2 0 = l at *
  rcases lt_trichotomy x x' with hx | rfl | hx
  · have hvv : v ≤ v' := by nlinarith
    rw [abs_of_neg (sub_neg.mpr hx)]
    refine le_trans ?_ (neg_le_abs _)
    nlinarith
  · simp
  · have hvv : v' ≤ v := by nlinarith
    rw [abs_of_pos (sub_pos.mpr hx)]
    refine le_trans ?_ (le_abs_self _)
    nlinarith

theorem scale_congr (hd : raw.finalize std b = some d) {j k : Fin p}
    (hx : ∀ i, raw.x i j = raw.x i k) : scale d j = scale d k := by
  cases std with
  | false =>
    simp only [Dataset.finalize, Bool.false_eq_true, if_false, Option.some.injEq] at hd
    subst hd
    rfl
  | true =>
    simp only [Dataset.finalize, if_true, Option.map_eq_some_iff] at hd
    obtain ⟨s, hs, rfl⟩ := hd
    simp only [Standardizer.fromDataset, Option.map_eq_some_iff] at hs
    obtain ⟨vars, hv, rfl⟩ := hs
    have : vars j = vars k := by
      split_ifs at hv <;> simp only [Option.some.injEq] at hv <;> subst hv
      · rfl
      · simp only [hx]; rfl
      · simp only [hx]
    simp only [scale, this]

/-- C89 (identical features).  With an L2 penalty two identical features get the same coefficient. -/
theorem C89_identical (hv : ValidFamily fam) (hd : raw.finalize std b = some d)
    (h : regression env fam.glm d options = .ok f) (ha : Admissible fam raw b f.result)
    (ho : Optimal fam raw f) (hl : 0 < options.l2) {j k : Fin p}
    (hx : ∀ i, raw.x i j = raw.x i k) : slopes b f.result j = slopes b f.result k := by
  have hg := C89_grouping hv hd h ha ho j k
  rw [scale_congr hd hx, max_eq_left hl.le] at hg
  simp only [hx, sub_self, mul_zero, Finset.sum_const_zero, abs_zero, ← mul_sub] at hg
  have h0 : |scale d k * (slopes b f.result j - slopes b f.result k)| = 0 :=
    le_antisymm (by nlinarith [abs_nonneg (scale d k * (slopes b f.result j - slopes b f.result k))])
      (abs_nonneg _)
  rw [abs_eq_zero, mul_eq_zero, or_iff_right (Dataset.scale_pos hd k).ne'] at h0
  linarith

/-- C89 (useless features).  With a penalty of either kind a feature that is constant, in a model with
an intercept, or zero, in a model without, gets coefficient zero. -/
theorem C89_useless (hv : ValidFamily fam) (hd : raw.finalize std b = some d)
    (h : regression env fam.glm d options = .ok f) (ha : Admissible fam raw b f.result)
    (ho : Optimal fam raw f) (hl : 0 < options.l1 ∨ 0 < options.l2) {j : Fin p} {c : ℝ}
    (hx : ∀ i, raw.x i j = c) (hc : b = false → c = 0) : slopes b f.result j = 0 := by
  obtain ⟨u, hu, hk⟩ := C89_necessary hv hd h ha ho
  have hs : slopes b (scoreVec fam.glm raw b f.result) j = 0 := by
    rw [slopes_scoreVec]
    cases b with
    | false => simp [hx, hc rfl]
    | true =>
      have e := congrFun hk (0 : Fin (p + 1))
      simp only [scoreVec, design, onSlopes, Fin.cons_zero, mul_one] at e
      simp only [hx, ← Finset.sum_mul]
      rw [e, zero_mul]
  have e := congrFun (congrArg (slopes b) hk) j
  rw [hs, slopes_onSlopes] at e
  have hσ := Dataset.scale_pos hd j
  by_contra hne
  have h2 := (hu j).2
  have h3 : max options.l1 0 * scale d j * |slopes b f.result j|
      + max options.l2 0 * (scale d j ^ 2 * slopes b f.result j ^ 2) = 0 := by
    rw [← h2]
    calc _ = (u j + max options.l2 0 * (scale d j ^ 2 * slopes b f.result j))
          * slopes b f.result j := by ring
      _ = 0 := by rw [← e, zero_mul]
  have p1 : 0 ≤ max options.l1 0 * scale d j * |slopes b f.result j| := by positivity
  have p2 : 0 ≤ max options.l2 0 * (scale d j ^ 2 * slopes b f.result j ^ 2) := by positivity
  rcases hl with hl | hl
  · have : 0 < max options.l1 0 * scale d j * |slopes b f.result j| :=
      mul_pos (mul_pos (lt_max_of_lt_left hl) hσ) (abs_pos.mpr hne)
    linarith
  · have : 0 < max options.l2 0 * (scale d j ^ 2 * slopes b f.result j ^ 2) :=
      mul_pos (lt_max_of_lt_left hl) (mul_pos (pow_pos hσ 2) (by positivity))
    linarith

/-! ### When everything is dropped -/

namespace Spec

/-- Standardized score of feature `j` in the model with an intercept only, whose mean is the weighted
mean of the responses. -/
noncomputable def nullScore (fam : Family) (raw : Dataset ℝ n p false) {b : Bool}
    (d : Dataset ℝ n p b) (j : Fin p) : ℝ :=
  (fam.glm (F := ℝ)).link.dNatParam (linkFn fam (meanY raw))
    * (∑ i, totalWt raw i * (raw.y i - meanY raw) * raw.x i j) / scale d j

end Spec

section Null
variable {d : Dataset ℝ n p true} {options : FitOptions ℝ (ncols true p)} {f : Fit ℝ n p true}

theorem null_linPred (hno : raw.linearOffset = none) (c : ℝ) (i : Fin n) :
    linPred raw true (interceptOnly c) i = c := by
  rw [linPred_interceptOnly, offset_none hno, add_zero]

theorem null_mean (hno : raw.linearOffset = none) (hy : meanY raw ∈ meanDom fam) (i : Fin n) :
    meanAt fam.glm raw true (interceptOnly (linkFn fam (meanY raw))) i = meanY raw := by
  rw [meanAt, null_linPred hno, ← func_eq_linkFn, funcInv_func fam hy]

theorem sum_residuals (hW : weightSum raw ≠ 0) :
    ∑ i, totalWt raw i * (raw.y i - meanY raw) = 0 := by
  simp only [mul_sub, Finset.sum_sub_distrib, ← Finset.sum_mul]
  change _ - weightSum raw * meanY raw = 0
  rw [meanY, mul_div_cancel₀ _ hW, sub_self]

theorem null_score (hno : raw.linearOffset = none) (hy : meanY raw ∈ meanDom fam)
    (hW : weightSum raw ≠ 0) (hσ : ∀ j, 0 < scale d j) :
    scoreVec fam.glm raw true (interceptOnly (linkFn fam (meanY raw)))
      = onSlopes true fun j => scale d j * nullScore fam raw d j := by
  have hfac : ∀ i, totalWt raw i * (fam.glm (F := ℝ)).link.dNatParam (linPred raw true
      (interceptOnly (linkFn fam (meanY raw))) i) * (raw.y i - meanAt fam.glm raw true
      (interceptOnly (linkFn fam (meanY raw))) i)
      = (fam.glm (F := ℝ)).link.dNatParam (linkFn fam (meanY raw))
        * (totalWt raw i * (raw.y i - meanY raw)) := fun i => by
    rw [null_linPred hno, null_mean hno hy]; ring
  funext j
  simp only [scoreVec, hfac]
  refine Fin.cases ?_ (fun j => ?_) (j : Fin (p + 1))
  · simp only [design, onSlopes, Fin.cons_zero, mul_one, ← Finset.mul_sum]
    rw [sum_residuals hW, mul_zero]
  · simp only [design, onSlopes, Fin.cons_succ, nullScore]
    rw [mul_div_cancel₀ _ (hσ j).ne', Finset.mul_sum]
    exact Finset.sum_congr rfl fun i _ => by ring

theorem null_slopes (c : ℝ) (j : Fin p) : slopes true (interceptOnly c) j = 0 := by
  simp [slopes, interceptOnly]

theorem null_admissible (hno : raw.linearOffset = none) (hy : meanY raw ∈ meanDom fam) :
    Admissible fam raw true (interceptOnly (linkFn fam (meanY raw))) := fun i => by
  rw [null_linPred hno, ← func_eq_linkFn]; exact func_mem fam hy

/-- C89 (everything dropped).  In a model with an intercept and without an offset, an optimal fit whose
slopes are all zero is the null model, and then no standardized score of the null model exceeds the L1
strength. -/
theorem C89_dropped (hv : ValidFamily fam) (hd : raw.finalize std true = some d)
    (h : regression env fam.glm d options = .ok f) (ha : Admissible fam raw true f.result)
    (ho : Optimal fam raw f) (hno : raw.linearOffset = none) (hW : weightSum raw ≠ 0) (hn : 0 < n)
    (hz : ∀ j, slopes true f.result j = 0) :
    f.result = interceptOnly (linkFn fam (meanY raw)) ∧
      ∀ j, |nullScore fam raw d j| ≤ max options.l1 0 := by
  have hk := C89_necessary hv hd h ha ho
  have hr : f.result = interceptOnly (f.result (0 : Fin (p + 1))) := by
    funext j
    refine Fin.cases rfl (fun j => ?_) (j : Fin (p + 1))
    exact (hz j).trans (null_slopes _ j).symm
  generalize f.result (0 : Fin (p + 1)) = c at hr
  have hc : c ∈ predDom fam := by
    have := ha ⟨0, hn⟩
    rwa [hr, null_linPred hno] at this
  have hmean : (fam.glm (F := ℝ)).link.funcInv c = meanY raw := by
    obtain ⟨u, -, hk⟩ := hk
    have e := congrFun hk (0 : Fin (p + 1))
    simp only [scoreVec, design, onSlopes, Fin.cons_zero, mul_one, hr, meanAt, null_linPred hno] at e
    have e2 : (fam.glm (F := ℝ)).link.dNatParam c
        * ∑ i, totalWt raw i * (raw.y i - (fam.glm (F := ℝ)).link.funcInv c) = 0 := by
      rw [← e, Finset.mul_sum]
      exact Finset.sum_congr rfl fun i _ => by ring
    have e3 := (mul_eq_zero.mp e2).resolve_left (dNatParam_pos fam c).ne'
    simp only [mul_sub, Finset.sum_sub_distrib, ← Finset.sum_mul] at e3
    rw [meanY, eq_div_iff hW, weightSum]
    linarith
  have hy : meanY raw ∈ meanDom fam := hmean ▸ ((C15_link_inverse fam hv).2.2 c hc).1
  have hcl : c = linkFn fam (meanY raw) := by
    rw [← hmean, ← func_eq_linkFn, ((C15_link_inverse fam hv).2.2 c hc).2]
  rw [hcl] at hr
  refine ⟨hr, fun j => ?_⟩
  obtain ⟨u, hu, hk⟩ := hk
  have hσ := Dataset.scale_pos hd
  rw [hr, null_score hno hy hW hσ] at hk
  have e := congrFun (congrArg (slopes true) hk) j
  rw [slopes_onSlopes, slopes_onSlopes, null_slopes, mul_zero, mul_zero, add_zero] at e
  have h1 := (hu j).1
  rw [← e, abs_mul, abs_of_pos (hσ j), mul_comm] at h1
  exact le_of_mul_le_mul_right h1 (hσ j)

/-- C89 (threshold).  Conversely, if no standardized score of the null model exceeds the L1 strength,
the null model is optimal too (`lr_test()` is zero), and if all are smaller than it every optimal fit
has zero slopes. -/
theorem C89_threshold (hc : Spec.Concave fam raw) (hd : raw.finalize std true = some d)
    (h : regression env fam.glm d options = .ok f) (ha : Admissible fam raw true f.result)
    (ho : Optimal fam raw f) (hno : raw.linearOffset = none) (hW : weightSum raw ≠ 0)
    (hy : meanY raw ∈ meanDom fam) (hle : ∀ j, |nullScore fam raw d j| ≤ max options.l1 0) :
    f.lrTest envn = .ok 0 ∧
      ∀ j, |nullScore fam raw d j| < max options.l1 0 → slopes true f.result j = 0 := by
  have hσ := Dataset.scale_pos hd
  have hp := null_admissible (raw := raw) hno hy
  have hlr := ho _ hp
  have hgap := logLik_gap (raw := raw) fam (interceptOnly (linkFn fam (meanY raw))) f.result
  have hnn := Finset.sum_nonneg fun i (_ : i ∈ Finset.univ) => gapAt_nonneg hc hp ha i
  have hpen0 : penalty options.l1 options.l2 (scale d) true (interceptOnly (linkFn fam (meanY raw)))
      = 0 := by simp [penalty, null_slopes]
  rw [null_score (d := d) hno hy hW hσ, onSlopes_dot _ (slopes true f.result) _ (by
    funext j; simp [slopes, interceptOnly])] at hgap
  have hpen : ∑ j, scale d j * nullScore fam raw d j * slopes true f.result j
      + ∑ j, (max options.l1 0 - |nullScore fam raw d j|) * |scale d j * slopes true f.result j|
      ≤ penalty options.l1 options.l2 (scale d) true f.result := by
    have h1 : 0 ≤ max options.l2 0 / 2 * ∑ j, (scale d j * slopes true f.result j) ^ 2 :=
      mul_nonneg (div_nonneg (le_max_right _ _) two_pos.le)
        (Finset.sum_nonneg fun _ _ => sq_nonneg _)
    rw [← Finset.sum_add_distrib, penalty, Finset.mul_sum]
    refine le_trans (Finset.sum_le_sum fun j _ => ?_) (le_add_of_nonneg_right h1)
    have := le_abs_self (nullScore fam raw d j * (scale d j * slopes true f.result j))
    rw [abs_mul] at this
    linarith
  have hterm : ∀ j, 0 ≤ (max options.l1 0 - |nullScore fam raw d j|)
      * |scale d j * slopes true f.result j| := fun j =>
    mul_nonneg (sub_nonneg.mpr (hle j)) (abs_nonneg _)
  have hsum := Finset.sum_nonneg fun j (_ : j ∈ Finset.univ) => hterm j
  rw [C36_lr hd h, penLogLik, penLogLik, hpen0] at hlr
  refine ⟨?_, fun j hj => ?_⟩
  · rw [(C38_lr_null hd h (fun _ => hW) (C37_intercept (env' := envn) hd h hno hW).1).1,
      C36_lr hd h, penLogLik, penLogLik, hpen0]
    congr 1
    linarith
  · have hz : ∑ j, (max options.l1 0 - |nullScore fam raw d j|)
        * |scale d j * slopes true f.result j| = 0 := by linarith
    rw [Finset.sum_eq_zero_iff_of_nonneg fun j _ => hterm j] at hz
    have := (mul_eq_zero.mp (hz j (Finset.mem_univ _))).resolve_left (sub_pos.mpr hj).ne'
    rw [abs_eq_zero] at this
    exact (mul_eq_zero.mp this).resolve_left (hσ j).ne'

end Null

/-! ### The hypotheses are met -/

/-- Every linear model with non-negative weights, one of them positive, has optimal ridge fits. -/
theorem exists_ridge_fit (hw : ∀ i, 0 ≤ totalWt raw i) (hpos : ∃ i, 0 < totalWt raw i) {l2 : ℝ}
    (hl : 0 < l2) (hd : raw.finalize std b = some d) : ∃ f,
    regression (exactEnv 0 0) Family.linear.glm d (exOpts 0 l2 none 1) = .ok f ∧
      Admissible .linear raw b f.result ∧ Optimal .linear raw f := by
  obtain ⟨βs, h, -⟩ := C78_solution (raw := raw) (b := b) (l2 := l2)
    (Dataset.scale_pos hd) hw (Or.inr ⟨hl, fun _ => hpos⟩)
  have hs : RidgeSetting (exactEnv 0 0) raw std d (exOpts 0 l2 none 1) βs :=
    ⟨exactEnv_exact le_rfl 0, hd, le_rfl, hw, Or.inr ⟨hl, fun _ => hpos⟩, h⟩
  obtain ⟨f, hf, hr, -⟩ := C78_exact_ridge hs rfl le_rfl
  refine ⟨f, hf, fun _ => trivial, ?_⟩
  refine C88_optimal ⟨trivial, trivial, Or.inl trivial, hw⟩ hd le_rfl hf (fun _ => trivial) ?_
  rw [(C10_external (Family.lawfulAdj .linear) hd le_rfl hf).2.1, hr]
  exact hs.score_eq

/-- Three observations of four features: the second repeats the first, the third is constant. -/
noncomputable def exSelect : Dataset ℝ 3 4 false where
  y := ![1, 5, 2]
  x := fun i => ![![0, 1, 2] i, ![0, 1, 2] i, 7, ![3, 1, 1] i]
  linearOffset := none
  weights := some ![1, 2, 1 / 2]
  freqs := none
  standardizer := none

theorem exSelect_totalWt (i : Fin 3) : 0 < totalWt exSelect i := by
  fin_cases i <;> simp [totalWt, freq, varWt, exSelect]

/-- `C89_necessary`, `C89_optimal_iff`, `C89_kept`, `C89_grouping`, `C89_identical` and
`C89_useless`. -/
example : ∃ (d : Dataset ℝ 3 4 true) (f : Fit ℝ 3 4 true),
    exSelect.finalize false true = some d ∧
    regression (exactEnv 0 0) Family.linear.glm d (exOpts 0 3 none 1) = .ok f ∧
    Optimal .linear exSelect f ∧ KKT Family.linear.glm exSelect true 0 3 (scale d) f.result ∧
    slopes true f.result 0 = slopes true f.result 1 ∧ slopes true f.result 2 = 0 := by
  obtain ⟨d, hd⟩ : ∃ d, exSelect.finalize false true = some d := ⟨_, rfl⟩
  obtain ⟨f, h, ha, ho⟩ := exists_ridge_fit (fun i => (exSelect_totalWt i).le)
    ⟨0, exSelect_totalWt 0⟩ (by norm_num : (0 : ℝ) < 3) hd
  refine ⟨d, f, hd, h, ho, C89_necessary (fam := .linear) trivial hd h ha ho,
    C89_identical (fam := .linear) trivial hd h ha ho (by norm_num [exOpts]) fun i => rfl,
    C89_useless (fam := .linear) trivial hd h ha ho (Or.inr (by norm_num [exOpts])) (c := 7) (fun i => rfl)
      (fun h => absurd h (by simp))⟩

/-- `C89_dropped` and `C89_threshold`. -/
example (l1 : ℝ) (hl : 0 < l1) : ∃ (d : Dataset ℝ 3 1 true) (f : Fit ℝ 3 1 true),
    (exRaw ![1, 1, 1]).finalize true true = some d ∧
    regression (exactEnv (1 / 1000) 7) Family.poisson.glm d (exOpts l1 0 (some 0) 5) = .ok f ∧
    (∀ j, |nullScore .poisson (exRaw ![1, 1, 1]) d j| < max l1 0) ∧
    f.lrTest (exactEnv 0 0) = .ok 0 ∧ (∀ j, slopes true f.result j = 0) ∧
    f.result = interceptOnly (linkFn .poisson (meanY (exRaw ![1, 1, 1]))) := by
  obtain ⟨d, hd⟩ := exRaw_finalize ![1, 1, 1] true true
  obtain ⟨f, h, ha, ho⟩ := exL1_optimal l1 hl hd
  have hW : weightSum (exRaw ![1, 1, 1]) = 4 := by
    simp only [weightSum, exRaw_totalWt, Fin.sum_univ_three]; simp; norm_num
  have hm : meanY (exRaw ![1, 1, 1]) = 1 := by
    simp only [meanY, hW, exRaw_totalWt, Fin.sum_univ_three]; simp [exRaw]; norm_num
  have hlt : ∀ j, |nullScore .poisson (exRaw ![1, 1, 1]) d j| < max l1 0 := fun j => by
    have : nullScore .poisson (exRaw ![1, 1, 1]) d j = 0 := by
      simp only [nullScore, hm, Fin.sum_univ_three]
      simp [exRaw]
    rw [this, abs_zero]
    exact lt_max_of_lt_left hl
  obtain ⟨h1, h2⟩ := C89_threshold (fam := .poisson) (envn := exactEnv 0 0) ⟨trivial, trivial, Or.inl trivial,
    fun i => (exRaw_totalWt_pos _ i).le⟩ hd h ha ho rfl (by rw [hW]; norm_num)
    (by rw [hm]; exact Set.mem_Ioi.mpr one_pos) fun j => (hlt j).le
  have hz : ∀ j, slopes true f.result j = 0 := fun j => h2 j (hlt j)
  exact ⟨d, f, hd, h, hlt, h1, hz, (C89_dropped (fam := .poisson) trivial hd h ha ho rfl (by rw [hW]; norm_num)
    (by norm_num) hz).1⟩

end GLM
