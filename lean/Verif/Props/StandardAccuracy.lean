/-
  C97: fits with standardized features in floating-point arithmetic.
-/
import Verif.Spec.StandardAccuracy
import Verif.Props.Certificate

namespace GLM
open Spec Scalar Fl Matrix

section
variable {fmt : FloatFormat} {u tiny big : ℝ} {n p : ℕ} {b : Bool} {env : Env (Fl fmt)} {fam : Family}
  {raw : Dataset (Fl fmt) n p false} {data : Dataset (Fl fmt) n p b} {s : Standardizer (Fl fmt) p}
  {options : FitOptions (Fl fmt) (ncols b p)} {f : Fit (Fl fmt) n p b}

theorem finalize_std (hd : raw.finalize true b = some data) (hs : data.standardizer = some s) :
    Standardizer.fromDataset raw b = some s ∧
    data = ⟨raw.y, Dataset.padded b (s.transform raw.x), raw.linearOffset, raw.weights, raw.freqs,
      some s⟩ := by
  unfold Dataset.finalize at hd
  rw [if_pos rfl] at hd
  cases hfd : Standardizer.fromDataset raw b with
  | none => rw [hfd] at hd; cases hd
  | some s' =>
    rw [hfd] at hd
    have hd' := Option.some.inj hd
    have : s' = s := by rw [← hd'] at hs; exact Option.some.inj hs
    subst this
    exact ⟨rfl, hd'.symm⟩

theorem std_features (hd : raw.finalize true b = some data) (hs : data.standardizer = some s) :
    data.features = s.transform raw.x := by
  rw [(finalize_std hd hs).2]
  cases b <;> rfl

theorem std_shift (hd : raw.finalize true false = some data₀) (hs : data₀.standardizer = some s) (j : Fin p) :
    shiftOf s j = 0 := by
  obtain ⟨h, -⟩ := finalize_std hd hs
  unfold Standardizer.fromDataset at h
  simp only [Option.map_eq_some_iff] at h
  obtain ⟨v, -, rfl⟩ := h
  exact real_zero.2

/-- **C97** (features).  Every standardized feature is finite; scaled and shifted back without rounding it
is the user's feature up to about `2u` of its distance from the mean. -/
theorem C97_features (acc : Accurate fmt u tiny big) (hd : raw.finalize true b = some data)
    (hs : data.standardizer = some s) (hf : StdFits u tiny big raw s) (i : Fin n) (j : Fin p) :
    (data.features i j).isFinite ∧
      |(readBack raw data s).x i j - real (raw.x i j)| ≤
        featureError u tiny (real (raw.x i j)) (shiftOf s j) (scaleOf s j) := by
  obtain ⟨h1, h2, h3, h4⟩ := hf j
  obtain ⟨h5, h6, h7⟩ := h4 i
  have hu := acc.u_nonneg
  have ht := acc.tiny_nonneg
  have hfe : data.features i j = (raw.x i j - s.shifts j) / s.scales j := by
    rw [std_features hd hs]; rfl
  obtain ⟨d1, d2⟩ := sub_rounded acc h5 h1 (v := real (raw.x i j)) (w := real (s.shifts j)) (e := 0) (d := 0)
    (by simp) (by simp) (by simpa [shiftOf] using h6)
  change |_ - (real (raw.x i j) - shiftOf s j)|
    ≤ 0 + 0 + (u * (|real (raw.x i j) - shiftOf s j| + (0 + 0)) + tiny) at d2
  set v := real (raw.x i j) - shiftOf s j with hv
  have d2' : |real (raw.x i j - s.shifts j) - v| ≤ u * |v| + tiny := by linarith
  set d := real (raw.x i j - s.shifts j) with hdd
  have hσ : 0 < scaleOf s j := h3
  have hda : |d| ≤ (1 + u) * |v| + tiny := by
    have := abs_add_le (d - v) v
    rw [sub_add_cancel] at this
    linarith
  obtain ⟨q1, q2⟩ := div_near acc d1 h2 hσ.ne' (by
    change |d / scaleOf s j| < big
    rw [abs_div, abs_of_pos hσ]
    exact (div_le_div_of_nonneg_right hda hσ.le).trans_lt h7)
  unfold Near at q2
  change |real ((raw.x i j - s.shifts j) / s.scales j) - d / scaleOf s j| ≤ u * |d / scaleOf s j| + tiny at q2
  rw [hfe]
  refine ⟨q1, ?_⟩
  have e1 : (readBack raw data s).x i j = real ((raw.x i j - s.shifts j) / s.scales j) * scaleOf s j + shiftOf s j := by
    rw [← hfe]; rfl
  rw [e1]
  set z := real ((raw.x i j - s.shifts j) / s.scales j) with hz
  have e2 : z * scaleOf s j + shiftOf s j - real (raw.x i j)
      = (z - d / scaleOf s j) * scaleOf s j + (d - v) := by
    rw [sub_mul, div_mul_cancel₀ _ hσ.ne', hv]; ring
  rw [e2]
  have e3 : |(z - d / scaleOf s j) * scaleOf s j| ≤ u * |d| + tiny * scaleOf s j := by
    rw [abs_mul, abs_of_pos hσ]
    have := mul_le_mul_of_nonneg_right q2 hσ.le
    rw [abs_div, abs_of_pos hσ, add_mul, mul_assoc, div_mul_cancel₀ _ hσ.ne'] at this
    exact this
  have e4 : u * |d| ≤ u * ((1 + u) * |v| + tiny) := mul_le_mul_of_nonneg_left hda hu
  have e5 := abs_add_le ((z - d / scaleOf s j) * scaleOf s j) (d - v)
  have e6 : featureError u tiny (real (raw.x i j)) (shiftOf s j) (scaleOf s j)
      = u * ((1 + u) * |v| + tiny) + tiny * scaleOf s j + (u * |v| + tiny) := by
    unfold featureError; rw [← hv]; ring
  rw [e6]
  linarith

/-- The stored features at internal coefficients give the linear predictors of the features that are read
back at the transformed coefficients. -/
theorem readBack_linPred (hσ : ∀ j, 0 < scaleOf s j) (hμ : b = false → ∀ j, shiftOf s j = 0)
    (γ : Vec (Fl fmt) (ncols b p)) (i : Fin n) :
    linPred (readBack raw data s) b (exactBack b s γ) i
      = exactPred b (storedRaw raw data).x raw.linearOffset γ i := by
  have ho : offset (readBack raw data s) i = offsetAt raw.linearOffset i := by
    unfold offset offsetAt readBack
    cases raw.linearOffset <;> rfl
  unfold linPred exactPred
  rw [ho]
  congr 1
  cases b with
  | false =>
    refine Finset.sum_congr rfl fun j _ => ?_
    change (real (data.features i j) * scaleOf s j + shiftOf s j) * (real (γ j) / scaleOf s j)
      = real (data.features i j) * real (γ j)
    rw [hμ rfl, add_zero]
    have := (hσ j).ne'
    field_simp
  | true =>
    change ∑ j : Fin (p + 1), _ = ∑ j : Fin (p + 1), _
    rw [Fin.sum_univ_succ, Fin.sum_univ_succ]
    change 1 * (real (γ (0 : Fin (p + 1))) - ∑ j : Fin p, shiftOf s j * (real (γ (Fin.succ j : Fin (p + 1))) / scaleOf s j))
      + ∑ j : Fin p, (real (data.features i j) * scaleOf s j + shiftOf s j)
          * (real (γ (Fin.succ j : Fin (p + 1))) / scaleOf s j)
      = 1 * real (γ (0 : Fin (p + 1)))
        + ∑ j : Fin p, real (data.features i j) * real (γ (Fin.succ j : Fin (p + 1)))
    rw [one_mul, one_mul, sub_add_eq_add_sub, sub_eq_iff_eq_add, add_assoc, add_right_inj,
      ← Finset.sum_add_distrib]
    refine Finset.sum_congr rfl fun j _ => ?_
    have := (hσ j).ne'
    field_simp

theorem exactBack_slopes (γ : Vec (Fl fmt) (ncols b p)) (j : Fin p) :
    slopes b (exactBack b s γ) j = slopes b (fun j => real (γ j)) j / scaleOf s j := by
  cases b <;> rfl

/-- The exact objective of the fit with stored features is the one of the features that are read back,
with the penalty on the standardized scale. -/
theorem readBack_penLogLik (hσ : ∀ j, 0 < scaleOf s j) (hμ : b = false → ∀ j, shiftOf s j = 0) (l1 l2 : ℝ)
    (γ : Vec (Fl fmt) (ncols b p)) :
    penLogLik fam.glm (readBack raw data s) b l1 l2 (scaleOf s) (exactBack b s γ)
      = exactPenLik fam (storedRaw raw data) b l1 l2 γ := by
  unfold exactPenLik penLogLik
  congr 1
  · unfold logLik
    refine Finset.sum_congr rfl fun i _ => ?_
    have h1 : totalWt (readBack raw data s) i = totalWt (exactData (storedRaw raw data)) i := rfl
    have h2 : linPred (readBack raw data s) b (exactBack b s γ) i
        = linPred (exactData (storedRaw raw data)) b (fun j => real (γ j)) i := by
      rw [readBack_linPred hσ hμ, exactData_linPred]; rfl
    unfold logLikAt
    rw [h1, h2]; rfl
  · unfold penalty
    simp only [exactBack_slopes, one_mul]
    have e : ∀ j, scaleOf s j * (slopes b (fun j => real (γ j)) j / scaleOf s j)
        = slopes b (fun j => real (γ j)) j := fun j => mul_div_cancel₀ _ (hσ j).ne'
    simp only [e]

/-- A sum of two quantities with known errors. -/
theorem add_rounded (acc : Accurate fmt u tiny big) {x y : Fl fmt} (hx : x.isFinite) (hy : y.isFinite)
    {v w e d : ℝ} (h1 : |real x - v| ≤ e) (h2 : |real y - w| ≤ d) (hlt : |v + w| + (e + d) < big) :
    (x + y).isFinite ∧ |real (x + y) - (v + w)| ≤ afterRounding u tiny (e + d) (v + w) := by
  have hv : |(real x + real y) - (v + w)| ≤ e + d := by
    rw [add_sub_add_comm]
    exact (abs_add_le _ _).trans (add_le_add h1 h2)
  have hb : |real x + real y| < big := by
    have := abs_add_le ((real x + real y) - (v + w)) (v + w)
    rw [sub_add_cancel] at this
    linarith
  obtain ⟨a1, a2⟩ := add_near acc hx hy hb
  exact ⟨a1, near_rounded acc.u_nonneg hv a2⟩

theorem slope_back (acc : Accurate fmt u tiny big) {g c : Fl fmt} (hg : g.isFinite) (hc : c.isFinite)
    (h0 : 0 < real c) (hlt : |real g / real c| < big) :
    (g / c).isFinite ∧ |real (g / c) - real g / real c| ≤ slopeBackError u tiny (real g / real c) :=
  div_near acc hg hc h0.ne' hlt

/-- **C97** (coefficients).  The reported coefficients are the internal ones, transformed to the scale of
the user's features, up to rounding. -/
theorem C97_coefficients (acc : Accurate fmt u tiny big) (hd : raw.finalize true b = some data)
    (hs : data.standardizer = some s) (hf : StdFits u tiny big raw s) {γ : Vec (Fl fmt) (ncols b p)}
    (hg : BackFits u tiny big b s γ) (j : Fin (ncols b p)) :
    (data.inverseTransformBeta γ j).isFinite ∧
      |real (data.inverseTransformBeta γ j) - exactBack b s γ j| ≤ backError u tiny b s γ j := by
  have hu := acc.u_nonneg
  have ht := acc.tiny_nonneg
  have hd' := (finalize_std hd hs).2
  cases b with
  | false =>
    have e : data.inverseTransformBeta γ j = γ j / s.scales j := by rw [hd']; rfl
    rw [e]
    exact slope_back acc (hg.1 j) (hf j).2.1 (hf j).2.2.1 (hg.2 j)
  | true =>
    obtain ⟨g1, g2, g3⟩ := hg
    have e : data.inverseTransformBeta γ = s.inverseTransformCoefficients γ := by rw [hd']; rfl
    rw [e]
    have hslope : ∀ k : Fin p, (γ (Fin.succ k : Fin (p + 1)) / s.scales k).isFinite ∧
        |real (γ (Fin.succ k : Fin (p + 1)) / s.scales k)
          - real (γ (Fin.succ k : Fin (p + 1))) / scaleOf s k| ≤
        slopeBackError u tiny (real (γ (Fin.succ k : Fin (p + 1))) / scaleOf s k) :=
      fun k => slope_back acc (g1 _) (hf k).2.1 (hf k).2.2.1 (g2 k)
    refine Fin.cases ?_ (fun k => hslope k) j
    set v : Fin p → ℝ := fun k => real (γ (Fin.succ k : Fin (p + 1))) / scaleOf s k with hv
    have hse : ∀ k, 0 ≤ slopeBackError u tiny (v k) := fun k => by unfold slopeBackError; positivity
    have hE : ∀ k, 0 ≤ |shiftOf s k| * slopeBackError u tiny (v k) := fun k =>
      mul_nonneg (abs_nonneg _) (hse k)
    have hR : ∀ k, |shiftOf s k| * slopeBackError u tiny (v k) ≤
        afterRounding u tiny (|shiftOf s k| * slopeBackError u tiny (v k)) (shiftOf s k * v k) :=
      fun k => rounded_ge hu ht (hE k)
    have hS0 : 0 ≤ ∑ k, |shiftOf s k * v k| := Finset.sum_nonneg fun k _ => abs_nonneg _
    have hE0 : 0 ≤ ∑ k, afterRounding u tiny (|shiftOf s k| * slopeBackError u tiny (v k))
        (shiftOf s k * v k) := Finset.sum_nonneg fun k _ => (hE k).trans (hR k)
    have hT := totalError_ge (fmt := fmt) (n := p) hu ht (add_nonneg hS0 hE0)
    have g0 := abs_nonneg (real (γ (0 : Fin (p + 1))))
    change |real (γ (0 : Fin (p + 1)))| + ∑ k, |shiftOf s k * v k|
      + shiftError fmt u tiny (shiftOf s) v < big at g3
    have hterm : ∀ k, (s.shifts k * (γ (Fin.succ k : Fin (p + 1)) / s.scales k)).isFinite ∧
        |real (s.shifts k * (γ (Fin.succ k : Fin (p + 1)) / s.scales k)) - shiftOf s k * v k| ≤
          afterRounding u tiny (|shiftOf s k| * slopeBackError u tiny (v k)) (shiftOf s k * v k) := by
      intro k
      obtain ⟨k1, k2⟩ := hslope k
      refine mul_rounded acc (hf k).1 k1 ?_ ?_
      · change |shiftOf s k * _ - shiftOf s k * v k| ≤ _
        rw [← mul_sub, abs_mul]
        exact mul_le_mul_of_nonneg_left k2 (abs_nonneg _)
      · have i1 : |shiftOf s k * v k| ≤ ∑ k, |shiftOf s k * v k| :=
          Finset.single_le_sum (f := fun k => |shiftOf s k * v k|) (fun k _ => abs_nonneg _)
            (Finset.mem_univ k)
        have i2 : afterRounding u tiny (|shiftOf s k| * slopeBackError u tiny (v k)) (shiftOf s k * v k)
            ≤ ∑ k, afterRounding u tiny (|shiftOf s k| * slopeBackError u tiny (v k))
              (shiftOf s k * v k) :=
          Finset.single_le_sum (f := fun k => afterRounding u tiny
            (|shiftOf s k| * slopeBackError u tiny (v k)) (shiftOf s k * v k))
            (fun k _ => (hE k).trans (hR k)) (Finset.mem_univ k)
        have := hR k
        unfold shiftError at g3
        linarith
    obtain ⟨s1, s2⟩ := vsum_near acc (fun k => (hterm k).1) (fun k => (hterm k).2) le_rfl le_rfl (by
      unfold shiftError at g3
      linarith)
    have h0 := sub_rounded acc (g1 (0 : Fin (p + 1))) s1 (v := real (γ (0 : Fin (p + 1)))) (e := 0)
      (by simp) s2 (by
        have := abs_sub (real (γ (0 : Fin (p + 1)))) (∑ k, shiftOf s k * v k)
        have := Finset.abs_sum_le_sum_abs (fun k => shiftOf s k * v k) Finset.univ
        unfold shiftError at g3
        linarith)
    rw [zero_add] at h0
    exact h0

theorem slope_forth (acc : Accurate fmt u tiny big) {g c : Fl fmt} (hg : g.isFinite) (hc : c.isFinite)
    (h0 : 0 < real c) (hlt : |real g * real c| < big) :
    (g * c).isFinite ∧ |real (g * c) / real c - real g| ≤ slopeForthError u tiny (real c) (real g) := by
  obtain ⟨m1, m2⟩ := mul_near acc hg hc hlt
  refine ⟨m1, ?_⟩
  unfold Near at m2
  have e : real (g * c) / real c - real g = (real (g * c) - real g * real c) / real c := by
    rw [sub_div, mul_div_cancel_right₀ _ h0.ne']
  rw [e, abs_div, abs_of_pos h0, div_le_iff₀ h0]
  unfold slopeForthError
  rw [add_mul, div_mul_cancel₀ _ h0.ne', mul_assoc]
  rwa [abs_mul, abs_of_pos h0] at m2

/-- **C97** (round trip).  The user's coefficients, transformed to the internal scale by the code and back
without rounding, are the user's coefficients up to rounding. -/
theorem C97_round_trip (acc : Accurate fmt u tiny big) (hs : data.standardizer = some s)
    (hf : ∀ j, (s.shifts j).isFinite ∧ (s.scales j).isFinite ∧ 0 < scaleOf s j)
    {β : Vec (Fl fmt) (ncols b p)} (hg : ForthFits u tiny big b s β) (j : Fin (ncols b p)) :
    (data.transformBeta β j).isFinite ∧
      |exactBack b s (data.transformBeta β) j - real (β j)| ≤ forthError u tiny b s β j := by
  have hu := acc.u_nonneg
  have ht := acc.tiny_nonneg
  cases b with
  | false =>
    have e : data.transformBeta β = s.transformCoefficientsNoInt β := by
      simp only [Dataset.transformBeta, hs]
    rw [e]
    exact slope_forth acc (hg.1 j) (hf j).2.1 (hf j).2.2 (hg.2 j)
  | true =>
    obtain ⟨g1, g2, g3⟩ := hg
    have e : data.transformBeta β = s.transformCoefficients β := by
      simp only [Dataset.transformBeta, hs]
    rw [e]
    have hslope : ∀ k : Fin p, (β (Fin.succ k : Fin (p + 1)) * s.scales k).isFinite ∧
        |real (β (Fin.succ k : Fin (p + 1)) * s.scales k) / scaleOf s k
          - real (β (Fin.succ k : Fin (p + 1)))| ≤
        slopeForthError u tiny (scaleOf s k) (real (β (Fin.succ k : Fin (p + 1)))) :=
      fun k => slope_forth acc (g1 _) (hf k).2.1 (hf k).2.2 (g2 k)
    refine Fin.cases ?_ (fun k => hslope k) j
    set v : Fin p → ℝ := fun k => real (β (Fin.succ k : Fin (p + 1))) with hv
    have hR : ∀ k, 0 ≤ afterRounding u tiny 0 (shiftOf s k * v k) := fun k => rounded_ge hu ht le_rfl
    have hS0 : 0 ≤ ∑ k, |shiftOf s k * v k| := Finset.sum_nonneg fun k _ => abs_nonneg _
    have hE0 : 0 ≤ ∑ k, afterRounding u tiny 0 (shiftOf s k * v k) := Finset.sum_nonneg fun k _ => hR k
    have hT := totalError_ge (fmt := fmt) (n := p) hu ht (add_nonneg hS0 hE0)
    have g0 := abs_nonneg (real (β (0 : Fin (p + 1))))
    change |real (β (0 : Fin (p + 1)))| + ∑ k, |shiftOf s k * v k|
      + forthShiftError fmt u tiny (shiftOf s) v < big at g3
    unfold forthShiftError at g3
    have hterm : ∀ k, (s.shifts k * β (Fin.succ k : Fin (p + 1))).isFinite ∧
        |real (s.shifts k * β (Fin.succ k : Fin (p + 1))) - shiftOf s k * v k| ≤
          afterRounding u tiny 0 (shiftOf s k * v k) := by
      intro k
      refine mul_rounded acc (hf k).1 (g1 _) ?_ ?_
      · change |shiftOf s k * v k - shiftOf s k * v k| ≤ _
        rw [sub_self, abs_zero]
      · have i1 : |shiftOf s k * v k| ≤ ∑ k, |shiftOf s k * v k| :=
          Finset.single_le_sum (f := fun k => |shiftOf s k * v k|) (fun k _ => abs_nonneg _)
            (Finset.mem_univ k)
        linarith
    obtain ⟨s1, s2⟩ := vsum_near acc (fun k => (hterm k).1) (fun k => (hterm k).2) le_rfl le_rfl (by
      linarith)
    obtain ⟨k1, k2⟩ := add_rounded acc (g1 (0 : Fin (p + 1))) s1 (v := real (β (0 : Fin (p + 1)))) (e := 0)
      (by simp) s2 (by
        have := abs_add_le (real (β (0 : Fin (p + 1)))) (∑ k, shiftOf s k * v k)
        have := Finset.abs_sum_le_sum_abs (fun k => shiftOf s k * v k) Finset.univ
        linarith)
    rw [zero_add] at k2
    refine ⟨k1, ?_⟩
    change |real (β (0 : Fin (p + 1)) + vsum fun k => s.shifts k * β (Fin.succ k : Fin (p + 1)))
        - ∑ k : Fin p, shiftOf s k * (real (β (Fin.succ k : Fin (p + 1)) * s.scales k) / scaleOf s k)
        - real (β (0 : Fin (p + 1)))| ≤
      afterRounding u tiny (forthShiftError fmt u tiny (shiftOf s) v)
        (real (β (0 : Fin (p + 1))) + ∑ k, shiftOf s k * v k)
      + ∑ k : Fin p, |shiftOf s k| * slopeForthError u tiny (scaleOf s k) (v k)
    have hsum : |∑ k : Fin p, shiftOf s k * (real (β (Fin.succ k : Fin (p + 1)) * s.scales k) / scaleOf s k)
        - ∑ k, shiftOf s k * v k| ≤
        ∑ k : Fin p, |shiftOf s k| * slopeForthError u tiny (scaleOf s k) (v k) := by
      rw [← Finset.sum_sub_distrib]
      refine (Finset.abs_sum_le_sum_abs _ _).trans (Finset.sum_le_sum fun k _ => ?_)
      rw [← mul_sub, abs_mul]
      exact mul_le_mul_of_nonneg_left (hslope k).2 (abs_nonneg _)
    unfold forthShiftError
    rw [abs_le] at k2 hsum ⊢
    constructor <;> linarith [k2.1, k2.2, hsum.1, hsum.2]

/-- **C97** (linear predictors).  The linear predictor of the user's features at the reported coefficients
is the one of the stored features at the internal coefficients, up to rounding. -/
theorem C97_predictor (acc : Accurate fmt u tiny big) (hd : raw.finalize true b = some data)
    (hs : data.standardizer = some s) (hf : StdFits u tiny big raw s) {γ : Vec (Fl fmt) (ncols b p)}
    (hg : BackFits u tiny big b s γ) (i : Fin n) :
    |exactPred b raw.x raw.linearOffset (data.inverseTransformBeta γ) i
      - exactPred b data.features raw.linearOffset γ i| ≤ predShift u tiny b raw s γ i := by
  have hσ : ∀ j, 0 < scaleOf s j := fun j => (hf j).2.2.1
  have hμ : b = false → ∀ j, shiftOf s j = 0 := by rintro rfl j; exact std_shift hd hs j
  have h1 := readBack_linPred (raw := raw) (data := data) hσ hμ γ i
  have h1' : exactPred b data.features raw.linearOffset γ i
      = linPred (readBack raw data s) b (exactBack b s γ) i := h1.symm
  have ho : offset (readBack raw data s) i = offsetAt raw.linearOffset i := by
    unfold offset offsetAt readBack
    cases raw.linearOffset <;> rfl
  rw [h1']
  unfold exactPred linPred
  rw [ho, add_sub_add_right_eq_sub]
  have e : ∑ j, design b (fun i j => real (raw.x i j)) i j * real (data.inverseTransformBeta γ j)
      - ∑ j, design b (readBack raw data s).x i j * exactBack b s γ j
      = ∑ j, design b (exactData raw).x i j * (real (data.inverseTransformBeta γ j) - exactBack b s γ j)
        + ∑ j, slopes b (exactBack b s γ) j * (real (raw.x i j) - (readBack raw data s).x i j) := by
    have e1 : ∑ j, (design b (exactData raw).x i j - design b (readBack raw data s).x i j)
          * exactBack b s γ j
        = ∑ j, slopes b (exactBack b s γ) j * (real (raw.x i j) - (readBack raw data s).x i j) := by
      cases b with
      | false => exact Finset.sum_congr rfl fun j _ => mul_comm _ _
      | true =>
        change ∑ j : Fin (p + 1), _ = _
        rw [Fin.sum_univ_succ]
        change (1 - 1) * _ + _ = _
        rw [sub_self, zero_mul, zero_add]
        exact Finset.sum_congr rfl fun j _ => mul_comm _ _
    rw [← e1, ← Finset.sum_add_distrib, ← Finset.sum_sub_distrib]
    refine Finset.sum_congr rfl fun j _ => ?_
    change design b (exactData raw).x i j * _ - _ = _
    ring
  rw [e]
  unfold predShift
  refine (abs_add_le _ _).trans (add_le_add ?_ ?_)
  · refine (Finset.abs_sum_le_sum_abs _ _).trans (Finset.sum_le_sum fun j _ => ?_)
    rw [abs_mul]
    exact mul_le_mul_of_nonneg_left (C97_coefficients acc hd hs hf hg j).2 (abs_nonneg _)
  · refine (Finset.abs_sum_le_sum_abs _ _).trans (Finset.sum_le_sum fun j _ => ?_)
    rw [abs_mul, abs_sub_comm]
    exact mul_le_mul_of_nonneg_left (C97_features acc hd hs hf i j).2 (abs_nonneg _)

/-- The data set with the stored features, as it would be built without standardization. -/
theorem stored_finalize (hd : raw.finalize true b = some data) (hs : data.standardizer = some s) :
    (storedRaw raw data).finalize false b = some { data with standardizer := none } := by
  have hd' := (finalize_std hd hs).2
  have hx : Dataset.padded b data.features = data.x := by
    rw [std_features hd hs, hd']
  change some _ = some _
  congr 1
  rw [show (storedRaw raw data).x = data.features from rfl, hx, hd']
  rfl

/-- **C97** (likelihood).  The likelihood that the fit reports is the exact penalized log-likelihood of the
features that are read back, with the penalty on the standardized scale, up to the bound of C95. -/
theorem C97_likelihood (acc : AccurateLogs fmt u tiny big) (hd : raw.finalize true b = some data)
    (hs : data.standardizer = some s) (h : regression env fam.glm data options = .ok f)
    (hσ : ∀ j, 0 < scaleOf s j)
    (hf : PenLikFits u tiny big fam (storedRaw raw data) b options.l1 options.l2 f.resultStd) :
    f.result = data.inverseTransformBeta f.resultStd ∧ f.modelLike.isFinite ∧
      |real f.modelLike - penLogLik fam.glm (readBack raw data s) b (real options.l1) (real options.l2)
          (scaleOf s) (exactBack b s f.resultStd)| ≤
        penLikError u tiny fam (storedRaw raw data) b (real options.l1) (real options.l2) f.resultStd := by
  obtain ⟨-, h1, h2⟩ := C27_recorded_likelihoods h
  have hμ : b = false → ∀ j, shiftOf s j = 0 := by rintro rfl j; exact std_shift hd hs j
  refine ⟨h1, ?_⟩
  rw [readBack_penLogLik hσ hμ, h2]
  exact C95_penalized acc fam (stored_finalize hd hs) options hf

end
end GLM
