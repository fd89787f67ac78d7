/-
  C97: the score of a fit with standardized features in floating-point arithmetic, and what it certifies.
-/
import Verif.Props.StandardAccuracy

namespace GLM
open Spec Scalar Fl Matrix

section
variable {fmt : FloatFormat} {u tiny big : ℝ} {n p : ℕ} {b : Bool} {env : Env (Fl fmt)} {fam : Family}
  {raw : Dataset (Fl fmt) n p false} {data : Dataset (Fl fmt) n p b} {s : Standardizer (Fl fmt) p}
  {options : FitOptions (Fl fmt) (ncols b p)} {f : Fit (Fl fmt) n p b}

/-- The gradient with respect to the user's coefficients, computed from the one with respect to the
standardized coefficients. -/
theorem backScore_near (acc : Accurate fmt u tiny big) (hs : data.standardizer = some s)
    (hf : ∀ j, (s.shifts j).isFinite ∧ (s.scales j).isFinite ∧ 0 < scaleOf s j)
    {g : Vec (Fl fmt) (ncols b p)} {v e : Vec ℝ (ncols b p)} (hg : ∀ j, (g j).isFinite)
    (h : ∀ j, |real (g j) - v j| ≤ e j) (hb : BackScoreFits u tiny big b s v e) (j : Fin (ncols b p)) :
    (data.inverseTransformScore g j).isFinite ∧
      |real (data.inverseTransformScore g j) - backScore b s v j| ≤ backScoreError u tiny b s v e j := by
  have hu := acc.u_nonneg
  have ht := acc.tiny_nonneg
  have he : ∀ j, 0 ≤ e j := fun j => (abs_nonneg _).trans (h j)
  have hscale : ∀ (k : Fin p) {x : Fl fmt} {w d : ℝ}, x.isFinite → |real x - w| ≤ d →
      |w * scaleOf s k| + scaleOf s k * d < big →
      (x * s.scales k).isFinite ∧
        |real (x * s.scales k) - w * scaleOf s k| ≤ afterRounding u tiny (scaleOf s k * d) (w * scaleOf s k) := by
    intro k x w d hx hd hlt
    refine mul_rounded acc hx (hf k).2.1 ?_ hlt
    change |real x * scaleOf s k - w * scaleOf s k| ≤ _
    rw [← sub_mul, abs_mul, abs_of_pos (hf k).2.2, mul_comm]
    exact mul_le_mul_of_nonneg_left hd (hf k).2.2.le
  cases b with
  | false =>
    have e1 : data.inverseTransformScore g j = g j * s.scales j := by
      simp only [Dataset.inverseTransformScore, hs]; rfl
    rw [e1]
    exact hscale j (hg j) (h j) (hb j)
  | true =>
    have e1 : data.inverseTransformScore g = s.inverseTransformScore g := by
      simp only [Dataset.inverseTransformScore, hs]
    rw [e1]
    refine Fin.cases ⟨hg (0 : Fin (p + 1)), h (0 : Fin (p + 1))⟩ (fun k => ?_) j
    have hk := hb k
    have h0 := he (0 : Fin (p + 1))
    have h1 := he (Fin.succ k : Fin (p + 1))
    have σ0 := (hf k).2.2.le
    have r1 := rounded_ge hu ht (v := v (Fin.succ k : Fin (p + 1)) * scaleOf s k) (mul_nonneg σ0 h1)
    have r2 := rounded_ge hu ht (v := shiftOf s k * v (0 : Fin (p + 1)))
      (mul_nonneg (abs_nonneg (shiftOf s k)) h0)
    have n1 := abs_nonneg (v (Fin.succ k : Fin (p + 1)) * scaleOf s k)
    have n2 := abs_nonneg (shiftOf s k * v (0 : Fin (p + 1)))
    have m1 := mul_nonneg σ0 h1
    have m2 := mul_nonneg (abs_nonneg (shiftOf s k)) h0
    obtain ⟨a1, a2⟩ := hscale k (hg (Fin.succ k : Fin (p + 1))) (h _) (by linarith)
    obtain ⟨c1, c2⟩ := mul_rounded acc (hf k).1 (hg (0 : Fin (p + 1))) (v := shiftOf s k)
      (w := v (0 : Fin (p + 1))) (E := |shiftOf s k| * e (0 : Fin (p + 1))) (by
        change |shiftOf s k * _ - _| ≤ _
        rw [← mul_sub, abs_mul]
        exact mul_le_mul_of_nonneg_left (h _) (abs_nonneg _)) (by linarith)
    refine add_rounded acc a1 c1 a2 c2 ?_
    have := abs_add_le (v (Fin.succ k : Fin (p + 1)) * scaleOf s k) (shiftOf s k * v (0 : Fin (p + 1)))
    linarith

/-- The exact gradient of the objective of the features that are read back, from the one of the stored
features. -/
theorem readBack_penScore (hσ : ∀ j, 0 < scaleOf s j) (hμ : b = false → ∀ j, shiftOf s j = 0) (l1 l2 : ℝ)
    (γ : Vec (Fl fmt) (ncols b p)) :
    penScore fam.glm (readBack raw data s) b l1 l2 (scaleOf s) (exactBack b s γ)
      = backScore b s (exactScore fam (storedRaw raw data) b l1 l2 γ) := by
  set w : Fin n → ℝ := fun i => totalWt (exactData (storedRaw raw data)) i
    * (fam.glm (F := ℝ)).link.dNatParam (linPred (exactData (storedRaw raw data)) b (fun j => real (γ j)) i)
    * ((exactData (storedRaw raw data)).y i - meanAt fam.glm (exactData (storedRaw raw data)) b
        (fun j => real (γ j)) i) with hw
  have h2 : ∀ i, linPred (readBack raw data s) b (exactBack b s γ) i
      = linPred (exactData (storedRaw raw data)) b (fun j => real (γ j)) i := by
    intro i
    rw [readBack_linPred hσ hμ, exactData_linPred]; rfl
  have hx : ∀ j, scoreVec fam.glm (readBack raw data s) b (exactBack b s γ) j
      = ∑ i, w i * design b (readBack raw data s).x i j := by
    intro j
    unfold scoreVec
    refine Finset.sum_congr rfl fun i _ => ?_
    rw [hw]
    unfold meanAt
    simp only [h2]
    rfl
  have hsgn : ∀ j, SignType.sign (slopes b (exactBack b s γ) j)
      = SignType.sign (slopes b (fun j => real (γ j)) j) := by
    intro j
    rw [exactBack_slopes, div_eq_mul_inv, sign_mul, sign_pos (inv_pos.mpr (hσ j)), mul_one]
  have hone : ∀ j, max l1 0 * (scaleOf s j * (SignType.sign (slopes b (exactBack b s γ) j) : ℝ))
        + max l2 0 * (scaleOf s j ^ 2 * slopes b (exactBack b s γ) j)
      = scaleOf s j * (max l1 0 * (1 * (SignType.sign (slopes b (fun j => real (γ j)) j) : ℝ))
        + max l2 0 * (1 ^ 2 * slopes b (fun j => real (γ j)) j)) := by
    intro j
    rw [hsgn, exactBack_slopes]
    have := (hσ j).ne'
    field_simp
  cases b with
  | false =>
    funext j
    change scoreVec fam.glm (readBack raw data s) false (exactBack false s γ) j
        - (max l1 0 * (scaleOf s j * (SignType.sign (slopes false (exactBack false s γ) j) : ℝ))
        + max l2 0 * (scaleOf s j ^ 2 * slopes false (exactBack false s γ) j))
      = (∑ i, w i * real (data.features i j)
        - (max l1 0 * (1 * (SignType.sign (slopes false (fun j => real (γ j)) j) : ℝ))
        + max l2 0 * (1 ^ 2 * slopes false (fun j => real (γ j)) j))) * scaleOf s j
    rw [hone, hx, sub_mul, Finset.sum_mul, mul_comm (scaleOf s j)]
    congr 1
    refine Finset.sum_congr rfl fun i _ => ?_
    change w i * (real (data.features i j) * scaleOf s j + shiftOf s j) = _
    rw [hμ rfl, add_zero, ← mul_assoc]
  | true =>
    funext j
    have h0 : exactScore fam (storedRaw raw data) true l1 l2 γ (0 : Fin (p + 1)) = ∑ i, w i := by
      change ∑ i, w i * 1 - 0 = _
      simp only [mul_one, sub_zero]
    refine Fin.cases ?_ (fun j => ?_) j
    · change scoreVec fam.glm (readBack raw data s) true (exactBack true s γ) (0 : Fin (p + 1)) - 0
        = exactScore fam (storedRaw raw data) true l1 l2 γ (0 : Fin (p + 1))
      rw [h0, hx, sub_zero]
      exact Finset.sum_congr rfl fun i _ => mul_one _
    · change scoreVec fam.glm (readBack raw data s) true (exactBack true s γ) (Fin.succ j : Fin (p + 1))
        - (max l1 0 * (scaleOf s j * (SignType.sign (slopes true (exactBack true s γ) j) : ℝ))
        + max l2 0 * (scaleOf s j ^ 2 * slopes true (exactBack true s γ) j))
      = (∑ i, w i * real (data.features i j)
        - (max l1 0 * (1 * (SignType.sign (slopes true (fun j => real (γ j)) j) : ℝ))
        + max l2 0 * (1 ^ 2 * slopes true (fun j => real (γ j)) j))) * scaleOf s j
        + shiftOf s j * exactScore fam (storedRaw raw data) true l1 l2 γ (0 : Fin (p + 1))
      rw [h0, hone, hx, sub_mul, Finset.sum_mul, Finset.mul_sum, mul_comm (scaleOf s j), sub_add_eq_add_sub,
        ← Finset.sum_add_distrib]
      congr 1
      refine Finset.sum_congr rfl fun i _ => ?_
      change w i * (real (data.features i j) * scaleOf s j + shiftOf s j) = _
      ring

/-- **C97** (score).  The score that a fit with standardized features computes at any coefficients is
finite and close to the exact gradient of the penalized log-likelihood of the features that are read
back. -/
theorem C97_score (acc : Accurate fmt u tiny big) (hd : raw.finalize true b = some data)
    (hs : data.standardizer = some s) (h : regression env fam.glm data options = .ok f)
    {β : Vec (Fl fmt) (ncols b p)}
    (hf : StdScoreFits u tiny big fam raw data s options.l1 options.l2 (data.transformBeta β))
    (j : Fin (ncols b p)) :
    (f.score β j).isFinite ∧
      |real (f.score β j) - penScore fam.glm (readBack raw data s) b (real options.l1) (real options.l2)
          (scaleOf s) (exactBack b s (data.transformBeta β)) j| ≤
        stdScoreError u tiny big fam raw data s (real options.l1) (real options.l2)
          (data.transformBeta β) j := by
  obtain ⟨hg, hdat, hopt, hc⟩ := regression_coherent h
  have hreg := hc.reg
  rw [hopt] at hreg
  obtain ⟨f1, f2, f3⟩ := hf
  have hμ : b = false → ∀ j, shiftOf s j = 0 := by rintro rfl j; exact std_shift hd hs j
  have hin := fun k => plainScore_near acc (stored_finalize hd hs) options (f2 k)
  have hsc : f.score β = data.inverseTransformScore ((getReg options).gradient
      (data.xConj.dotV (fun i => fam.glm.link.adjustErrors
        (data.y i - fam.glm.link.funcInv (data.linearPredictorStd (data.transformBeta β) i))
        (data.linearPredictorStd (data.transformBeta β) i))) (data.transformBeta β)) := by
    unfold Fit.score
    rw [hg, hdat, hreg.gradient]
    rfl
  rw [hsc, readBack_penScore (fun j => (f1 j).2.2) hμ]
  exact backScore_near acc hs f1 (fun k => (hin k).1) (fun k => (hin k).2) f3 j

/-! ### The certificate -/

/-- A bound of the score at `r` bounds the gain of any other coefficients. -/
theorem strong_gap {d : Dataset ℝ n p false} (hc : Spec.Concave fam d) {l1 l2 : ℝ} (hl2 : 0 < l2)
    {σ : Fin p → ℝ} (hσ : ∀ j, 0 < σ j) {r β t : Vec ℝ (ncols b p)} (hr : Admissible fam d b r)
    (hβ : Admissible fam d b β) (ht : ∀ j, |penScore fam.glm d b l1 l2 σ r j| ≤ t j) :
    penLogLik fam.glm d b l1 l2 σ β + l2 / 2 * ∑ j, (σ j * (slopes b β j - slopes b r j)) ^ 2 ≤
    penLogLik fam.glm d b l1 l2 σ r + interceptPart b t * |interceptPart b β - interceptPart b r|
      + ∑ j, slopes b t j * |slopes b β j - slopes b r j| := by
  have h1 := penLogLik_strong (l1 := l1) hc hl2 hσ hr hβ
  have hi : slopes b (β - r) = fun j => slopes b β j - slopes b r j := by cases b <;> rfl
  have h0 : interceptPart b (β - r) = interceptPart b β - interceptPart b r := by
    cases b
    · exact (sub_zero _).symm
    · rfl
  rw [dot_split, h0, hi] at h1
  set v := penScore fam.glm d b l1 l2 σ r with hv
  have k0 : interceptPart b v * (interceptPart b β - interceptPart b r) ≤
      interceptPart b t * |interceptPart b β - interceptPart b r| := by
    refine (le_abs_self _).trans ?_
    rw [abs_mul]
    refine mul_le_mul_of_nonneg_right ?_ (abs_nonneg _)
    cases b
    · exact abs_zero.le
    · exact ht 0
  have k1 : ∑ j, slopes b v j * (slopes b β j - slopes b r j) ≤
      ∑ j, slopes b t j * |slopes b β j - slopes b r j| := by
    refine Finset.sum_le_sum fun j _ => ?_
    refine (le_abs_self _).trans ?_
    rw [abs_mul]
    refine mul_le_mul_of_nonneg_right ?_ (abs_nonneg _)
    cases b
    · exact ht j
    · exact ht (Fin.succ j)
  linarith

/-- The same, with the slopes removed by the strong concavity. -/
theorem strong_suboptimal {d : Dataset ℝ n p false} (hc : Spec.Concave fam d) {l1 l2 : ℝ} (hl2 : 0 < l2)
    {σ : Fin p → ℝ} (hσ : ∀ j, 0 < σ j) {r β t : Vec ℝ (ncols b p)} (hr : Admissible fam d b r)
    (hβ : Admissible fam d b β) (ht : ∀ j, |penScore fam.glm d b l1 l2 σ r j| ≤ t j) :
    penLogLik fam.glm d b l1 l2 σ β ≤ penLogLik fam.glm d b l1 l2 σ r
      + (∑ j, (slopes b t j / σ j) ^ 2) / (2 * l2)
      + interceptPart b t * |interceptPart b β - interceptPart b r| := by
  have h1 := strong_gap hc hl2 hσ hr hβ ht
  have h2 : ∑ j, slopes b t j * |slopes b β j - slopes b r j|
      ≤ (∑ j, (slopes b t j / σ j) ^ 2) / (2 * l2)
        + l2 / 2 * ∑ j, (σ j * (slopes b β j - slopes b r j)) ^ 2 := by
    rw [Finset.sum_div, Finset.mul_sum, ← Finset.sum_add_distrib]
    refine Finset.sum_le_sum fun j _ => ?_
    have hj := hσ j
    rw [mul_pow, ← sq_abs (slopes b β j - _)]
    generalize |slopes b β j - slopes b r j| = v
    generalize slopes b t j = t'
    generalize σ j = c at hj
    have : (t' / c) ^ 2 / (2 * l2) + l2 / 2 * (c ^ 2 * v ^ 2) - t' * v
        = (t' / c - l2 * (c * v)) ^ 2 / (2 * l2) := by field_simp; ring
    have : 0 ≤ (t' / c - l2 * (c * v)) ^ 2 / (2 * l2) := by positivity
    linarith
  linarith

/-- Coefficients that are at least as good are close. -/
theorem strong_distance {d : Dataset ℝ n p false} (hc : Spec.Concave fam d) {l1 l2 : ℝ} (hl2 : 0 < l2)
    {σ : Fin p → ℝ} (hσ : ∀ j, 0 < σ j) {r β t : Vec ℝ (ncols b p)} (hr : Admissible fam d b r)
    (hβ : Admissible fam d b β) (ht : ∀ j, |penScore fam.glm d b l1 l2 σ r j| ≤ t j)
    (hge : penLogLik fam.glm d b l1 l2 σ r ≤ penLogLik fam.glm d b l1 l2 σ β) :
    ∑ j, (σ j * (slopes b β j - slopes b r j)) ^ 2 ≤ 4 * (∑ j, (slopes b t j / σ j) ^ 2) / l2 ^ 2
      + 4 * (interceptPart b t * |interceptPart b β - interceptPart b r|) / l2 := by
  have h1 := strong_gap hc hl2 hσ hr hβ ht
  have h2 : ∑ j, slopes b t j * |slopes b β j - slopes b r j|
      ≤ (∑ j, (slopes b t j / σ j) ^ 2) / l2
        + l2 / 4 * ∑ j, (σ j * (slopes b β j - slopes b r j)) ^ 2 := by
    rw [Finset.sum_div, Finset.mul_sum, ← Finset.sum_add_distrib]
    refine Finset.sum_le_sum fun j _ => ?_
    have hj := hσ j
    rw [mul_pow, ← sq_abs (slopes b β j - _)]
    generalize |slopes b β j - slopes b r j| = v
    generalize slopes b t j = t'
    generalize σ j = c at hj
    have : (t' / c) ^ 2 / l2 + l2 / 4 * (c ^ 2 * v ^ 2) - t' * v
        = (t' / c - l2 / 2 * (c * v)) ^ 2 / l2 := by field_simp; ring
    have : 0 ≤ (t' / c - l2 / 2 * (c * v)) ^ 2 / l2 := by positivity
    linarith
  set X := ∑ j, (σ j * (slopes b β j - slopes b r j)) ^ 2
  set T := ∑ j, (slopes b t j / σ j) ^ 2
  set I := interceptPart b t * |interceptPart b β - interceptPart b r|
  have h3 : l2 / 4 * X ≤ T / l2 + I := by linarith
  have h4 : 4 * T / l2 ^ 2 + 4 * I / l2 = 4 / l2 * (T / l2 + I) := by field_simp
  have h5 : X = 4 / l2 * (l2 / 4 * X) := by field_simp
  rw [h4, h5]
  exact mul_le_mul_of_nonneg_left h3 (by positivity)

/-- What a fit with standardized features knows about the exact score at its result. -/
noncomputable def stdScoreBound (u tiny big : ℝ) (fam : Family) (raw : Dataset (Fl fmt) n p false)
    (s : Standardizer (Fl fmt) p) (f : Fit (Fl fmt) n p b) : Vec ℝ (ncols b p) := fun j =>
  |real (f.score f.result j)|
    + stdScoreError u tiny big fam raw f.data s (real f.options.l1) (real f.options.l2)
        (f.data.transformBeta f.result) j

theorem std_bound (acc : Accurate fmt u tiny big) (hd : raw.finalize true b = some data)
    (hs : data.standardizer = some s) (h : regression env fam.glm data options = .ok f)
    (hf : StdScoreFits u tiny big fam raw data s options.l1 options.l2 (data.transformBeta f.result))
    (j : Fin (ncols b p)) :
    |penScore fam.glm (readBack raw data s) b (real options.l1) (real options.l2) (scaleOf s)
        (exactBack b s (data.transformBeta f.result)) j| ≤ stdScoreBound u tiny big fam raw s f j := by
  obtain ⟨-, hdat, hopt, -⟩ := regression_coherent h
  have h1 := (C97_score acc hd hs h hf j).2
  have e := abs_sub_abs_le_abs_sub (penScore fam.glm (readBack raw data s) b (real options.l1)
    (real options.l2) (scaleOf s) (exactBack b s (data.transformBeta f.result)) j)
    (real (f.score f.result j))
  rw [abs_sub_comm] at e
  unfold stdScoreBound
  rw [hopt, hdat]
  linarith

theorem readBack_concave (hc : Spec.Concave fam (exactData raw)) :
    Spec.Concave fam (readBack raw data s) where
  valid := hc.valid
  pair := hc.pair
  y := hc.y
  weights := hc.weights

/-- **C97** (suboptimality).  As `C96_suboptimality`, for standardized features: with the features that
are read back and the penalty on the standardized scale, no coefficients beat the reported ones, read
back from the internal ones, by more than the score allows. -/
theorem C97_suboptimality (acc : Accurate fmt u tiny big) (hc : Spec.Concave fam (exactData raw))
    (hd : raw.finalize true b = some data) (hs : data.standardizer = some s)
    (h : regression env fam.glm data options = .ok f) (hl2 : 0 < real options.l2)
    (hf : StdScoreFits u tiny big fam raw data s options.l1 options.l2 (data.transformBeta f.result))
    (ha : Admissible fam (readBack raw data s) b (exactBack b s (data.transformBeta f.result)))
    {β : Vec ℝ (ncols b p)} (hβ : Admissible fam (readBack raw data s) b β) :
    penLogLik fam.glm (readBack raw data s) b (real options.l1) (real options.l2) (scaleOf s) β ≤
    penLogLik fam.glm (readBack raw data s) b (real options.l1) (real options.l2) (scaleOf s)
        (exactBack b s (data.transformBeta f.result))
      + (∑ j, (slopes b (stdScoreBound u tiny big fam raw s f) j / scaleOf s j) ^ 2)
        / (2 * real options.l2)
      + interceptPart b (stdScoreBound u tiny big fam raw s f)
        * |interceptPart b β - interceptPart b (exactBack b s (data.transformBeta f.result))| :=
  strong_suboptimal (readBack_concave hc) hl2 (fun j => (hf.1 j).2.2) ha hβ
    (std_bound acc hd hs h hf)

/-- **C97** (distance). -/
theorem C97_distance (acc : Accurate fmt u tiny big) (hc : Spec.Concave fam (exactData raw))
    (hd : raw.finalize true b = some data) (hs : data.standardizer = some s)
    (h : regression env fam.glm data options = .ok f) (hl2 : 0 < real options.l2)
    (hf : StdScoreFits u tiny big fam raw data s options.l1 options.l2 (data.transformBeta f.result))
    (ha : Admissible fam (readBack raw data s) b (exactBack b s (data.transformBeta f.result)))
    {β : Vec ℝ (ncols b p)} (hβ : Admissible fam (readBack raw data s) b β)
    (hge : penLogLik fam.glm (readBack raw data s) b (real options.l1) (real options.l2) (scaleOf s)
        (exactBack b s (data.transformBeta f.result)) ≤
      penLogLik fam.glm (readBack raw data s) b (real options.l1) (real options.l2) (scaleOf s) β) :
    ∑ j, (scaleOf s j * (slopes b β j - slopes b (exactBack b s (data.transformBeta f.result)) j)) ^ 2 ≤
      4 * (∑ j, (slopes b (stdScoreBound u tiny big fam raw s f) j / scaleOf s j) ^ 2)
        / real options.l2 ^ 2
      + 4 * (interceptPart b (stdScoreBound u tiny big fam raw s f)
        * |interceptPart b β - interceptPart b (exactBack b s (data.transformBeta f.result))|)
        / real options.l2 :=
  strong_distance (readBack_concave hc) hl2 (fun j => (hf.1 j).2.2) ha hβ
    (std_bound acc hd hs h hf) hge

end

section
variable {fmt : FloatFormat} {u tiny big : ℝ} {n p : ℕ} {env : Env (Fl fmt)} {fam : Family}
  {raw : Dataset (Fl fmt) n p false} {data : Dataset (Fl fmt) n p false} {s : Standardizer (Fl fmt) p}
  {options : FitOptions (Fl fmt) (ncols false p)} {f : Fit (Fl fmt) n p false}

/-- **C97** (optimum).  As `C96_optimum`, for standardized features without an intercept: the exact problem
of the features that are read back has exactly one optimum, and the reported coefficients are close to it
on the standardized scale. -/
theorem C97_optimum (acc : Accurate fmt u tiny big) (hc : Spec.Concave fam (exactData raw))
    (hdom : predDom fam = Set.univ) (hd : raw.finalize true false = some data)
    (hs : data.standardizer = some s) (h : regression env fam.glm data options = .ok f)
    (hl2 : 0 < real options.l2)
    (hf : StdScoreFits u tiny big fam raw data s options.l1 options.l2 (data.transformBeta f.result))
    (hfw : ForthFits u tiny big false s f.result) :
    ∃ βs : Vec ℝ p,
      (∀ β : Vec ℝ p,
        penLogLik (p := p) fam.glm (readBack raw data s) false (real options.l1) (real options.l2) (scaleOf s) β ≤
        penLogLik (p := p) fam.glm (readBack raw data s) false (real options.l1) (real options.l2) (scaleOf s) βs) ∧
      (∀ β' : Vec ℝ p, (∀ β : Vec ℝ p,
        penLogLik (p := p) fam.glm (readBack raw data s) false (real options.l1) (real options.l2) (scaleOf s) β ≤
        penLogLik (p := p) fam.glm (readBack raw data s) false (real options.l1) (real options.l2) (scaleOf s) β') →
        β' = βs) ∧
      ∀ j, scaleOf s j * |βs j - real (f.result j)| ≤
        2 * √(∑ k, (stdScoreBound u tiny big fam raw s f k / scaleOf s k) ^ 2) / real options.l2
          + scaleOf s j * forthError u tiny false s f.result j := by
  have hσ : ∀ j, 0 < scaleOf s j := fun j => (hf.1 j).2.2
  have hadm : ∀ β : Vec ℝ (ncols false p), Admissible fam (readBack raw data s) false β :=
    fun β i => hdom ▸ Set.mem_univ _
  obtain ⟨βs, h1, h2⟩ := C71_exists (l1 := real options.l1) (readBack_concave (data := data) (s := s) hc) hdom hl2
    (σ := scaleOf s) hσ
  refine ⟨βs, h1, h2, fun j => ?_⟩
  have h3 := C97_distance acc hc hd hs h hl2 hf (hadm _) (hadm βs) (h1 _)
  simp only [interceptPart, sub_zero, abs_zero, mul_zero, zero_div, add_zero] at h3
  set r := exactBack false s (data.transformBeta f.result) with hr
  change ∑ j : Fin p, (scaleOf s j * (βs j - r j)) ^ 2 ≤
    4 * (∑ j : Fin p, (stdScoreBound u tiny big fam raw s f j / scaleOf s j) ^ 2) / real options.l2 ^ 2 at h3
  set T := ∑ k : Fin p, (stdScoreBound u tiny big fam raw s f k / scaleOf s k) ^ 2 with hT
  have hT0 : 0 ≤ T := Finset.sum_nonneg fun k _ => sq_nonneg _
  have h4 : (scaleOf s j * (βs j - r j)) ^ 2 ≤ (2 * √T / real options.l2) ^ 2 := by
    have k1 : (scaleOf s j * (βs j - r j)) ^ 2 ≤ ∑ j : Fin p, (scaleOf s j * (βs j - r j)) ^ 2 :=
      Finset.single_le_sum (f := fun j : Fin p => (scaleOf s j * (βs j - r j)) ^ 2)
        (fun k _ => sq_nonneg _) (Finset.mem_univ j)
    refine k1.trans (h3.trans (le_of_eq ?_))
    rw [div_pow, mul_pow, Real.sq_sqrt hT0]
    norm_num
  have h5 := abs_le_of_sq_le_sq h4 (by positivity)
  have h6 : scaleOf s j * |βs j - r j| ≤ 2 * √T / real options.l2 := by
    rw [abs_mul, abs_of_pos (hσ j)] at h5
    exact h5
  have h7 := (C97_round_trip acc hs hf.1 hfw j).2
  have h8 : |βs j - real (f.result j)| ≤ |βs j - r j| + |r j - real (f.result j)| := abs_sub_le _ _ _
  have h9 := mul_le_mul_of_nonneg_left (h8.trans (add_le_add le_rfl h7)) (hσ j).le
  rw [mul_add] at h9
  linarith

end
end GLM
