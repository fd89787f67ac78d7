/-
  C96: the score that a fit reports in floating-point arithmetic bounds how far the reported coefficients
  are from the optimum of the exact problem.
-/
import Verif.Props.ScoreAccuracy

namespace GLM
open Spec Scalar Fl Matrix

section
variable {fmt : FloatFormat} {u tiny big : ℝ} {n p : ℕ} {b : Bool} {env : Env (Fl fmt)} {fam : Family}
  {raw : Dataset (Fl fmt) n p false} {data : Dataset (Fl fmt) n p b}
  {options : FitOptions (Fl fmt) (ncols b p)} {f : Fit (Fl fmt) n p b}

/-- A vector as the intercept and the slopes. -/
theorem dot_split (s x : Vec ℝ (ncols b p)) :
    s ⬝ᵥ x = interceptPart b s * interceptPart b x + ∑ j, slopes b s j * slopes b x j := by
  cases b
  · change _ = 0 * 0 + _
    rw [zero_mul, zero_add]
    rfl
  · exact Fin.sum_univ_succ (n := p) (f := fun j => s j * x j)

/-- What a fit knows about the exact score at its result. -/
noncomputable def scoreBound (u tiny big : ℝ) (fam : Family) (raw : Dataset (Fl fmt) n p false)
    (f : Fit (Fl fmt) n p b) : Vec ℝ (ncols b p) := fun j =>
  |real (f.score f.result j)|
    + scoreError u tiny big fam raw b (real f.options.l1) (real f.options.l2) f.result j

/-- The score bounds the gain of any other coefficients, up to the gain of strong concavity. -/
theorem certificate_gap (acc : Accurate fmt u tiny big) (hc : Spec.Concave fam (exactData raw))
    (hd : raw.finalize false b = some data) (h : regression env fam.glm data options = .ok f)
    (hl2 : 0 < real options.l2)
    (hf : ∀ j, ScoreFits u tiny big fam raw b options.l1 options.l2 f.result j)
    (ha : Admissible fam (exactData raw) b fun j => real (f.result j)) {β : Vec ℝ (ncols b p)}
    (hβ : Admissible fam (exactData raw) b β) :
    penLogLik fam.glm (exactData raw) b (real options.l1) (real options.l2) (fun _ => 1) β
      + real options.l2 / 2 * ∑ j, (slopes b β j - slopes b (fun j => real (f.result j)) j) ^ 2 ≤
    exactPenLik fam raw b (real options.l1) (real options.l2) f.result
      + interceptPart b (scoreBound u tiny big fam raw f)
        * |interceptPart b β - interceptPart b fun j => real (f.result j)|
      + ∑ j, slopes b (scoreBound u tiny big fam raw f) j
        * |slopes b β j - slopes b (fun j => real (f.result j)) j| := by
  obtain ⟨-, -, hopt, -⟩ := regression_coherent h
  have h1 := penLogLik_strong (l1 := real options.l1) hc hl2 (σ := fun _ => 1) (fun _ => one_pos) ha hβ
  simp only [one_mul] at h1
  set r : Vec ℝ (ncols b p) := fun j => real (f.result j) with hr
  have hsc : ∀ j, |exactScore fam raw b (real options.l1) (real options.l2) f.result j|
      ≤ scoreBound u tiny big fam raw f j := by
    intro j
    have := (C96_score acc hd h (hf j)).2
    have e := abs_sub_abs_le_abs_sub (exactScore fam raw b (real options.l1) (real options.l2) f.result j)
      (real (f.score f.result j))
    rw [abs_sub_comm] at e
    unfold scoreBound
    rw [hopt]
    linarith
  have hi : slopes b (β - r) = fun j => slopes b β j - slopes b r j := by cases b <;> rfl
  have h0 : interceptPart b (β - r) = interceptPart b β - interceptPart b r := by
    cases b
    · exact (sub_zero _).symm
    · rfl
  have e : penScore fam.glm (exactData raw) b (real options.l1) (real options.l2) (fun _ => 1) r
      = exactScore fam raw b (real options.l1) (real options.l2) f.result := rfl
  rw [e, dot_split, h0, hi] at h1
  set s := exactScore fam raw b (real options.l1) (real options.l2) f.result with hs
  have k0 : interceptPart b s * (interceptPart b β - interceptPart b r) ≤
      interceptPart b (scoreBound u tiny big fam raw f) * |interceptPart b β - interceptPart b r| := by
    refine (le_abs_self _).trans ?_
    rw [abs_mul]
    refine mul_le_mul_of_nonneg_right ?_ (abs_nonneg _)
    cases b
    · exact abs_zero.le
    · exact hsc 0
  have k1 : ∑ j, slopes b s j * (slopes b β j - slopes b r j) ≤
      ∑ j, slopes b (scoreBound u tiny big fam raw f) j * |slopes b β j - slopes b r j| := by
    refine Finset.sum_le_sum fun j _ => ?_
    refine (le_abs_self _).trans ?_
    rw [abs_mul]
    refine mul_le_mul_of_nonneg_right ?_ (abs_nonneg _)
    cases b
    · exact hsc j
    · exact hsc (Fin.succ j)
  change _ ≤ penLogLik fam.glm (exactData raw) b (real options.l1) (real options.l2) (fun _ => 1) r
    + _ + _
  linarith

/-- **C96** (suboptimality).  Concave family, L2 strength `l2 > 0`, with or without L1: no coefficients
beat the coefficients that a fit reports by more than `Σ_j t_j² / (2 l2)` in the exact penalized
log-likelihood, whatever the linear-algebra library returned and however the fit stopped.  Here `t_j` is
the score computed in floating-point arithmetic plus the bound of its rounding error.  The intercept has
no penalty: it contributes its `t_0` times the distance of the intercepts. -/
theorem C96_suboptimality (acc : Accurate fmt u tiny big) (hc : Spec.Concave fam (exactData raw))
    (hd : raw.finalize false b = some data) (h : regression env fam.glm data options = .ok f)
    (hl2 : 0 < real options.l2)
    (hf : ∀ j, ScoreFits u tiny big fam raw b options.l1 options.l2 f.result j)
    (ha : Admissible fam (exactData raw) b fun j => real (f.result j)) {β : Vec ℝ (ncols b p)}
    (hβ : Admissible fam (exactData raw) b β) :
    penLogLik fam.glm (exactData raw) b (real options.l1) (real options.l2) (fun _ => 1) β ≤
    exactPenLik fam raw b (real options.l1) (real options.l2) f.result
      + (∑ j, (slopes b (scoreBound u tiny big fam raw f) j) ^ 2) / (2 * real options.l2)
      + interceptPart b (scoreBound u tiny big fam raw f)
        * |interceptPart b β - interceptPart b fun j => real (f.result j)| := by
  have h1 := certificate_gap acc hc hd h hl2 hf ha hβ
  have h2 : ∑ j, slopes b (scoreBound u tiny big fam raw f) j
        * |slopes b β j - slopes b (fun j => real (f.result j)) j|
      ≤ (∑ j, (slopes b (scoreBound u tiny big fam raw f) j) ^ 2) / (2 * real options.l2)
        + real options.l2 / 2
          * ∑ j, (slopes b β j - slopes b (fun j => real (f.result j)) j) ^ 2 := by
    rw [Finset.sum_div, Finset.mul_sum, ← Finset.sum_add_distrib]
    refine Finset.sum_le_sum fun j _ => ?_
    rw [← sq_abs (slopes b β j - _)]
    generalize |slopes b β j - slopes b (fun j => real (f.result j)) j| = v
    generalize slopes b (scoreBound u tiny big fam raw f) j = t
    generalize real options.l2 = l at hl2
    have : t ^ 2 / (2 * l) + l / 2 * v ^ 2 - t * v = (t - l * v) ^ 2 / (2 * l) := by field_simp; ring
    have : 0 ≤ (t - l * v) ^ 2 / (2 * l) := by positivity
    linarith
  linarith

/-- **C96** (distance).  Coefficients that are at least as good, in particular the exact optimum, are
close to the reported ones. -/
theorem C96_distance (acc : Accurate fmt u tiny big) (hc : Spec.Concave fam (exactData raw))
    (hd : raw.finalize false b = some data) (h : regression env fam.glm data options = .ok f)
    (hl2 : 0 < real options.l2)
    (hf : ∀ j, ScoreFits u tiny big fam raw b options.l1 options.l2 f.result j)
    (ha : Admissible fam (exactData raw) b fun j => real (f.result j)) {β : Vec ℝ (ncols b p)}
    (hβ : Admissible fam (exactData raw) b β)
    (hge : exactPenLik fam raw b (real options.l1) (real options.l2) f.result ≤
      penLogLik fam.glm (exactData raw) b (real options.l1) (real options.l2) (fun _ => 1) β) :
    ∑ j, (slopes b β j - slopes b (fun j => real (f.result j)) j) ^ 2 ≤
      4 * (∑ j, (slopes b (scoreBound u tiny big fam raw f) j) ^ 2) / real options.l2 ^ 2
      + 4 * (interceptPart b (scoreBound u tiny big fam raw f)
        * |interceptPart b β - interceptPart b fun j => real (f.result j)|) / real options.l2 := by
  have h1 := certificate_gap acc hc hd h hl2 hf ha hβ
  have h2 : ∑ j, slopes b (scoreBound u tiny big fam raw f) j
        * |slopes b β j - slopes b (fun j => real (f.result j)) j|
      ≤ (∑ j, (slopes b (scoreBound u tiny big fam raw f) j) ^ 2) / real options.l2
        + real options.l2 / 4
          * ∑ j, (slopes b β j - slopes b (fun j => real (f.result j)) j) ^ 2 := by
    rw [Finset.sum_div, Finset.mul_sum, ← Finset.sum_add_distrib]
    refine Finset.sum_le_sum fun j _ => ?_
    rw [← sq_abs (slopes b β j - _)]
    generalize |slopes b β j - slopes b (fun j => real (f.result j)) j| = v
    generalize slopes b (scoreBound u tiny big fam raw f) j = t
    generalize real options.l2 = l at hl2
    have : t ^ 2 / l + l / 4 * v ^ 2 - t * v = (2 * t - l * v) ^ 2 / (4 * l) := by field_simp; ring
    have : 0 ≤ (2 * t - l * v) ^ 2 / (4 * l) := by positivity
    linarith
  have h3 : real options.l2 / 4 * ∑ j, (slopes b β j - slopes b (fun j => real (f.result j)) j) ^ 2
      ≤ (∑ j, (slopes b (scoreBound u tiny big fam raw f) j) ^ 2) / real options.l2
        + interceptPart b (scoreBound u tiny big fam raw f)
          * |interceptPart b β - interceptPart b fun j => real (f.result j)| := by linarith
  generalize ∑ j, (slopes b β j - slopes b (fun j => real (f.result j)) j) ^ 2 = D at h3 ⊢
  generalize ∑ j, (slopes b (scoreBound u tiny big fam raw f) j) ^ 2 = T at h3 ⊢
  generalize interceptPart b (scoreBound u tiny big fam raw f)
    * |interceptPart b β - interceptPart b fun j => real (f.result j)| = I at h3 ⊢
  generalize real options.l2 = l at hl2 h3 ⊢
  have e : 4 * T / l ^ 2 + 4 * I / l = 4 / l * (T / l + I) := by field_simp
  rw [e]
  have := mul_le_mul_of_nonneg_left h3 (show 0 ≤ 4 / l by positivity)
  have e2 : 4 / l * (l / 4 * D) = D := by field_simp
  linarith

end

section
variable {fmt : FloatFormat} {u tiny big : ℝ} {n p : ℕ} {env : Env (Fl fmt)} {fam : Family}
  {raw : Dataset (Fl fmt) n p false} {data : Dataset (Fl fmt) n p false}
  {options : FitOptions (Fl fmt) (ncols false p)} {f : Fit (Fl fmt) n p false}

/-- **C96** (optimum).  Without an intercept, for a concave family in which every linear predictor is
admissible, the exact problem has exactly one optimum.  The reported coefficients are within
`2 ‖t‖ / l2` of it, and their exact penalized log-likelihood is within `‖t‖² / (2 l2)` of the best. -/
theorem C96_optimum (acc : Accurate fmt u tiny big) (hc : Spec.Concave fam (exactData raw))
    (hdom : predDom fam = Set.univ)
    (hd : raw.finalize false false = some data) (h : regression env fam.glm data options = .ok f)
    (hl2 : 0 < real options.l2)
    (hf : ∀ j, ScoreFits u tiny big fam raw false options.l1 options.l2 f.result j) :
    ∃ βs : Vec ℝ p,
      (∀ β : Vec ℝ p,
        penLogLik (p := p) fam.glm (exactData raw) false (real options.l1) (real options.l2) (fun _ => 1) β ≤
        penLogLik (p := p) fam.glm (exactData raw) false (real options.l1) (real options.l2) (fun _ => 1) βs) ∧
      (∀ β' : Vec ℝ p, (∀ β : Vec ℝ p,
        penLogLik (p := p) fam.glm (exactData raw) false (real options.l1) (real options.l2) (fun _ => 1) β ≤
        penLogLik (p := p) fam.glm (exactData raw) false (real options.l1) (real options.l2) (fun _ => 1) β') →
        β' = βs) ∧
      ∑ j, (βs j - real (f.result j)) ^ 2 ≤
        4 * (∑ j, scoreBound u tiny big fam raw f j ^ 2) / real options.l2 ^ 2 ∧
      penLogLik (p := p) fam.glm (exactData raw) false (real options.l1) (real options.l2) (fun _ => 1) βs ≤
        exactPenLik fam raw false (real options.l1) (real options.l2) f.result
          + (∑ j, scoreBound u tiny big fam raw f j ^ 2) / (2 * real options.l2) := by
  have hadm : ∀ β : Vec ℝ (ncols false p), Admissible fam (exactData raw) false β :=
    fun β i => hdom ▸ Set.mem_univ _
  obtain ⟨βs, h1, h2⟩ := C71_exists (l1 := real options.l1) hc hdom hl2 (σ := fun _ => 1)
    (fun _ => one_pos)
  refine ⟨βs, h1, h2, ?_, ?_⟩
  · have := C96_distance acc hc hd h hl2 hf (hadm _) (hadm βs) (h1 _)
    simp only [interceptPart, sub_zero, abs_zero, mul_zero, zero_div, add_zero] at this
    exact this
  · have := C96_suboptimality acc hc hd h hl2 hf (hadm _) (hadm βs)
    simp only [interceptPart, sub_zero, abs_zero, mul_zero, add_zero] at this
    exact this

end
end GLM
