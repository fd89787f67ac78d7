/-
  C45, continued: what the columns of the partial residuals are.
-/
import Verif.Props.Deviance
import Verif.Spec.Compare

namespace GLM
open Spec Scalar Matrix

section
variable {n p : ℕ} {env : Env ℝ} {g : Glm ℝ} {std b : Bool} {raw : Dataset ℝ n p false}

/-- **C45** (columns).  The partial residual of observation `i` and feature `j` is the working residual plus
the slope of the feature times its value, which is centered if there is an intercept. -/
theorem C45_columns {d : Dataset ℝ n p b} {f : Fit ℝ n p b} {options : FitOptions ℝ (ncols b p)}
    (hd : raw.finalize std b = some d) (h : regression env g d options = .ok f) (i : Fin n) (j : Fin p) :
    f.residPart i j = f.residWork i
      + (raw.x i j - if b then (∑ k, totalWt raw k * raw.x k j) / weightSum raw else 0) * slopes b f.result j := by
  obtain ⟨rfl, rfl, rfl, hf⟩ := regression_ofRaw hd h
  cases b with
  | true =>
    simp only [Fit.residPart, if_true, Dataset.finalize_xOrig hd, vsum_real,
      Dataset.applyTotalWeights_real, Dataset.finalize_totalWt hd, vfill, mul_one]
    simp only [mul_comm (raw.x _ j)]
    rfl
  | false =>
    simp only [Fit.residPart, Dataset.finalize_xOrig hd]
    rw [if_neg (by simp), if_neg (by simp), sub_zero]
    rfl

/-- **C45** (decomposition).  Without intercept the parts that are added to the working residual of an
observation sum to its linear predictor without offset; with an intercept, to the difference of that and its
weighted mean over the data. -/
theorem C45_decompose {d : Dataset ℝ n p b} {f : Fit ℝ n p b} {options : FitOptions ℝ (ncols b p)}
    (hd : raw.finalize std b = some d) (h : regression env g d options = .ok f) (hW : weightSum raw ≠ 0)
    (i : Fin n) :
    ∑ j, (f.residPart i j - f.residWork i) = linPred raw b f.result i - offset raw i
      - if b then (∑ k, totalWt raw k * (linPred raw b f.result k - offset raw k)) / weightSum raw else 0 := by
  simp only [C45_columns hd h, add_sub_cancel_left]
  cases b with
  | false =>
    simp only [Bool.false_eq_true, if_false, sub_zero, linPred, add_sub_cancel_right]
    rfl
  | true =>
    have hlin : ∀ k, linPred raw true f.result k - offset raw k
        = f.result (0 : Fin (p + 1)) + ∑ j, raw.x k j * slopes true f.result j := by
      intro k
      unfold linPred
      rw [add_sub_cancel_right]
      refine (Fin.sum_univ_succ (n := p) _).trans ?_
      congr 1
      exact one_mul _
    simp only [if_true, hlin, mul_add, Finset.sum_add_distrib, ← Finset.sum_mul]
    have hswap : ∑ k, totalWt raw k * ∑ j, raw.x k j * slopes true f.result j
        = ∑ j, (∑ k, totalWt raw k * raw.x k j) * slopes true f.result j := by
      simp only [Finset.mul_sum, Finset.sum_mul, mul_assoc]
      exact Finset.sum_comm
    rw [hswap]
    change _ = _ - (weightSum raw * _ + _) / weightSum raw
    rw [add_div, mul_div_cancel_left₀ _ hW, Finset.sum_div]
    simp only [sub_mul, Finset.sum_sub_distrib, div_mul_eq_mul_div]
    ring

/-- The hypotheses hold for the Poisson fit of the counterexample. -/
theorem C45_columns_example (std : Bool) :
    ∃ d f, (exRaw ![2, 1, 5]).finalize std true = some d ∧
      regression (exactEnv (1 / 1000) 7) Family.poisson.glm d
        (exOpts 0 0 (some ![0, Real.log 2]) 5) = .ok f ∧ weightSum (exRaw ![2, 1, 5]) ≠ 0 := by
  obtain ⟨d, f, hd, h, -⟩ := C45_poisson_counterexample std
  refine ⟨d, f, hd, h, ?_⟩
  simp only [weightSum, exRaw_totalWt, Fin.sum_univ_three]; simp; norm_num

end
end GLM
