/-
  A small concrete data set used to show that the hypotheses of the theorems can be met: three
  observations of one feature, the second observed twice.
-/
import Verif.Lemmas.Quad
import Verif.Spec.Exact
import Verif.Model.Fit
import Mathlib.LinearAlgebra.Matrix.Determinant.Basic

namespace GLM
open Spec Matrix

/-- Features 0, 1, 2 with frequencies 1, 2, 1. -/
noncomputable def exRaw (y : Vec ℝ 3) : Dataset ℝ 3 1 false where
  y := y
  x := fun i _ => ![0, 1, 2] i
  linearOffset := none
  weights := none
  freqs := some ![1, 2, 1]
  standardizer := none

/-- Default options with the given penalties, start and budget. -/
noncomputable def exOpts {k : ℕ} (l1 l2 : ℝ) (init : Option (Vec ℝ k)) (m : ℕ) : FitOptions ℝ k where
  maxIter := m
  tol := 1 / 100
  l2 := l2
  l1 := l1
  initGuess := init

theorem exRaw_nEff (y : Vec ℝ 3) : (exRaw y).nEff = 4 := by
  simp [Dataset.nEff, Dataset.nObs, exRaw, Fin.sum_univ_three]; norm_num

/-- The data set can be built with and without standardization and intercept. -/
theorem exRaw_finalize (y : Vec ℝ 3) (std b : Bool) : ∃ d, (exRaw y).finalize std b = some d := by
  cases std
  · exact ⟨_, rfl⟩
  · have h : Scalar.gt (exRaw y).nEff 1 = true := by rw [exRaw_nEff, gt_real]; norm_num
    exact ⟨_, by simp only [Dataset.finalize, Standardizer.fromDataset, if_true, h]; rfl⟩

theorem exRaw_totalWt (y : Vec ℝ 3) (i : Fin 3) : totalWt (exRaw y) i = ![1, 2, 1] i := by
  simp [totalWt, freq, varWt, exRaw]

theorem exRaw_totalWt_pos (y : Vec ℝ 3) (i : Fin 3) : 0 < totalWt (exRaw y) i := by
  rw [exRaw_totalWt]; fin_cases i <;> norm_num

theorem exRaw_linPred (y : Vec ℝ 3) (β : Vec ℝ 2) (i : Fin 3) :
    linPred (exRaw y) true β i = β (0 : Fin 2) + ![0, 1, 2] i * β (1 : Fin 2) := by
  rw [linPred]
  refine (congrArg (· + _) (Fin.sum_univ_two _)).trans ?_
  simp [design, exRaw, offset]

theorem exRaw_gram_det (y : Vec ℝ 3) : IsUnit (gram (exRaw y) true).det := by
  rw [isUnit_iff_ne_zero, Matrix.det_fin_two]
  simp only [gram, exRaw_totalWt, Fin.sum_univ_three]
  simp [design, exRaw]
  norm_num

end GLM
