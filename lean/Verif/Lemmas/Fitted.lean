/-
  What every successful fit satisfies, on the user's scale.
-/
import Verif.Props.Convergence

namespace GLM
open Spec Matrix
variable {n p : ℕ} {b : Bool} {env : Env ℝ} {g : Glm ℝ} {raw : Dataset ℝ n p false} {std : Bool}
  {d : Dataset ℝ n p b} {options : FitOptions ℝ (ncols b p)}

/-- A fit of the user's data `raw` (built with or without standardization). -/
structure Fit.OfRaw (f : Fit ℝ n p b) (raw : Dataset ℝ n p false) (std : Bool) : Prop where
  built : raw.finalize std b = some f.data
  result : f.result = f.data.inverseTransformBeta f.resultStd
  resultStd : f.resultStd = f.data.transformBeta f.result
  lin : ∀ i, f.xLinPred i = linPred raw b f.result i
  mean : ∀ i, f.yHat i = meanAt f.g raw b f.result i
  like : f.modelLike = penLogLik f.g raw b f.options.l1 f.options.l2 (scale f.data) f.result
  same : Reg.Same f.reg (getReg f.options)

theorem regression_ofRaw (hd : raw.finalize std b = some d) {f : Fit ℝ n p b}
    (h : regression env g d options = .ok f) :
    f.g = g ∧ f.data = d ∧ f.options = options ∧ f.OfRaw raw std := by
  obtain ⟨h1, h2, h3, hc⟩ := regression_coherent h
  refine ⟨h1, h2, h3, ?_⟩
  have hwf := Dataset.finalize_wf hd
  subst h1 h2 h3
  have hstd : f.resultStd = f.data.transformBeta f.result := by
    rw [hc.result, hwf.transformBeta_inverseTransformBeta]
  have hlin : ∀ i, f.xLinPred i = linPred raw b f.result i := by
    intro i
    rw [hc.xLinPred, Dataset.finalize_linPred' hd, hc.result]
  refine ⟨hd, hc.result, hstd, hlin, ?_, ?_, ?_⟩
  · intro i
    rw [hc.yHat, meanAt, ← hlin]; rfl
  · rw [hc.like, objective_ext hd, ← hc.result]
  · exact hc.reg

end GLM
