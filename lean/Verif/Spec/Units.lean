/-
  Measuring the features in other units: vocabulary for C67.
-/
import Verif.Spec.Weights
import Verif.Model.Fit
import Verif.Spec.Exact

namespace GLM
namespace Spec
variable {n m p : ℕ} {b : Bool}

/-- A feature matrix in other units: feature `j` is reported as `a j * x + c j`. -/
def newUnits (a c : Fin p → ℝ) (x : Mat ℝ n p) : Mat ℝ n p := fun i j => a j * x i j + c j

/-- The data set with its features in other units. -/
def changeUnits (a c : Fin p → ℝ) (raw : Dataset ℝ n p false) : Dataset ℝ n p false :=
  { raw with x := newUnits a c raw.x }

/-- The coefficients in the new units that describe the same model. -/
noncomputable def unitCoef (a c : Fin p → ℝ) :
    {b : Bool} → Vec ℝ (ncols b p) → Vec ℝ (ncols b p)
  | true, β => Fin.cons (β (0 : Fin (p + 1)) - ∑ j : Fin p, c j * (β (j.succ : Fin (p + 1)) / a j))
      fun j : Fin p => β (j.succ : Fin (p + 1)) / a j
  | false, β => fun j : Fin p => β j / a j

/-- The coefficient of feature `j`. -/
def slope : {b : Bool} → Vec ℝ (ncols b p) → Fin p → ℝ
  | true, β, j => β (j.succ : Fin (p + 1))
  | false, β, j => β j

/-- Weighted mean of feature `j`. -/
noncomputable def wMean (d : Dataset ℝ n p false) (j : Fin p) : ℝ :=
  (∑ i, totalWt d i * d.x i j) / ∑ i, totalWt d i

/-- Feature `j` is not constant. -/
def Varies (d : Dataset ℝ n p false) (j : Fin p) : Prop :=
  0 < ∑ i, totalWt d i * (d.x i j - wMean d j) ^ 2

/-- Two outcomes are of the same kind, with related values and errors. -/
inductive Related {E E' α β : Type} (re : E → E' → Prop) (r : α → β → Prop) :
    Outcome E α → Outcome E' β → Prop
  | ok {x y} (h : r x y) : Related re r (.ok x) (.ok y)
  | err {e e'} (h : re e e') : Related re r (.err e) (.err e')
  | panic : Related re r .panic .panic
  | diverge : Related re r .diverge .diverge

/-- `f'` is the same fit as `f` with the features in other units. -/
structure SameUpToUnits (a c : Fin p → ℝ) (f f' : Fit ℝ n p b) : Prop where
  result : f'.result = unitCoef a c f.result
  history : f'.history = f.history.map fun st => { st with guess := unitCoef a c st.guess }
  nIter : f'.nIter = f.nIter
  modelLike : f'.modelLike = f.modelLike
  yHat : f'.yHat = f.yHat
  predict : ∀ {m : ℕ} (x : Mat ℝ m p) (off : Option (Vec ℝ m)),
    f'.predict (newUnits a c x) off = f.predict x off
  deviance : f'.deviance = f.deviance
  dispersion : f'.dispersion = f.dispersion
  aic : f'.aic = f.aic
  bic : f'.bic = f.bic
  lrTest : ∀ env, f'.lrTest env = f.lrTest env
  rSq : ∀ env, f'.rSq env = f.rSq env
  leverage : ∀ env, f'.leverage env = f.leverage env
  cooks : ∀ env, f'.cooks env = f.cooks env
  residStudent : ∀ env, f'.residStudent env = f.residStudent env
  residWork : f'.residWork = f.residWork
  waldZ : ∀ env : Env ℝ, env.Exact → ∀ z, f.waldZ env = .ok z →
    ∃ z', f'.waldZ env = .ok z' ∧ ∀ j, slope (b := b) z' j = slope (b := b) z j

end Spec
end GLM
