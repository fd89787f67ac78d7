/-
  All variance weights multiplied by a constant: what happens to a fit (vocabulary for C13).
-/
import Verif.Spec.Coding
import Verif.Spec.Weights

namespace GLM
namespace Spec
variable {n p : ℕ} {b : Bool}

/-- The options for the rescaled data: the L2 strength follows the weights. -/
noncomputable def scaleOptions (c : ℝ) (o : FitOptions ℝ (ncols b p)) : FitOptions ℝ (ncols b p) :=
  { o with l2 := c * o.l2 }

/-- A recorded step of the rescaled fit: same coefficients, likelihood times `c`. -/
noncomputable def scaleStep (c : ℝ) (st : IrlsStep ℝ (ncols b p)) : IrlsStep ℝ (ncols b p) :=
  { guess := st.guess, like := c * st.like }

/-- The same error, with corresponding histories. -/
inductive ErrorAfterWeights (c : ℝ) : FitError ℝ (ncols b p) → FitError ℝ (ncols b p) → Prop
  | linalg : ErrorAfterWeights c .linalg .linalg
  | maxIter (k : ℕ) (h : List (IrlsStep ℝ (ncols b p))) :
      ErrorAfterWeights c (.maxIter k h) (.maxIter k (h.map (scaleStep c)))

/-- The two fits took the same course. -/
structure CourseAfterWeights (c : ℝ) (f f' : Fit ℝ n p b) : Prop where
  result : f'.result = f.result
  history : f'.history = f.history.map (scaleStep c)
  nIter : f'.nIter = f.nIter

/-- `f'` is the fit `f` with all variance weights multiplied by `c`. -/
structure FitAfterWeights (c : ℝ) (env : Env ℝ) (f f' : Fit ℝ n p b) : Prop where
  yHat : f'.yHat = f.yHat
  predict : ∀ {k : ℕ} (x : Mat ℝ k p) (off : Option (Vec ℝ k)), f'.predict x off = f.predict x off
  modelLike : f'.modelLike = c * f.modelLike
  deviance : f'.deviance = c * f.deviance
  rss : f'.rss = c * f.rss
  nEff : f'.data.nEff = f.data.nEff
  dispersion : f'.dispersion = f.dispersion
  residResp : f'.residResp = f.residResp
  residWork : f'.residWork = f.residWork
  residPart : f'.residPart = f.residPart
  residPear : f'.residPear = fun i => Real.sqrt c * f.residPear i
  residDev : f'.residDev = fun i => Real.sqrt c * f.residDev i
  score : ∀ β, f'.score β = fun j => c * f.score β j
  fisher : ∀ β, f'.fisher β = fun j k => c * f.fisher β j k
  hat : f'.hat env = f.hat env
  leverage : f'.leverage env = f.leverage env
  inflCoef : f'.inflCoef env = f.inflCoef env
  covariance : f'.covariance env = (f.covariance env).map fun V j k => c⁻¹ * V j k
  waldZ : f'.waldZ env = (f.waldZ env).map fun z j => Real.sqrt c * z j
  cooks : f'.cooks env = (f.cooks env).map fun v i => c * v i
  residPearStd : f'.residPearStd env = (f.residPearStd env).map fun v i => Real.sqrt c * v i
  residDevStd : f'.residDevStd env = (f.residDevStd env).map fun v i => Real.sqrt c * v i
  lrAgainst : ∀ β, f'.lrTestAgainst β = c * f.lrTestAgainst β
  waldAgainst : ∀ β, f'.waldTestAgainst β = c * f.waldTestAgainst β
  scoreAgainst : ∀ β, f'.scoreTestAgainst env β = (f.scoreTestAgainst env β).map fun v => c * v

end Spec
end GLM
