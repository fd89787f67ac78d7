/-
  Counting features in the opposite direction: vocabulary for C102.
-/
import Verif.Spec.Features

namespace GLM
namespace Spec
variable {n p k : ℕ} {b : Bool}

/-- For each position, whether its direction is kept (`1`) or reversed (`-1`). -/
def IsSigns (s : Fin k → ℝ) : Prop := ∀ j, s j = 1 ∨ s j = -1

/-- A vector with some of its entries reversed. -/
noncomputable def flipV (s : Fin k → ℝ) (v : Vec ℝ k) : Vec ℝ k := fun j => s j * v j

/-- A matrix with some of its rows, and the same columns, reversed. -/
noncomputable def flipM (s : Fin k → ℝ) (m : Mat ℝ k k) : Mat ℝ k k := fun i j => s i * m i j * s j

/-- Linear algebra whose answers do not depend on the direction in which the unknowns are counted. -/
structure SignFree (s : Fin k → ℝ) (env : Env ℝ) : Prop where
  solveh : ∀ (m : Mat ℝ k k) (v : Vec ℝ k),
    env.solveh (flipM s m) (flipV s v) = (env.solveh m v).map (flipV s)
  inv : ∀ m : Mat ℝ k k, env.inv (flipM s m) = (env.inv m).map (flipM s)

/-- The directions of the coefficients, given those of the features; the intercept keeps its own. -/
noncomputable def coefSigns (s : Fin p → ℝ) : (b : Bool) → Fin (ncols b p) → ℝ
  | true => (Fin.cons 1 s : Fin (p + 1) → ℝ)
  | false => s

/-- A feature matrix with some of its columns reversed. -/
noncomputable def flipCols {m : ℕ} (s : Fin p → ℝ) (x : Mat ℝ m p) : Mat ℝ m p :=
  fun i j => s j * x i j

/-- The data set with some of its features reversed. -/
noncomputable def flipFeatures (s : Fin p → ℝ) (raw : Dataset ℝ n p false) : Dataset ℝ n p false :=
  { raw with x := flipCols s raw.x }

/-- A caller's start with the coefficients reversed. -/
noncomputable def flipStart (s : Fin k → ℝ) (o : FitOptions ℝ k) : FitOptions ℝ k :=
  { o with initGuess := o.initGuess.map (flipV s) }

/-- A recorded step with the coefficients reversed. -/
noncomputable def flipStep (s : Fin k → ℝ) (st : IrlsStep ℝ k) : IrlsStep ℝ k :=
  { guess := flipV s st.guess, like := st.like }

/-- The same error, with reversed coefficients in its history. -/
inductive SameErrorFlipped (s : Fin k → ℝ) : FitError ℝ k → FitError ℝ k → Prop
  | linalg : SameErrorFlipped s .linalg .linalg
  | maxIter (m : ℕ) (h : List (IrlsStep ℝ k)) :
      SameErrorFlipped s (.maxIter m h) (.maxIter m (h.map (flipStep s)))

/-- `f'` is the fit `f` with some of the features counted in the opposite direction: what belongs to
such a feature changes its sign, everything else is the same. -/
structure SameUpToSigns (s : Fin p → ℝ) (f f' : Fit ℝ n p b) : Prop where
  result : f'.result = flipV (coefSigns s b) f.result
  history : f'.history = f.history.map (flipStep (coefSigns s b))
  nIter : f'.nIter = f.nIter
  modelLike : f'.modelLike = f.modelLike
  yHat : f'.yHat = f.yHat
  deviance : f'.deviance = f.deviance
  dispersion : f'.dispersion = f.dispersion
  aic : f'.aic = f.aic
  bic : f'.bic = f.bic
  rss : f'.rss = f.rss
  ndf : f'.ndf = f.ndf
  score : ∀ β, f'.score (flipV (coefSigns s b) β) = flipV (coefSigns s b) (f.score β)
  fisher : ∀ β, f'.fisher (flipV (coefSigns s b) β) = flipM (coefSigns s b) (f.fisher β)
  covariance : ∀ env : Env ℝ, SignFree (coefSigns s b) env →
    f'.covariance env = (f.covariance env).map (flipM (coefSigns s b))
  waldZ : ∀ env : Env ℝ, SignFree (coefSigns s b) env →
    f'.waldZ env = (f.waldZ env).map (flipV (coefSigns s b))
  lrTestAgainst : ∀ β, f'.lrTestAgainst (flipV (coefSigns s b) β) = f.lrTestAgainst β
  waldTestAgainst : ∀ β, f'.waldTestAgainst (flipV (coefSigns s b) β) = f.waldTestAgainst β
  scoreTestAgainst : ∀ env : Env ℝ, SignFree (coefSigns s b) env → ∀ β,
    f'.scoreTestAgainst env (flipV (coefSigns s b) β) = f.scoreTestAgainst env β
  hat : ∀ env : Env ℝ, SignFree (coefSigns s b) env → f'.hat env = f.hat env
  leverage : ∀ env : Env ℝ, SignFree (coefSigns s b) env → f'.leverage env = f.leverage env
  cooks : ∀ env : Env ℝ, SignFree (coefSigns s b) env → f'.cooks env = f.cooks env
  inflCoef : ∀ env : Env ℝ, SignFree (coefSigns s b) env →
    f'.inflCoef env = (f.inflCoef env).map fun m i => flipV (coefSigns s b) (m i)
  residResp : f'.residResp = f.residResp
  residPear : f'.residPear = f.residPear
  residDev : f'.residDev = f.residDev
  residWork : f'.residWork = f.residWork
  residPearStd : ∀ env : Env ℝ, SignFree (coefSigns s b) env →
    f'.residPearStd env = f.residPearStd env
  residDevStd : ∀ env : Env ℝ, SignFree (coefSigns s b) env → f'.residDevStd env = f.residDevStd env
  residStudent : ∀ env : Env ℝ, SignFree (coefSigns s b) env →
    f'.residStudent env = f.residStudent env
  residQuantile : ∀ (ds : Dists ℝ) dist, f'.residQuantile ds dist = f.residQuantile ds dist
  predict : ∀ {m : ℕ} (x : Mat ℝ m p) off, f'.predict (flipCols s x) off = f.predict x off
  residPart : f'.residPart = f.residPart
  lrTest : ∀ env, f'.lrTest env = f.lrTest env
  rSq : ∀ env, f'.rSq env = f.rSq env
  waldTest : ∀ env, f'.waldTest env = f.waldTest env
  scoreTest : ∀ env : Env ℝ, SignFree (coefSigns s b) env → f'.scoreTest env = f.scoreTest env
  pvalueLrTest : ∀ ds env, f'.pvalueLrTest ds env = f.pvalueLrTest ds env
  pvalueWald : ∀ (ds : Dists ℝ) (env : Env ℝ), SignFree (coefSigns s b) env →
    f'.pvalueWald ds env = f.pvalueWald ds env
  looExact : ∀ env : Env ℝ, SignFree (coefSigns s b) env →
    Related (SameErrorFlipped (coefSigns s b))
      (fun m m' => m' = fun i => flipV (coefSigns s b) (m i)) (f.looExact env) (f'.looExact env)

/-- The direction of a change of units. -/
noncomputable def direction (a : Fin p → ℝ) : Fin p → ℝ := fun j => if 0 < a j then 1 else -1

/-- `f'` is the same fit as `f` with feature `j` reported as `a j * x + c j`, where `a j` may be
negative. -/
structure SameUpToRecoding (a c : Fin p → ℝ) (f f' : Fit ℝ n p b) : Prop where
  result : f'.result = unitCoef a c f.result
  history : f'.history = f.history.map fun st => { st with guess := unitCoef a c st.guess }
  nIter : f'.nIter = f.nIter
  modelLike : f'.modelLike = f.modelLike
  yHat : f'.yHat = f.yHat
  predict : ∀ {m : ℕ} (x : Mat ℝ m p) (off : Option (Vec ℝ m)),
    f'.predict (newUnits a c x) off = f.predict x off
  deviance : f'.deviance = f.deviance
  dispersion : f'.dispersion = f.dispersion
  aic : f'.aic = f.aic
  bic : f'.bic = f.bic
  lrTest : ∀ env, f'.lrTest env = f.lrTest env
  rSq : ∀ env, f'.rSq env = f.rSq env
  residWork : f'.residWork = f.residWork
  leverage : ∀ env, SignFree (coefSigns (direction a) b) env → f'.leverage env = f.leverage env
  cooks : ∀ env, SignFree (coefSigns (direction a) b) env → f'.cooks env = f.cooks env
  residStudent : ∀ env, SignFree (coefSigns (direction a) b) env →
    f'.residStudent env = f.residStudent env
  waldZ : ∀ env : Env ℝ, env.Exact → SignFree (coefSigns (direction a) b) env →
    ∀ z, f.waldZ env = .ok z →
    ∃ z', f'.waldZ env = .ok z' ∧ ∀ j, slope (b := b) z' j = direction a j * slope (b := b) z j

end Spec
end GLM
