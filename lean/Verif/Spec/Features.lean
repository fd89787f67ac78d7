/-
  The order of the features: vocabulary for C74 and C75.
-/
import Verif.Spec.Units
import Verif.Model.Refit

namespace GLM
namespace Spec
variable {n p k k' : ℕ} {b : Bool}

/-- Linear algebra whose answers do not depend on whether the unknowns are numbered as on the one or
the other side of `τ`. -/
structure OrderFree (τ : Fin k' ≃ Fin k) (env : Env ℝ) : Prop where
  solveh : ∀ (m : Mat ℝ k k) (v : Vec ℝ k),
    env.solveh (fun i j => m (τ i) (τ j)) (fun i => v (τ i))
      = (env.solveh m v).map fun x i => x (τ i)
  inv : ∀ m : Mat ℝ k k,
    env.inv (fun i j => m (τ i) (τ j)) = (env.inv m).map fun a i j => a (τ i) (τ j)

/-- The coefficient that belongs to each position after the features are reordered so that feature
`j` is the old feature `σ j`; the intercept stays first. -/
def coefOrder (σ : Equiv.Perm (Fin p)) : (b : Bool) → Equiv.Perm (Fin (ncols b p))
  | true =>
    { toFun := Fin.cases (0 : Fin (p + 1)) fun j => (σ j).succ
      invFun := Fin.cases (0 : Fin (p + 1)) fun j => (σ.symm j).succ
      left_inv := by intro j; refine Fin.cases rfl (fun j => ?_) j; simp
      right_inv := by intro j; refine Fin.cases rfl (fun j => ?_) j; simp }
  | false => σ

/-- A feature matrix with its columns reordered. -/
def permuteCols {m : ℕ} (σ : Equiv.Perm (Fin p)) (x : Mat ℝ m p) : Mat ℝ m p := fun i j => x i (σ j)

/-- The data set with its features reordered: feature `j` is the old feature `σ j`. -/
def permuteFeatures (σ : Equiv.Perm (Fin p)) (raw : Dataset ℝ n p false) : Dataset ℝ n p false :=
  { raw with x := permuteCols σ raw.x }

/-- A caller's start, reordered. -/
def reorderStart (τ : Fin k' ≃ Fin k) (o : FitOptions ℝ k) : FitOptions ℝ k' :=
  { maxIter := o.maxIter, tol := o.tol, l2 := o.l2, l1 := o.l1
    initGuess := o.initGuess.map fun β j => β (τ j) }

/-- A recorded step, reordered. -/
def reorderStep (τ : Fin k' ≃ Fin k) (st : IrlsStep ℝ k) : IrlsStep ℝ k' :=
  { guess := fun j => st.guess (τ j), like := st.like }

/-- The same error, with reordered points in its history. -/
inductive SameError (τ : Fin k' ≃ Fin k) : FitError ℝ k → FitError ℝ k' → Prop
  | linalg : SameError τ .linalg .linalg
  | maxIter (m : ℕ) (h : List (IrlsStep ℝ k)) :
      SameError τ (.maxIter m h) (.maxIter m (h.map (reorderStep τ)))

/-- `f'` is the fit `f` with its parameters numbered differently: parameter `j` of `f'` is parameter
`τ j` of `f`.  What belongs to a parameter moves with it, everything else is the same. -/
structure SameFit {p' : ℕ} {b' : Bool} (τ : Fin (ncols b' p') ≃ Fin (ncols b p))
    (f : Fit ℝ n p b) (f' : Fit ℝ n p' b') : Prop where
  result : f'.result = fun j => f.result (τ j)
  history : f'.history = f.history.map (reorderStep τ)
  nIter : f'.nIter = f.nIter
  modelLike : f'.modelLike = f.modelLike
  yHat : f'.yHat = f.yHat
  deviance : f'.deviance = f.deviance
  dispersion : f'.dispersion = f.dispersion
  aic : f'.aic = f.aic
  bic : f'.bic = f.bic
  rss : f'.rss = f.rss
  ndf : f'.ndf = f.ndf
  score : ∀ β, f'.score (fun j => β (τ j)) = fun j => f.score β (τ j)
  fisher : ∀ β, f'.fisher (fun j => β (τ j)) = fun i j => f.fisher β (τ i) (τ j)
  covariance : ∀ env : Env ℝ, OrderFree τ env →
    f'.covariance env = (f.covariance env).map fun m i j => m (τ i) (τ j)
  waldZ : ∀ env : Env ℝ, OrderFree τ env → f'.waldZ env = (f.waldZ env).map fun z j => z (τ j)
  lrTestAgainst : ∀ β, f'.lrTestAgainst (fun j => β (τ j)) = f.lrTestAgainst β
  waldTestAgainst : ∀ β, f'.waldTestAgainst (fun j => β (τ j)) = f.waldTestAgainst β
  scoreTestAgainst : ∀ env : Env ℝ, OrderFree τ env → ∀ β,
    f'.scoreTestAgainst env (fun j => β (τ j)) = f.scoreTestAgainst env β
  hat : ∀ env : Env ℝ, OrderFree τ env → f'.hat env = f.hat env
  leverage : ∀ env : Env ℝ, OrderFree τ env → f'.leverage env = f.leverage env
  cooks : ∀ env : Env ℝ, OrderFree τ env → f'.cooks env = f.cooks env
  inflCoef : ∀ env : Env ℝ, OrderFree τ env →
    f'.inflCoef env = (f.inflCoef env).map fun m i j => m i (τ j)
  residResp : f'.residResp = f.residResp
  residPear : f'.residPear = f.residPear
  residDev : f'.residDev = f.residDev
  residWork : f'.residWork = f.residWork
  residPearStd : ∀ env : Env ℝ, OrderFree τ env → f'.residPearStd env = f.residPearStd env
  residDevStd : ∀ env : Env ℝ, OrderFree τ env → f'.residDevStd env = f.residDevStd env
  residStudent : ∀ env : Env ℝ, OrderFree τ env → f'.residStudent env = f.residStudent env
  pvalueWald : ∀ (ds : Dists ℝ) (env : Env ℝ), OrderFree τ env →
    f'.pvalueWald ds env = (f.pvalueWald ds env).map fun v j => v (τ j)
  residQuantile : ∀ (ds : Dists ℝ) dist, f'.residQuantile ds dist = f.residQuantile ds dist

/-- The data set with a column of ones as an additional, first feature. -/
def withOnes (raw : Dataset ℝ n p false) : Dataset ℝ n (p + 1) false :=
  { y := raw.y, linearOffset := raw.linearOffset, weights := raw.weights, freqs := raw.freqs
    standardizer := none
    x := fun i => (Fin.cons 1 (raw.x i : Fin p → ℝ) : Fin (p + 1) → ℝ) }

/-- The parameters of a model with an intercept and `p` features are as many, and in the same order,
as those of a model without intercept with `p + 1` features. -/
def sameParams (p : ℕ) : Fin (ncols false (p + 1)) ≃ Fin (ncols true p) := Equiv.refl (Fin (p + 1))

/-- `f'` is the fit `f` with the features in another order. -/
structure SameUpToFeatureOrder (σ : Equiv.Perm (Fin p)) (f f' : Fit ℝ n p b) : Prop extends
    SameFit (coefOrder σ b) f f' where
  predict : ∀ {m : ℕ} (x : Mat ℝ m p) off, f'.predict (permuteCols σ x) off = f.predict x off
  residPart : f'.residPart = fun i j => f.residPart i (σ j)
  lrTest : ∀ env, f'.lrTest env = f.lrTest env
  rSq : ∀ env, f'.rSq env = f.rSq env
  waldTest : ∀ env, f'.waldTest env = f.waldTest env
  scoreTest : ∀ env : Env ℝ, OrderFree (coefOrder σ b) env → f'.scoreTest env = f.scoreTest env
  pvalueLrTest : ∀ ds env, f'.pvalueLrTest ds env = f.pvalueLrTest ds env
  looExact : ∀ env : Env ℝ, OrderFree (coefOrder σ b) env → Related (SameError (coefOrder σ b))
    (fun m m' => m' = fun i j => m i (coefOrder σ b j)) (f.looExact env) (f'.looExact env)

end Spec
end GLM
