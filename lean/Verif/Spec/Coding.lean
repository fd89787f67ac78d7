/-
  The same model described by other coefficients: vocabulary for C79.
-/
import Verif.Spec.Units
import Verif.Spec.Exact
import Verif.Spec.Glm

namespace GLM
open Matrix

/-- The linear-algebra routines report every singular matrix. -/
structure Env.Decides (env : Env ℝ) : Prop where
  solveh : ∀ {k : ℕ} {m : Mat ℝ k k} (v : Vec ℝ k), ¬ IsUnit (Matrix.of m).det →
    env.solveh m v = .error .failed
  inv : ∀ {k : ℕ} {m : Mat ℝ k k}, ¬ IsUnit (Matrix.of m).det → env.inv m = .error .failed

theorem exactEnv_decides (eps : ℝ) (fuel : ℕ) : (exactEnv eps fuel).Decides where
  solveh _ h := if_neg h
  inv h := if_neg h

namespace Spec
variable {n p p' : ℕ} {b b' : Bool}

/-- The same observations, described by coefficients `β'` that stand for the coefficients
`T β' + t` of the other description: the linear predictors agree.  The numbers of features may
differ, and one description may have an intercept and the other not, but each set of coefficients
determines the other. -/
structure Recodes (T : Matrix (Fin (ncols b p)) (Fin (ncols b' p')) ℝ) (t : Vec ℝ (ncols b p))
    (raw : Dataset ℝ n p false) (raw' : Dataset ℝ n p' false) : Prop where
  y : raw'.y = raw.y
  weights : raw'.weights = raw.weights
  freqs : raw'.freqs = raw.freqs
  invertible : ∃ U : Matrix (Fin (ncols b' p')) (Fin (ncols b p)) ℝ, T * U = 1 ∧ U * T = 1
  pred : ∀ β' i, linPred raw' b' β' i = linPred raw b (T *ᵥ β' + t) i

/-- The penalties of corresponding coefficients agree. -/
def SamePenalty (T : Matrix (Fin (ncols b p)) (Fin (ncols b' p')) ℝ) (t : Vec ℝ (ncols b p))
    (l1 l2 l1' l2' : ℝ) (σ : Fin p → ℝ) (σ' : Fin p' → ℝ) : Prop :=
  ∀ β', penalty l1' l2' σ' b' β' = penalty l1 l2 σ b (T *ᵥ β' + t)

/-- A recorded step of the one description, in the other. -/
def recodeStep (T : Matrix (Fin (ncols b p)) (Fin (ncols b' p')) ℝ) (t : Vec ℝ (ncols b p))
    (st : IrlsStep ℝ (ncols b' p')) : IrlsStep ℝ (ncols b p) :=
  { guess := T *ᵥ st.guess + t, like := st.like }

/-- A step recorded while fitting `d`, on the user's scale. -/
noncomputable def extStep (d : Dataset ℝ n p b) (st : IrlsStep ℝ (ncols b p)) : IrlsStep ℝ (ncols b p) :=
  { guess := d.inverseTransformBeta st.guess, like := st.like }

/-- The same error; the points of its history correspond. -/
inductive SameErrorCoded (T : Matrix (Fin (ncols b p)) (Fin (ncols b' p')) ℝ) (t : Vec ℝ (ncols b p))
    (d : Dataset ℝ n p b) (d' : Dataset ℝ n p' b') :
    FitError ℝ (ncols b p) → FitError ℝ (ncols b' p') → Prop
  | linalg : SameErrorCoded T t d d' .linalg .linalg
  | maxIter (m : ℕ) {h h'} (hh : h.map (extStep d) = (h'.map (extStep d')).map (recodeStep T t)) :
      SameErrorCoded T t d d' (.maxIter m h) (.maxIter m h')

/-- The two fits took the same course. -/
structure SameCourse (T : Matrix (Fin (ncols b p)) (Fin (ncols b' p')) ℝ) (t : Vec ℝ (ncols b p))
    (f : Fit ℝ n p b) (f' : Fit ℝ n p' b') : Prop where
  result : f.result = T *ᵥ f'.result + t
  history : f.history = f'.history.map (recodeStep T t)
  nIter : f.nIter = f'.nIter

/-- `f` and `f'` are the same fitted model: everything that does not refer to single coefficients is
the same, and what does is converted. -/
structure SameUpToCoding (T : Matrix (Fin (ncols b p)) (Fin (ncols b' p')) ℝ) (t : Vec ℝ (ncols b p))
    (env : Env ℝ) (f : Fit ℝ n p b) (f' : Fit ℝ n p' b') : Prop where
  modelLike : f.modelLike = f'.modelLike
  yHat : f.yHat = f'.yHat
  deviance : f.deviance = f'.deviance
  dispersion : f.dispersion = f'.dispersion
  aic : f.aic = f'.aic
  bic : f.bic = f'.bic
  rss : f.rss = f'.rss
  ndf : f.ndf = f'.ndf
  score : ∀ β', f'.score β' = Tᵀ *ᵥ f.score (T *ᵥ β' + t)
  fisher : ∀ β', Matrix.of (f'.fisher β') = Tᵀ * Matrix.of (f.fisher (T *ᵥ β' + t)) * T
  covariance : (f.covariance env).map (fun V => Matrix.of V)
    = (f'.covariance env).map fun V => T * Matrix.of V * Tᵀ
  lrAgainst : ∀ β', f.lrTestAgainst (T *ᵥ β' + t) = f'.lrTestAgainst β'
  waldAgainst : ∀ β', f.waldTestAgainst (T *ᵥ β' + t) = f'.waldTestAgainst β'
  scoreAgainst : ∀ β', f.scoreTestAgainst env (T *ᵥ β' + t) = f'.scoreTestAgainst env β'
  hat : f.hat env = f'.hat env
  leverage : f.leverage env = f'.leverage env
  cooks : f.cooks env = f'.cooks env
  residResp : f.residResp = f'.residResp
  residPear : f.residPear = f'.residPear
  residDev : f.residDev = f'.residDev
  residWork : f.residWork = f'.residWork
  residPearStd : f.residPearStd env = f'.residPearStd env
  residDevStd : f.residDevStd env = f'.residDevStd env
  residStudent : f.residStudent env = f'.residStudent env

end Spec
end GLM
