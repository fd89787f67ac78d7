/-
  The responses in other units, from another origin or with the labels exchanged: vocabulary for C82.
-/
import Verif.Spec.Coding
import Verif.Spec.Family

namespace GLM
namespace Spec
variable {n p : ℕ} {b : Bool}

/-- Changes `y ↦ φ y` of the responses that only change the description of the model: the linear
predictor `ω` becomes `τ ω + s`.  `r` is the factor of the change (`φ y = r y + …`) and `m` the
factor of the deviance. -/
inductive ResponseChange : Family → (φ : ℝ → ℝ) → (τ s r m : ℝ) → Prop
  /-- Linear regression: another unit and another origin, such as degrees Fahrenheit. -/
  | linear {a : ℝ} (ha : a ≠ 0) (s : ℝ) : ResponseChange .linear (fun y => a * y + s) a s a (a ^ 2)
  /-- Positive responses with a logarithmic link: another unit. -/
  | gammaLog {c : ℝ} (hc : 0 < c) : ResponseChange .gammaLog (fun y => c * y) 1 (Real.log c) c 1
  | exponentialLog {c : ℝ} (hc : 0 < c) :
      ResponseChange .exponentialLog (fun y => c * y) 1 (Real.log c) c 1
  | invGaussLog {c : ℝ} (hc : 0 < c) :
      ResponseChange .invGaussLog (fun y => c * y) 1 (Real.log c) c c⁻¹
  | poisson {c : ℝ} (hc : 0 < c) : ResponseChange .poisson (fun y => c * y) 1 (Real.log c) c c
  /-- Successes and failures exchanged. -/
  | logisticLogit : ResponseChange .logisticLogit (fun y => 1 - y) (-1) 0 (-1) 1
  | binomial (N : ℕ) : ResponseChange (.binomial N) (fun y => N - y) (-1) 0 (-1) 1

/-- The data with their responses changed; offsets are on the scale of the linear predictor. -/
def changeResponse (φ : ℝ → ℝ) (τ : ℝ) (d : Dataset ℝ n p b) : Dataset ℝ n p b :=
  { d with
    y := fun i => φ (d.y i)
    linearOffset := d.linearOffset.map fun off i => τ * off i }

/-- The coefficients that describe the same model after the change. -/
def changeCoef (τ s : ℝ) : {b : Bool} → Vec ℝ (ncols b p) → Vec ℝ (ncols b p)
  | true, β => (Fin.cons (τ * β (0 : Fin (p + 1)) + s) fun j : Fin p => τ * β j.succ :
      Fin (p + 1) → ℝ)
  | false, β => fun j => τ * β j

/-- The options after the change: the L2 strength follows the scale of the likelihood, and a starting
point is converted. -/
noncomputable def changeOptions (τ s m : ℝ) (o : FitOptions ℝ (ncols b p)) :
    FitOptions ℝ (ncols b p) :=
  { o with l2 := m / τ ^ 2 * o.l2, initGuess := o.initGuess.map (changeCoef τ s) }

/-- A recorded step after the change; log-likelihoods are multiplied by `m` and shifted. -/
noncomputable def changeStep (τ s m κ : ℝ) (st : IrlsStep ℝ (ncols b p)) : IrlsStep ℝ (ncols b p) :=
  { guess := changeCoef τ s st.guess, like := m * st.like + κ }

/-- The same error, with corresponding histories. -/
inductive ErrorAfterChange (τ s m κ : ℝ) (d : Dataset ℝ n p b) :
    FitError ℝ (ncols b p) → FitError ℝ (ncols b p) → Prop
  | linalg : ErrorAfterChange τ s m κ d .linalg .linalg
  | maxIter (k : ℕ) {h h'} (hh : h'.map (extStep d) = (h.map (extStep d)).map (changeStep τ s m κ)) :
      ErrorAfterChange τ s m κ d (.maxIter k h) (.maxIter k h')

/-- The two fits took the same course. -/
structure CourseAfterChange (τ s m κ : ℝ) (f f' : Fit ℝ n p b) : Prop where
  result : f'.result = changeCoef τ s f.result
  history : f'.history = f.history.map (changeStep τ s m κ)
  nIter : f'.nIter = f.nIter

/-- `f'` is the fit `f` after the change of the responses: what does not involve the dispersion. -/
structure FitAfterChange (φ : ℝ → ℝ) (τ s r m : ℝ) (env : Env ℝ) (f f' : Fit ℝ n p b) : Prop where
  yHat : ∀ i, f'.yHat i = φ (f.yHat i)
  predict : ∀ {k : ℕ} (x : Mat ℝ k p) (off : Vec ℝ k),
    f'.predict x (some fun i => τ * off i) = fun i => φ (f.predict x (some off) i)
  deviance : f'.deviance = m * f.deviance
  aic : f'.aic = f.aic + (m - 1) * f.deviance
  rss : f'.rss = r ^ 2 * f.rss
  residResp : ∀ i, f'.residResp i = r * f.residResp i
  residWork : ∀ i, f'.residWork i = τ * f.residWork i
  residPear : ∀ i, f'.residPear i = r / |r| * Real.sqrt m * f.residPear i
  residDev : ∀ i, f'.residDev i = r / |r| * Real.sqrt m * f.residDev i
  score : ∀ β, f'.score (changeCoef τ s β) = fun j => m / τ * f.score β j
  fisher : ∀ β, f'.fisher (changeCoef τ s β) = fun j k => m / τ ^ 2 * f.fisher β j k
  hat : f'.hat env = f.hat env
  leverage : f'.leverage env = f.leverage env
  lrAgainst : ∀ β, f'.lrTestAgainst (changeCoef τ s β) = m * f.lrTestAgainst β
  waldAgainst : ∀ β, f'.waldTestAgainst (changeCoef τ s β) = m * f.waldTestAgainst β
  scoreAgainst : ∀ β, f'.scoreTestAgainst env (changeCoef τ s β)
    = (f.scoreTestAgainst env β).map fun v => m * v

/-- `f'` is the fit `f` after the change of the responses: what involves the dispersion. -/
structure ErrorsAfterChange (τ r m : ℝ) (env : Env ℝ) (f f' : Fit ℝ n p b) : Prop where
  dispersion : f'.dispersion = m * f.dispersion
  covariance : f'.covariance env = (f.covariance env).map fun V j k => τ ^ 2 * V j k
  cooks : f'.cooks env = f.cooks env
  residPearStd : f'.residPearStd env = (f.residPearStd env).map fun v i => r / |r| * v i
  residDevStd : f'.residDevStd env = (f.residDevStd env).map fun v i => r / |r| * v i
  residStudent : f'.residStudent env = (f.residStudent env).map fun v i => r / |r| * v i
  waldZ : ∀ z, f.waldZ env = .ok z → ∃ z', f'.waldZ env = .ok z' ∧
    ∀ j, slope (b := b) z' j = τ / |τ| * slope (b := b) z j

/-- `f'` is the fit `f` after the change of the responses: the comparison with the null model. -/
structure TestsAfterChange (m : ℝ) (env : Env ℝ) (f f' : Fit ℝ n p b) : Prop where
  lr : ∃ v, f.lrTest env = .ok v ∧ f'.lrTest env = .ok (m * v)
  wald : ∃ v, f.waldTest env = .ok v ∧ f'.waldTest env = .ok (m * v)
  score : f'.scoreTest env = (f.scoreTest env).map fun v => m * v
  rSq : ∃ v, f.rSq env = .ok v ∧ f'.rSq env = .ok v

end Spec
end GLM
