/-
  Accuracy of the score in floating-point arithmetic.
-/
import Verif.Spec.LikeAccuracy

namespace GLM.Spec
variable {fmt : FloatFormat}

/-- The error after one more rounding of a quantity `v` that was known up to the error `e`. -/
noncomputable def afterRounding (u tiny e v : ℝ) : ℝ := e + (u * (|v| + e) + tiny)

/-! ### One observation

`η` is the exact linear predictor and `B` a bound of the error of the computed one. -/

/-- The error of the computed response residual. -/
noncomputable def residError (u tiny big B : ℝ) (fam : Family) (y η : ℝ) : ℝ :=
  afterRounding u tiny (meanError u tiny big B fam η) (y - exactMean fam η)

/-- The error of the computed derivative of the natural parameter: none for the canonical links. -/
noncomputable def slopeError (u tiny B : ℝ) : Family → ℝ → ℝ
  | .exponentialLog | .gammaLog => fun η => ((1 + u) * Real.exp B - 1) * Real.exp (-η) + tiny
  | .invGaussLog => fun η =>
    ((1 + u) * Real.exp (2 * B + (u * (2 * (|η| + B)) + tiny)) - 1) * Real.exp (-2 * η) + tiny
  | _ => fun _ => 0

/-- The computation of that derivative does not overflow.  The complementary log-log link is not
covered. -/
def SlopeFits (u tiny big B : ℝ) : Family → ℝ → Prop
  | .logisticCloglog => fun _ => False
  | .exponentialLog | .gammaLog => fun η => Real.exp (-η + B) < big
  | .invGaussLog => fun η => 2 * (|η| + B) < big ∧
    Real.exp (-2 * η + (2 * B + (u * (2 * (|η| + B)) + tiny))) < big
  | _ => fun _ => True

/-- The exact derivative of the log-likelihood of one observation in its linear predictor. -/
noncomputable def exactWork (fam : Family) (y η : ℝ) : ℝ :=
  (fam.glm (F := ℝ)).link.dNatParam η * (y - exactMean fam η)

/-- The error of the computed derivative. -/
noncomputable def workError (u tiny big B : ℝ) (fam : Family) (y η : ℝ) : ℝ :=
  match fam with
  | .exponentialLog | .gammaLog | .invGaussLog => afterRounding u tiny
      (|(fam.glm (F := ℝ)).link.dNatParam η| * residError u tiny big B fam y η
        + slopeError u tiny B fam η * (|y - exactMean fam η| + residError u tiny big B fam y η))
      (exactWork fam y η)
  | _ => residError u tiny big B fam y η

/-! ### All observations -/

section
variable {n p : ℕ}

/-- The derivative of the log-likelihood of observation `i` in its linear predictor. -/
noncomputable def rowWork (fam : Family) (raw : Dataset (Fl fmt) n p false) (b : Bool)
    (β : Vec (Fl fmt) (ncols b p)) (i : Fin n) : ℝ :=
  exactWork fam (real (raw.y i)) (exactPred b raw.x raw.linearOffset β i)

/-- Its error. -/
noncomputable def rowWorkError (u tiny big : ℝ) (fam : Family) (raw : Dataset (Fl fmt) n p false)
    (b : Bool) (β : Vec (Fl fmt) (ncols b p)) (i : Fin n) : ℝ :=
  workError u tiny big (predError u tiny b raw.x raw.linearOffset β i) fam (real (raw.y i))
    (exactPred b raw.x raw.linearOffset β i)

/-- Entry of the design matrix. -/
noncomputable def exactDesign (raw : Dataset (Fl fmt) n p false) (b : Bool) (i : Fin n)
    (j : Fin (ncols b p)) : ℝ := design b (exactData raw).x i j

/-- The error of the computed entry of the weighted design matrix. -/
noncomputable def colError (u tiny : ℝ) (raw : Dataset (Fl fmt) n p false) (b : Bool) (i : Fin n)
    (j : Fin (ncols b p)) : ℝ :=
  afterRounding u tiny
    (|varWt (exactData raw) i| * afterRounding u tiny 0 (exactDesign raw b i j * freq (exactData raw) i))
    (exactDesign raw b i j * totalWt (exactData raw) i)

/-- The absolute values of the terms of a component of the score, added up. -/
noncomputable def scoreSize (fam : Family) (raw : Dataset (Fl fmt) n p false) (b : Bool)
    (β : Vec (Fl fmt) (ncols b p)) (j : Fin (ncols b p)) : ℝ :=
  ∑ i, |exactDesign raw b i j * totalWt (exactData raw) i * rowWork fam raw b β i|

/-- The errors of the terms, before they are added. -/
noncomputable def scoreTermError (u tiny big : ℝ) (fam : Family) (raw : Dataset (Fl fmt) n p false)
    (b : Bool) (β : Vec (Fl fmt) (ncols b p)) (j : Fin (ncols b p)) : ℝ :=
  ∑ i, (colError u tiny raw b i j * (|rowWork fam raw b β i| + rowWorkError u tiny big fam raw b β i)
    + |exactDesign raw b i j * totalWt (exactData raw) i| * rowWorkError u tiny big fam raw b β i)

/-- The error of a component of the score of the data. -/
noncomputable def dataScoreError (u tiny big : ℝ) (fam : Family) (raw : Dataset (Fl fmt) n p false)
    (b : Bool) (β : Vec (Fl fmt) (ncols b p)) (j : Fin (ncols b p)) : ℝ :=
  scoreTermError u tiny big fam raw b β j
    + sumError u tiny ((fmt.order (.matVec (ncols b p) j) n).tree.depth 1)
        ((fmt.order (.matVec (ncols b p) j) n).tree.ops 1)
        (scoreSize fam raw b β j + scoreTermError u tiny big fam raw b β j)

/-- The exact score of the penalized log-likelihood at the coefficients `β`. -/
noncomputable def exactScore (fam : Family) (raw : Dataset (Fl fmt) n p false) (b : Bool) (l1 l2 : ℝ)
    (β : Vec (Fl fmt) (ncols b p)) : Vec ℝ (ncols b p) :=
  penScore fam.glm (exactData raw) b l1 l2 (fun _ => 1) fun j => real (β j)

/-- Gradient of the L1 penalty. -/
noncomputable def l1Grad (b : Bool) (l : ℝ) (β : Vec (Fl fmt) (ncols b p)) (j : Fin (ncols b p)) : ℝ :=
  strength b l j * SignType.sign (real (β j))

/-- Gradient of the L2 penalty. -/
noncomputable def l2Grad (b : Bool) (l : ℝ) (β : Vec (Fl fmt) (ncols b p)) (j : Fin (ncols b p)) : ℝ :=
  strength b l j * real (β j)

/-- The error after subtracting the gradient of the L1 penalty. -/
noncomputable def lassoScoreError (u tiny big : ℝ) (fam : Family) (raw : Dataset (Fl fmt) n p false)
    (b : Bool) (l1 : ℝ) (β : Vec (Fl fmt) (ncols b p)) (j : Fin (ncols b p)) : ℝ :=
  afterRounding u tiny (dataScoreError u tiny big fam raw b β j + afterRounding u tiny 0 (l1Grad b l1 β j))
    (exactScore fam raw b l1 0 β j)

/-- The error of a component of the score. -/
noncomputable def scoreError (u tiny big : ℝ) (fam : Family) (raw : Dataset (Fl fmt) n p false)
    (b : Bool) (l1 l2 : ℝ) (β : Vec (Fl fmt) (ncols b p)) (j : Fin (ncols b p)) : ℝ :=
  afterRounding u tiny (lassoScoreError u tiny big fam raw b l1 β j + afterRounding u tiny 0 (l2Grad b l2 β j))
    (exactScore fam raw b l1 l2 β j)

/-- Every number is finite and nothing overflows in component `j` of the score at `β`. -/
def ScoreFits (u tiny big : ℝ) (fam : Family) (raw : Dataset (Fl fmt) n p false) (b : Bool)
    (l1 l2 : Fl fmt) (β : Vec (Fl fmt) (ncols b p)) (j : Fin (ncols b p)) : Prop :=
  (∀ i, (raw.y i).isFinite) ∧ (∀ w, raw.weights = some w → ∀ i, (w i).isFinite) ∧
  (∀ f, raw.freqs = some f → ∀ i, (f i).isFinite) ∧ l1.isFinite ∧ l2.isFinite ∧ (∀ j, (β j).isFinite) ∧
  (∀ i, PredFits u tiny big b raw.x raw.linearOffset β i) ∧
  (∀ i, MeanFits fmt u tiny big (predError u tiny b raw.x raw.linearOffset β i) fam
    (exactPred b raw.x raw.linearOffset β i)) ∧
  (∀ i, SlopeFits u tiny big (predError u tiny b raw.x raw.linearOffset β i) fam
    (exactPred b raw.x raw.linearOffset β i)) ∧
  (∀ i, |real (raw.y i) - exactMean fam (exactPred b raw.x raw.linearOffset β i)|
    + meanError u tiny big (predError u tiny b raw.x raw.linearOffset β i) fam
      (exactPred b raw.x raw.linearOffset β i) < big) ∧
  (∀ i, |rowWork fam raw b β i| + rowWorkError u tiny big fam raw b β i < big) ∧
  (∀ i, |exactDesign raw b i j * freq (exactData raw) i| < big) ∧
  (∀ i, |exactDesign raw b i j * totalWt (exactData raw) i| + colError u tiny raw b i j < big) ∧
  scoreSize fam raw b β j + |l1Grad b (real l1) β j| + |l2Grad b (real l2) β j|
    + scoreError u tiny big fam raw b (real l1) (real l2) β j < big

/-- The intercept, if there is one. -/
def interceptPart : (b : Bool) → Vec ℝ (ncols b p) → ℝ
  | true, v => v 0
  | false, _ => 0

end
end GLM.Spec
