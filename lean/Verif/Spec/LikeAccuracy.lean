/-
  Accuracy of the log-likelihood in floating-point arithmetic.
-/
import Verif.Spec.Accuracy
import Verif.Spec.Family
import Verif.Spec.Glm

namespace GLM.Spec
variable {fmt : FloatFormat}

/-- Also the library's logarithms have a relative error of at most `u`, or an absolute error of at most
`tiny`, and the number one half is in the format. -/
structure AccurateLogs (fmt : FloatFormat) (u tiny big : ℝ) : Prop extends Accurate fmt u tiny big where
  rnd_half : fmt.rnd ((1 / 2 : ℝ) : EReal) = ((1 / 2 : ℝ) : EReal)
  ln_near : ∀ v : ℝ, 0 < v → |Real.log v| < big → ∃ r : ℝ, fmt.ln v = r ∧ Near u tiny (Real.log v) r
  ln1p_near : ∀ v : ℝ, 0 ≤ v → Real.log (1 + v) < big →
    ∃ r : ℝ, fmt.ln1p v = r ∧ Near u tiny (Real.log (1 + v)) r

/-! ### One observation

`ν` is the exact natural parameter and `B` a bound of the error of the computed one. -/

/-- The absolute values of the two parts of a log-likelihood `y ν - A(ν)`, added up; logistic regression
splits it into other parts. -/
noncomputable def likeSize : Family → ℝ → ℝ → ℝ
  | .logisticLogit | .logisticCloglog => fun _ ν => |ν| + 1
  | fam => fun y ν => |y * ν| + |cumulant fam ν|

/-- How far the two parts can move with the natural parameter. -/
noncomputable def likeMove (B : ℝ) : Family → ℝ → ℝ → ℝ
  | .linear => fun y ν => |y| * B + (|ν| + B) * B
  | .logisticLogit | .logisticCloglog => fun _ _ => B
  | .binomial N => fun y _ => |y| * B + N * B
  | .poisson => fun y ν => |y| * B + (Real.exp B - 1) * Real.exp ν
  | .exponentialNegRec | .exponentialLog | .gammaNegRec | .gammaLog => fun y ν =>
    |y| * B + B / (-ν - B)
  | .invGaussNegRecSq | .invGaussLog => fun y ν => |y| * B + 2 * B / Real.sqrt (-2 * ν)

/-- How often underflow can contribute. -/
noncomputable def likeUnderflow (B : ℝ) : Family → ℝ → ℝ
  | .linear | .logisticLogit | .logisticCloglog => fun ν => 6 + 2 * (|ν| + B)
  | .binomial N => fun _ => 6 + 8 * N
  | .poisson | .exponentialNegRec | .exponentialLog | .gammaNegRec | .gammaLog => fun _ => 6
  | .invGaussNegRecSq | .invGaussLog => fun ν => 6 + 2 / Real.sqrt (-2 * ν - 2 * B)

/-- The error of the computed log-likelihood of one observation. -/
noncomputable def termError (u tiny B : ℝ) (fam : Family) (y ν : ℝ) : ℝ :=
  likeMove B fam y ν + ((1 + u) ^ 5 - 1) * (likeSize fam y ν + likeMove B fam y ν)
    + likeUnderflow B fam ν * tiny

/-- Nothing overflows, and a natural parameter that has to be negative is so by more than its error. -/
def TermFits (fmt : FloatFormat) (u tiny big B : ℝ) (fam : Family) (y ν : ℝ) : Prop :=
  |ν| + B < big ∧ likeSize fam y ν + termError u tiny B fam y ν < big ∧
  match fam with
  | .linear => True
  | .logisticLogit | .logisticCloglog => 0 ≤ y ∧ y ≤ 1
  | .poisson => Real.exp (ν + B) < big
  | .binomial N => 1 ≤ N ∧ fmt.rnd (N : ℝ) = (N : ℝ) ∧ Real.exp (ν + B) < big
  | .exponentialNegRec | .exponentialLog | .gammaNegRec | .gammaLog => B < -ν
  | .invGaussNegRecSq | .invGaussLog => B < -ν ∧ 2 * (|ν| + B) + 1 < big

/-- The error of the computed natural parameter, if the linear predictor `η` is computed with the error
`B`: none for the canonical links. -/
noncomputable def natError (u tiny B : ℝ) : Family → ℝ → ℝ
  | .exponentialLog | .gammaLog => fun η => ((1 + u) * Real.exp B - 1) * Real.exp (-η) + tiny
  | .invGaussLog => fun η =>
    let B' := 2 * B + (u * (2 * (|η| + B)) + tiny)
    let e := ((1 + u) * Real.exp B' - 1) * Real.exp (-2 * η) + tiny
    e / 2 + (u * ((Real.exp (-2 * η) + e) / 2) + tiny)
  | _ => fun _ => B

/-- The computation of the natural parameter does not overflow.  The complementary log-log link is
not covered. -/
def NatFits (u tiny big B : ℝ) : Family → ℝ → Prop
  | .logisticCloglog => fun _ => False
  | .exponentialLog | .gammaLog => fun η => Real.exp (-η + B) < big
  | .invGaussLog => fun η =>
    let B' := 2 * B + (u * (2 * (|η| + B)) + tiny)
    let e := ((1 + u) * Real.exp B' - 1) * Real.exp (-2 * η) + tiny
    2 * (|η| + B) < big ∧ Real.exp (-2 * η + B') < big ∧ Real.exp (-2 * η) + e < big
  | _ => fun _ => True

/-! ### All observations -/

section
variable {n p : ℕ}

/-- The numbers of a data set, read as real numbers. -/
noncomputable def exactData (raw : Dataset (Fl fmt) n p false) : Dataset ℝ n p false where
  y := fun i => real (raw.y i)
  x := fun i j => real (raw.x i j)
  linearOffset := raw.linearOffset.map fun v i => real (v i)
  weights := raw.weights.map fun v i => real (v i)
  freqs := raw.freqs.map fun v i => real (v i)
  standardizer := none

/-- The exact natural parameter of observation `i`. -/
noncomputable def exactNat (fam : Family) (raw : Dataset (Fl fmt) n p false) (b : Bool)
    (β : Vec (Fl fmt) (ncols b p)) (i : Fin n) : ℝ :=
  (fam.glm (F := ℝ)).link.natParam (exactPred b raw.x raw.linearOffset β i)

/-- The error of the computed natural parameter of observation `i`. -/
noncomputable def rowNatError (u tiny : ℝ) (fam : Family) (raw : Dataset (Fl fmt) n p false) (b : Bool)
    (β : Vec (Fl fmt) (ncols b p)) (i : Fin n) : ℝ :=
  natError u tiny (predError u tiny b raw.x raw.linearOffset β i) fam
    (exactPred b raw.x raw.linearOffset β i)

/-- The error of the computed log-likelihood of observation `i`, before weighting. -/
noncomputable def rowTermError (u tiny : ℝ) (fam : Family) (raw : Dataset (Fl fmt) n p false) (b : Bool)
    (β : Vec (Fl fmt) (ncols b p)) (i : Fin n) : ℝ :=
  termError u tiny (rowNatError u tiny fam raw b β i) fam (real (raw.y i)) (exactNat fam raw b β i)

/-- The exact log-likelihood of observation `i`, before weighting. -/
noncomputable def rowLik (fam : Family) (raw : Dataset (Fl fmt) n p false) (b : Bool)
    (β : Vec (Fl fmt) (ncols b p)) (i : Fin n) : ℝ :=
  real (raw.y i) * exactNat fam raw b β i - cumulant fam (exactNat fam raw b β i)

/-- The error of the weighted log-likelihood of observation `i`. -/
noncomputable def rowError (u tiny : ℝ) (fam : Family) (raw : Dataset (Fl fmt) n p false) (b : Bool)
    (β : Vec (Fl fmt) (ncols b p)) (i : Fin n) : ℝ :=
  ((1 + u) ^ 2 - 1) * |totalWt (exactData raw) i * rowLik fam raw b β i|
    + (1 + u) ^ 2 * |totalWt (exactData raw) i| * rowTermError u tiny fam raw b β i
    + ((1 + u) * |freq (exactData raw) i| + 1) * tiny

/-- The error of a sum of terms that have a total size `S` and a total error `e`. -/
noncomputable def totalError (fmt : FloatFormat) (u tiny : ℝ) (n : ℕ) (S e : ℝ) : ℝ :=
  e + sumError u tiny ((fmt.order .sum n).tree.depth 0) ((fmt.order .sum n).tree.ops 0) (S + e)

/-- The absolute values of the weighted log-likelihoods, added up. -/
noncomputable def dataLikSize (fam : Family) (raw : Dataset (Fl fmt) n p false) (b : Bool)
    (β : Vec (Fl fmt) (ncols b p)) : ℝ :=
  ∑ i, |totalWt (exactData raw) i * rowLik fam raw b β i|

/-- The error of the computed log-likelihood. -/
noncomputable def dataLikError (u tiny : ℝ) (fam : Family) (raw : Dataset (Fl fmt) n p false) (b : Bool)
    (β : Vec (Fl fmt) (ncols b p)) : ℝ :=
  totalError fmt u tiny n (dataLikSize fam raw b β) (∑ i, rowError u tiny fam raw b β i)

/-- Every number of the data set is finite and nothing overflows in the log-likelihood at `β`. -/
def LikFits (u tiny big : ℝ) (fam : Family) (raw : Dataset (Fl fmt) n p false) (b : Bool)
    (β : Vec (Fl fmt) (ncols b p)) : Prop :=
  (∀ i, (raw.y i).isFinite) ∧ (∀ w, raw.weights = some w → ∀ i, (w i).isFinite) ∧
  (∀ f, raw.freqs = some f → ∀ i, (f i).isFinite) ∧
  (∀ i, PredFits u tiny big b raw.x raw.linearOffset β i) ∧
  (∀ i, NatFits u tiny big (predError u tiny b raw.x raw.linearOffset β i) fam
    (exactPred b raw.x raw.linearOffset β i)) ∧
  (∀ i, TermFits fmt u tiny big (rowNatError u tiny fam raw b β i) fam (real (raw.y i))
    (exactNat fam raw b β i)) ∧
  (∀ i, |varWt (exactData raw) i| * (|rowLik fam raw b β i| + rowTermError u tiny fam raw b β i)
    < big) ∧
  dataLikSize fam raw b β + dataLikError u tiny fam raw b β < big

/-! ### The penalty -/

/-- A penalty strength for each coefficient: none for the intercept. -/
noncomputable def strength (b : Bool) (l : ℝ) : Fin (ncols b p) → ℝ := onSlopes b fun _ => max l 0

/-- The L1 penalty. -/
noncomputable def l1Size (b : Bool) (l : ℝ) (β : Vec (Fl fmt) (ncols b p)) : ℝ :=
  ∑ j, strength b l j * |real (β j)|

/-- Twice the L2 penalty. -/
noncomputable def l2Size (b : Bool) (l : ℝ) (β : Vec (Fl fmt) (ncols b p)) : ℝ :=
  ∑ j, strength b l j * real (β j) ^ 2

/-- The error of the L1 penalty. -/
noncomputable def l1Error (u tiny : ℝ) (b : Bool) (l : ℝ) (β : Vec (Fl fmt) (ncols b p)) : ℝ :=
  totalError fmt u tiny (ncols b p) (l1Size b l β) (u * l1Size b l β + ncols b p * tiny)

/-- The error of twice the L2 penalty. -/
noncomputable def l2Error (u tiny : ℝ) (b : Bool) (l : ℝ) (β : Vec (Fl fmt) (ncols b p)) : ℝ :=
  totalError fmt u tiny (ncols b p) (l2Size b l β)
    (((1 + u) ^ 2 - 1) * l2Size b l β + ncols b p * (((1 + u) * max l 0 + 1) * tiny))

/-- The error of the L2 penalty. -/
noncomputable def halfError (u tiny : ℝ) (b : Bool) (l : ℝ) (β : Vec (Fl fmt) (ncols b p)) : ℝ :=
  l2Error u tiny b l β / 2 + (u * ((l2Size b l β + l2Error u tiny b l β) / 2) + tiny)

/-- The size of the penalty. -/
noncomputable def penSize (b : Bool) (l1 l2 : ℝ) (β : Vec (Fl fmt) (ncols b p)) : ℝ :=
  l1Size b l1 β + l2Size b l2 β / 2

/-- The error of the penalty. -/
noncomputable def penError (u tiny : ℝ) (b : Bool) (l1 l2 : ℝ) (β : Vec (Fl fmt) (ncols b p)) : ℝ :=
  (l1Error u tiny b l1 β + halfError u tiny b l2 β)
    + (u * (penSize b l1 l2 β + (l1Error u tiny b l1 β + halfError u tiny b l2 β)) + tiny)

/-- The exact penalized log-likelihood at the coefficients `β`. -/
noncomputable def exactPenLik (fam : Family) (raw : Dataset (Fl fmt) n p false) (b : Bool) (l1 l2 : ℝ)
    (β : Vec (Fl fmt) (ncols b p)) : ℝ :=
  penLogLik fam.glm (exactData raw) b l1 l2 (fun _ => 1) (fun j => real (β j))

/-- The error of the computed penalized log-likelihood. -/
noncomputable def penLikError (u tiny : ℝ) (fam : Family) (raw : Dataset (Fl fmt) n p false) (b : Bool)
    (l1 l2 : ℝ) (β : Vec (Fl fmt) (ncols b p)) : ℝ :=
  let e := dataLikError u tiny fam raw b β + penError u tiny b l1 l2 β
  e + (u * (dataLikSize fam raw b β + penSize b l1 l2 β + e) + tiny)

/-- Nothing overflows in the penalized log-likelihood at `β`. -/
def PenLikFits (u tiny big : ℝ) (fam : Family) (raw : Dataset (Fl fmt) n p false) (b : Bool)
    (l1 l2 : Fl fmt) (β : Vec (Fl fmt) (ncols b p)) : Prop :=
  LikFits u tiny big fam raw b β ∧ l1.isFinite ∧ l2.isFinite ∧ (∀ j, (β j).isFinite) ∧
  (∀ j, real (β j) ^ 2 < big) ∧
  dataLikSize fam raw b β + penSize b (real l1) (real l2) β
    + penLikError u tiny fam raw b (real l1) (real l2) β < big ∧
  l2Size b (real l2) β + l2Error u tiny b (real l2) β < big

end
end GLM.Spec
