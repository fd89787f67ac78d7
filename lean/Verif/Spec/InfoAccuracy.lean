/-
  The information matrix, the residuals and the Wald statistic in floating-point arithmetic: bounds of
  their errors.
-/
import Verif.Spec.DevianceAccuracy

namespace GLM.Spec
variable {fmt : FloatFormat}

/-! ### One observation -/

/-- The error of a computed product of factors with errors `e` and `d`. -/
noncomputable def timesError (u tiny e d v w : ℝ) : ℝ := afterRounding u tiny (productError e d v w) (v * w)

/-- The error of a computed quotient. -/
noncomputable def overError (u tiny e d v w : ℝ) : ℝ := afterRounding u tiny (quotientError e d v w) (v / w)

/-- The product does not overflow. -/
def TimesFits (big e d v w : ℝ) : Prop := |v * w| + productError e d v w < big

/-- The quotient does not overflow, and the divisor is not zero. -/
def OverFits (big e d v w : ℝ) : Prop := d < |w| ∧ |v / w| + quotientError e d v w < big

/-- The error of the computed variance, if the mean `μ` is computed with the error `e`. -/
noncomputable def varError (u tiny e : ℝ) : Family → ℝ → ℝ
  | .linear => fun _ => 0
  | .logisticLogit | .logisticCloglog => fun μ =>
    timesError u tiny e (afterRounding u tiny e (1 - μ)) μ (1 - μ)
  | .binomial N => fun μ =>
    overError u tiny (timesError u tiny e (afterRounding u tiny e (N - μ)) μ (N - μ)) 0 (μ * (N - μ)) N
  | .poisson => fun _ => e
  | .exponentialNegRec | .exponentialLog | .gammaNegRec | .gammaLog => fun μ => timesError u tiny e e μ μ
  | .invGaussNegRecSq | .invGaussLog => fun μ => timesError u tiny (timesError u tiny e e μ μ) e (μ * μ) μ

/-- The computation of the variance does not overflow. -/
def VarianceFits (fmt : FloatFormat) (u tiny big e : ℝ) : Family → ℝ → Prop
  | .linear | .poisson => fun _ => True
  | .logisticLogit | .logisticCloglog => fun μ =>
    |1 - μ| + e < big ∧ TimesFits big e (afterRounding u tiny e (1 - μ)) μ (1 - μ)
  | .binomial N => fun μ => fmt.rnd (N : ℝ) = (N : ℝ) ∧ |N - μ| + e < big ∧
    TimesFits big e (afterRounding u tiny e (N - μ)) μ (N - μ) ∧
    OverFits big (timesError u tiny e (afterRounding u tiny e (N - μ)) μ (N - μ)) 0 (μ * (N - μ)) N
  | .exponentialNegRec | .exponentialLog | .gammaNegRec | .gammaLog => fun μ => TimesFits big e e μ μ
  | .invGaussNegRecSq | .invGaussLog => fun μ => TimesFits big e e μ μ ∧
    TimesFits big (timesError u tiny e e μ μ) e (μ * μ) μ

/-- The information of one observation about its linear predictor `η`: the squared derivative of the
natural parameter, times the variance. -/
noncomputable def infoAt (fam : Family) (η : ℝ) : ℝ :=
  (fam.glm (F := ℝ)).link.dNatParam η ^ 2 * varianceFn fam (exactMean fam η)

/-- The error of the computed variance at a linear predictor with the error `B`. -/
noncomputable def varianceError (u tiny big B : ℝ) (fam : Family) (η : ℝ) : ℝ :=
  varError u tiny (meanError u tiny big B fam η) fam (exactMean fam η)

/-- The error of the computed information: the variance itself for the canonical links. -/
noncomputable def infoError (u tiny big B : ℝ) (fam : Family) (η : ℝ) : ℝ :=
  let d := (fam.glm (F := ℝ)).link.dNatParam η
  let V := varianceFn fam (exactMean fam η)
  match fam with
  | .exponentialLog | .gammaLog | .invGaussLog =>
    timesError u tiny
      (timesError u tiny (slopeError u tiny B fam η) (varianceError u tiny big B fam η) d V)
      (slopeError u tiny B fam η) (d * V) d
  | _ => varianceError u tiny big B fam η

/-- The computation of the information does not overflow.  The complementary log-log link is not
covered. -/
def InfoFits (fmt : FloatFormat) (u tiny big B : ℝ) (fam : Family) (η : ℝ) : Prop :=
  let d := (fam.glm (F := ℝ)).link.dNatParam η
  let V := varianceFn fam (exactMean fam η)
  MeanFits fmt u tiny big B fam η ∧ SlopeFits u tiny big B fam η ∧
  VarianceFits fmt u tiny big (meanError u tiny big B fam η) fam (exactMean fam η) ∧
  match fam with
  | .exponentialLog | .gammaLog | .invGaussLog =>
    TimesFits big (slopeError u tiny B fam η) (varianceError u tiny big B fam η) d V ∧
    TimesFits big (timesError u tiny (slopeError u tiny B fam η) (varianceError u tiny big B fam η) d V)
      (slopeError u tiny B fam η) (d * V) d
  | _ => True

/-! ### The information matrix -/

section
variable {n p : ℕ}

/-- The information of observation `i` about its linear predictor. -/
noncomputable def rowInfo (fam : Family) (raw : Dataset (Fl fmt) n p false) (b : Bool)
    (β : Vec (Fl fmt) (ncols b p)) (i : Fin n) : ℝ :=
  infoAt fam (exactPred b raw.x raw.linearOffset β i)

/-- Its error. -/
noncomputable def rowInfoError (u tiny big : ℝ) (fam : Family) (raw : Dataset (Fl fmt) n p false) (b : Bool)
    (β : Vec (Fl fmt) (ncols b p)) (i : Fin n) : ℝ :=
  infoError u tiny big (predError u tiny b raw.x raw.linearOffset β i) fam
    (exactPred b raw.x raw.linearOffset β i)

/-- The error of the computed product of an entry of the weighted design matrix and the information. -/
noncomputable def infoColError (u tiny big : ℝ) (fam : Family) (raw : Dataset (Fl fmt) n p false) (b : Bool)
    (β : Vec (Fl fmt) (ncols b p)) (j : Fin (ncols b p)) (i : Fin n) : ℝ :=
  timesError u tiny (colError u tiny raw b i j) (rowInfoError u tiny big fam raw b β i)
    (exactDesign raw b i j * totalWt (exactData raw) i) (rowInfo fam raw b β i)

/-- The absolute values of the terms of entry `j k` of the information matrix, added up. -/
noncomputable def infoSize (fam : Family) (raw : Dataset (Fl fmt) n p false) (b : Bool)
    (β : Vec (Fl fmt) (ncols b p)) (j k : Fin (ncols b p)) : ℝ :=
  ∑ i, |exactDesign raw b i j * totalWt (exactData raw) i * rowInfo fam raw b β i * exactDesign raw b i k|

/-- The errors of the terms, before they are added. -/
noncomputable def infoTermError (u tiny big : ℝ) (fam : Family) (raw : Dataset (Fl fmt) n p false)
    (b : Bool) (β : Vec (Fl fmt) (ncols b p)) (j k : Fin (ncols b p)) : ℝ :=
  ∑ i, infoColError u tiny big fam raw b β j i * |exactDesign raw b i k|

/-- The error of entry `j k` of the information matrix of the data. -/
noncomputable def dataInfoError (u tiny big : ℝ) (fam : Family) (raw : Dataset (Fl fmt) n p false)
    (b : Bool) (β : Vec (Fl fmt) (ncols b p)) (j k : Fin (ncols b p)) : ℝ :=
  infoTermError u tiny big fam raw b β j k
    + sumError u tiny ((fmt.order (.matMat (ncols b p) (ncols b p) j k) n).tree.depth 1)
        ((fmt.order (.matMat (ncols b p) (ncols b p) j k) n).tree.ops 1)
        (infoSize fam raw b β j k + infoTermError u tiny big fam raw b β j k)

/-- The exact information matrix: that of the data, and the curvature of the L2 penalty. -/
noncomputable def exactInfo (fam : Family) (raw : Dataset (Fl fmt) n p false) (b : Bool) (l2 : ℝ)
    (β : Vec (Fl fmt) (ncols b p)) (j k : Fin (ncols b p)) : ℝ :=
  fisherMat fam.glm (exactData raw) b (fun j => real (β j)) j k + ridgeMat l2 (fun _ => 1) b j k

/-- The error of entry `j k` of the information matrix. -/
noncomputable def fisherError (u tiny big : ℝ) (fam : Family) (raw : Dataset (Fl fmt) n p false)
    (b : Bool) (l2 : ℝ) (β : Vec (Fl fmt) (ncols b p)) (j k : Fin (ncols b p)) : ℝ :=
  afterRounding u tiny (dataInfoError u tiny big fam raw b β j k) (exactInfo fam raw b l2 β j k)

/-- Every number is finite and nothing overflows in entry `j k` of the information matrix at `β`. -/
structure FisherFits (u tiny big : ℝ) (fam : Family) (raw : Dataset (Fl fmt) n p false) (b : Bool)
    (l2 : Fl fmt) (β : Vec (Fl fmt) (ncols b p)) (j k : Fin (ncols b p)) : Prop where
  weights : ∀ w, raw.weights = some w → ∀ i, (w i).isFinite
  freqs : ∀ f, raw.freqs = some f → ∀ i, (f i).isFinite
  strength : l2.isFinite
  pred : ∀ i, PredFits u tiny big b raw.x raw.linearOffset β i
  info : ∀ i, InfoFits fmt u tiny big (predError u tiny b raw.x raw.linearOffset β i) fam
    (exactPred b raw.x raw.linearOffset β i)
  counted : ∀ i, |exactDesign raw b i j * freq (exactData raw) i| < big
  col : ∀ i, |exactDesign raw b i j * totalWt (exactData raw) i| + colError u tiny raw b i j < big
  term : ∀ i, TimesFits big (colError u tiny raw b i j) (rowInfoError u tiny big fam raw b β i)
    (exactDesign raw b i j * totalWt (exactData raw) i) (rowInfo fam raw b β i)
  sum : infoSize fam raw b β j k + dataInfoError u tiny big fam raw b β j k < big
  total : |exactInfo fam raw b (real l2) β j k| + dataInfoError u tiny big fam raw b β j k < big

/-! ### Wald's test statistic -/

/-- The error of a computed sum of products of `v i` and `w i`, which have the errors `e i` and `d i`. -/
noncomputable def dotError (fmt : FloatFormat) (u tiny : ℝ) (site : SumSite) {m : ℕ} (e d v w : Fin m → ℝ) :
    ℝ :=
  ∑ i, (e i * (|w i| + d i) + |v i| * d i)
    + sumError u tiny ((fmt.order site m).tree.depth 1) ((fmt.order site m).tree.ops 1)
        (∑ i, |v i * w i| + ∑ i, (e i * (|w i| + d i) + |v i| * d i))

/-- The sum of products does not overflow. -/
def DotFits (fmt : FloatFormat) (u tiny big : ℝ) (site : SumSite) {m : ℕ} (e d v w : Fin m → ℝ) : Prop :=
  ∑ i, |v i * w i| + dotError fmt u tiny site e d v w < big

/-- The exact difference of two vectors of coefficients. -/
noncomputable def shiftAt {k : ℕ} (β α : Vec (Fl fmt) k) (j : Fin k) : ℝ := real (β j) - real (α j)

/-- Wald's statistic `δᵀ I δ` for the difference `δ` of the coefficients `β` and `α`, where `I` is the
information matrix at `α`. -/
noncomputable def exactWald (fam : Family) (raw : Dataset (Fl fmt) n p false) (b : Bool) (l2 : ℝ)
    (β α : Vec (Fl fmt) (ncols b p)) : ℝ :=
  ∑ j, shiftAt β α j * ∑ k, exactInfo fam raw b l2 α j k * shiftAt β α k

/-- The error of component `j` of `I δ`. -/
noncomputable def waldRowError (u tiny big : ℝ) (fam : Family) (raw : Dataset (Fl fmt) n p false) (b : Bool)
    (l2 : ℝ) (β α : Vec (Fl fmt) (ncols b p)) (j : Fin (ncols b p)) : ℝ :=
  dotError fmt u tiny (.matVec (ncols b p) j) (fisherError u tiny big fam raw b l2 α j)
    (fun k => afterRounding u tiny 0 (shiftAt β α k)) (exactInfo fam raw b l2 α j) (shiftAt β α)

/-- The error of Wald's statistic. -/
noncomputable def waldError (u tiny big : ℝ) (fam : Family) (raw : Dataset (Fl fmt) n p false) (b : Bool)
    (l2 : ℝ) (β α : Vec (Fl fmt) (ncols b p)) : ℝ :=
  dotError fmt u tiny .dot (fun k => afterRounding u tiny 0 (shiftAt β α k))
    (waldRowError u tiny big fam raw b l2 β α) (shiftAt β α)
    fun j => ∑ k, exactInfo fam raw b l2 α j k * shiftAt β α k

/-- Nothing overflows in Wald's statistic. -/
structure WaldFits (u tiny big : ℝ) (fam : Family) (raw : Dataset (Fl fmt) n p false) (b : Bool)
    (l2 : Fl fmt) (β α : Vec (Fl fmt) (ncols b p)) : Prop where
  finite : ∀ j, (β j).isFinite ∧ (α j).isFinite
  shift : ∀ j, |shiftAt β α j| < big
  fisher : ∀ j k, FisherFits u tiny big fam raw b l2 α j k
  row : ∀ j : Fin (ncols b p), DotFits fmt u tiny big (.matVec (ncols b p) j) (fisherError u tiny big fam raw b (real l2) α j)
    (fun k => afterRounding u tiny 0 (shiftAt β α k)) (exactInfo fam raw b (real l2) α j) (shiftAt β α)
  total : DotFits fmt u tiny big .dot (fun k => afterRounding u tiny 0 (shiftAt β α k))
    (waldRowError u tiny big fam raw b (real l2) β α) (shiftAt β α)
    fun j => ∑ k, exactInfo fam raw b (real l2) α j k * shiftAt β α k

/-! ### Residuals -/

/-- The mean, the variance and the response residual of observation `i`, and their errors. -/
noncomputable def rowMean (fam : Family) (raw : Dataset (Fl fmt) n p false) (b : Bool)
    (β : Vec (Fl fmt) (ncols b p)) (i : Fin n) : ℝ :=
  exactMean fam (exactPred b raw.x raw.linearOffset β i)

noncomputable def rowResid (fam : Family) (raw : Dataset (Fl fmt) n p false) (b : Bool)
    (β : Vec (Fl fmt) (ncols b p)) (i : Fin n) : ℝ :=
  real (raw.y i) - rowMean fam raw b β i

noncomputable def rowResidError (u tiny big : ℝ) (fam : Family) (raw : Dataset (Fl fmt) n p false) (b : Bool)
    (β : Vec (Fl fmt) (ncols b p)) (i : Fin n) : ℝ :=
  residError u tiny big (predError u tiny b raw.x raw.linearOffset β i) fam (real (raw.y i))
    (exactPred b raw.x raw.linearOffset β i)

noncomputable def rowVar (fam : Family) (raw : Dataset (Fl fmt) n p false) (b : Bool)
    (β : Vec (Fl fmt) (ncols b p)) (i : Fin n) : ℝ :=
  varianceFn fam (rowMean fam raw b β i)

noncomputable def rowVarError (u tiny big : ℝ) (fam : Family) (raw : Dataset (Fl fmt) n p false) (b : Bool)
    (β : Vec (Fl fmt) (ncols b p)) (i : Fin n) : ℝ :=
  varianceError u tiny big (predError u tiny b raw.x raw.linearOffset β i) fam
    (exactPred b raw.x raw.linearOffset β i)

/-- The response residual of observation `i` does not overflow. -/
structure ResidFits (u tiny big : ℝ) (fam : Family) (raw : Dataset (Fl fmt) n p false) (b : Bool)
    (β : Vec (Fl fmt) (ncols b p)) (i : Fin n) : Prop where
  y : (raw.y i).isFinite
  pred : PredFits u tiny big b raw.x raw.linearOffset β i
  mean : MeanFits fmt u tiny big (predError u tiny b raw.x raw.linearOffset β i) fam
    (exactPred b raw.x raw.linearOffset β i)
  resid : |rowResid fam raw b β i| + meanError u tiny big
    (predError u tiny b raw.x raw.linearOffset β i) fam (exactPred b raw.x raw.linearOffset β i) < big

/-- The error of the inverse of the variance. -/
noncomputable def invVarError (u tiny big : ℝ) (fam : Family) (raw : Dataset (Fl fmt) n p false) (b : Bool)
    (β : Vec (Fl fmt) (ncols b p)) (i : Fin n) : ℝ :=
  overError u tiny 0 (rowVarError u tiny big fam raw b β i) 1 (rowVar fam raw b β i)

/-- The error of the weighted inverse of the variance. -/
noncomputable def pearScaleError (u tiny big : ℝ) (fam : Family) (raw : Dataset (Fl fmt) n p false)
    (b : Bool) (β : Vec (Fl fmt) (ncols b p)) (i : Fin n) : ℝ :=
  afterRounding u tiny (|varWt (exactData raw) i| * invVarError u tiny big fam raw b β i)
    (varWt (exactData raw) i * (1 / rowVar fam raw b β i))

/-- Its square root, and the error of that. -/
noncomputable def pearRoot (fam : Family) (raw : Dataset (Fl fmt) n p false) (b : Bool)
    (β : Vec (Fl fmt) (ncols b p)) (i : Fin n) : ℝ :=
  Real.sqrt (varWt (exactData raw) i * (1 / rowVar fam raw b β i))

noncomputable def pearRootError (u tiny big : ℝ) (fam : Family) (raw : Dataset (Fl fmt) n p false)
    (b : Bool) (β : Vec (Fl fmt) (ncols b p)) (i : Fin n) : ℝ :=
  afterRounding u tiny (pearScaleError u tiny big fam raw b β i / pearRoot fam raw b β i)
    (pearRoot fam raw b β i)

/-- The exact Pearson residual `√w (y - μ) / √V(μ)`. -/
noncomputable def exactPearson (fam : Family) (raw : Dataset (Fl fmt) n p false) (b : Bool)
    (β : Vec (Fl fmt) (ncols b p)) (i : Fin n) : ℝ :=
  Real.sqrt (varWt (exactData raw) i) * rowResid fam raw b β i / Real.sqrt (rowVar fam raw b β i)

/-- The error of the Pearson residual. -/
noncomputable def pearsonError (u tiny big : ℝ) (fam : Family) (raw : Dataset (Fl fmt) n p false)
    (b : Bool) (β : Vec (Fl fmt) (ncols b p)) (i : Fin n) : ℝ :=
  timesError u tiny (pearRootError u tiny big fam raw b β i) (rowResidError u tiny big fam raw b β i)
    (pearRoot fam raw b β i) (rowResid fam raw b β i)

/-- Nothing overflows in the Pearson residual of observation `i`, and its variance and its weight are
positive by more than their errors. -/
structure PearsonFits (u tiny big : ℝ) (fam : Family) (raw : Dataset (Fl fmt) n p false) (b : Bool)
    (β : Vec (Fl fmt) (ncols b p)) (i : Fin n) : Prop where
  resid : ResidFits u tiny big fam raw b β i
  weights : ∀ w, raw.weights = some w → ∀ i, (w i).isFinite
  var : VarianceFits fmt u tiny big (meanError u tiny big
    (predError u tiny b raw.x raw.linearOffset β i) fam (exactPred b raw.x raw.linearOffset β i)) fam
    (rowMean fam raw b β i)
  var_pos : 0 < rowVar fam raw b β i
  weight : 0 ≤ varWt (exactData raw) i
  inverse : OverFits big 0 (rowVarError u tiny big fam raw b β i) 1 (rowVar fam raw b β i)
  scale : |varWt (exactData raw) i * (1 / rowVar fam raw b β i)|
    + |varWt (exactData raw) i| * invVarError u tiny big fam raw b β i < big
  positive : pearScaleError u tiny big fam raw b β i < varWt (exactData raw) i * (1 / rowVar fam raw b β i)
  root : pearRoot fam raw b β i + pearScaleError u tiny big fam raw b β i / pearRoot fam raw b β i < big
  product : TimesFits big (pearRootError u tiny big fam raw b β i) (rowResidError u tiny big fam raw b β i)
    (pearRoot fam raw b β i) (rowResid fam raw b β i)

/-- The exact working residual: the response residual on the scale of the linear predictor. -/
noncomputable def exactWorking (fam : Family) (raw : Dataset (Fl fmt) n p false) (b : Bool)
    (β : Vec (Fl fmt) (ncols b p)) (i : Fin n) : ℝ :=
  rowResid fam raw b β i / ((fam.glm (F := ℝ)).link.dNatParam (exactPred b raw.x raw.linearOffset β i)
    * rowVar fam raw b β i)

/-- The error of the working residual. -/
noncomputable def workingError (u tiny big : ℝ) (fam : Family) (raw : Dataset (Fl fmt) n p false)
    (b : Bool) (β : Vec (Fl fmt) (ncols b p)) (i : Fin n) : ℝ :=
  overError u tiny (rowWorkError u tiny big fam raw b β i) (rowInfoError u tiny big fam raw b β i)
    (rowWork fam raw b β i) (rowInfo fam raw b β i)

/-- Nothing overflows in the working residual of observation `i`, and its information is not zero. -/
structure WorkingFits (u tiny big : ℝ) (fam : Family) (raw : Dataset (Fl fmt) n p false) (b : Bool)
    (β : Vec (Fl fmt) (ncols b p)) (i : Fin n) : Prop where
  resid : ResidFits u tiny big fam raw b β i
  info : InfoFits fmt u tiny big (predError u tiny b raw.x raw.linearOffset β i) fam
    (exactPred b raw.x raw.linearOffset β i)
  work : |rowWork fam raw b β i| + rowWorkError u tiny big fam raw b β i < big
  quotient : OverFits big (rowWorkError u tiny big fam raw b β i) (rowInfoError u tiny big fam raw b β i)
    (rowWork fam raw b β i) (rowInfo fam raw b β i)

/-! ### Simple conditions -/

/-- There are no weights and frequencies; the entries of the design matrix are of size at most `X`, and the
terms of the linear predictors add up to at most `M`; the sums go through at most `D` roundings, and
`D u (M + 1)` is at most 1/1000; nothing is close to the limits of the format. -/
structure ModerateDesign (u tiny big M X : ℝ) (D : ℕ) (raw : Dataset (Fl fmt) n p false) (b : Bool)
    (β : Vec (Fl fmt) (ncols b p)) : Prop where
  weights : raw.weights = none
  freqs : raw.freqs = none
  x : ∀ i j, (raw.x i j).isFinite
  coef : ∀ j, (β j).isFinite
  offset : ∀ o, raw.linearOffset = some o → ∀ i, (o i).isFinite
  entries : ∀ i j, |exactDesign raw b i j| ≤ X
  size : ∀ i, predSize b raw.x raw.linearOffset β i ≤ M
  depth_pred : ∀ i, predDepth fmt b n p raw.linearOffset i ≤ D
  ops_pred : ∀ i, predOps fmt b n p raw.linearOffset i ≤ D
  depth : ∀ j k : Fin (ncols b p), (fmt.order (.matMat (ncols b p) (ncols b p) j k) n).tree.depth 1 ≤ D
  ops : ∀ j k : Fin (ncols b p), (fmt.order (.matMat (ncols b p) (ncols b p) j k) n).tree.ops 1 ≤ D
  rows : 1 ≤ n
  pos : 1 ≤ D
  one_le : 1 ≤ X
  small : D * u * (M + 1) ≤ 1 / 1000
  tiny_le : tiny ≤ u
  big_inv : 2 ≤ u * big
  big_size : M + 4 < big
  big_sq : 2 * (n * X ^ 2) < big

/-- The coefficients `β` and `α` differ by at most `δ`, and Wald's statistic is not close to the limits of
the format. -/
structure ModerateShift (fmt : FloatFormat) (u tiny big X δ : ℝ) (D n : ℕ) {k : ℕ} (β α : Vec (Fl fmt) k) :
    Prop where
  finite : ∀ j, (β j).isFinite ∧ (α j).isFinite
  shift : ∀ j, |shiftAt β α j| ≤ δ
  cols : 1 ≤ k
  depth : ∀ j : Fin k, (fmt.order (.matVec k j) k).tree.depth 1 ≤ D
  ops : ∀ j : Fin k, (fmt.order (.matVec k j) k).tree.ops 1 ≤ D
  dotDepth : (fmt.order .dot k).tree.depth 1 ≤ D
  dotOps : (fmt.order .dot k).tree.ops 1 ≤ D
  tiny_le : tiny ≤ u * δ
  tiny_sq : tiny ≤ u * δ ^ 2
  big_gt : δ < big
  big_row : k * (n * X ^ 2 * δ) < big
  big_sq : k ^ 2 * (n * X ^ 2 * δ ^ 2) < big

end
end GLM.Spec
