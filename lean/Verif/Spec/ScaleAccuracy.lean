/-
  The mean and the standard deviation of a feature in floating-point arithmetic: bounds of their errors.
-/
import Verif.Spec.StandardAccuracy
import Verif.Spec.Stats
import Verif.Spec.Units

namespace GLM.Spec
variable {fmt : FloatFormat} {n p : ℕ}

/-- The variance of feature `j`: the weighted mean of the squared deviations, corrected for the bias by
the effective number of observations. -/
noncomputable def sampleVar (d : Dataset ℝ n p false) (j : Fin p) : ℝ :=
  (∑ i, totalWt d i * (d.x i j - wMean d j) ^ 2) / (∑ i, totalWt d i) * (effCount d / (effCount d - 1))

/-- The error of `v * w`, for factors with errors `e` and `d`. -/
def productError (e d v w : ℝ) : ℝ := e * |w| + |v| * d + e * d

/-- The error of `v / w`, for numbers with errors `e` and `d`. -/
noncomputable def quotientError (e d v w : ℝ) : ℝ := (e + |v / w| * d) / (|w| - d)

/-- The error of the product of the frequency of observation `i` and a number `v` with error `e`. -/
noncomputable def freqError (u tiny : ℝ) (raw : Dataset (Fl fmt) n p false) (i : Fin n) (e v : ℝ) : ℝ :=
  afterRounding u tiny (|freq (exactData raw) i| * e) (freq (exactData raw) i * v)

/-- The error of the total weight of observation `i`. -/
noncomputable def totalWtError (u tiny : ℝ) (raw : Dataset (Fl fmt) n p false) (i : Fin n) : ℝ :=
  freqError u tiny raw i (afterRounding u tiny 0 (varWt (exactData raw) i)) (varWt (exactData raw) i)

/-- The error of the sum of `s i`, whose terms have errors `e i`. -/
noncomputable def termsError (fmt : FloatFormat) (u tiny : ℝ) (s e : Fin n → ℝ) : ℝ :=
  totalError fmt u tiny n (∑ i, |s i|) (∑ i, e i)

/-- The error of the sum of the weights. -/
noncomputable def sumWtError (u tiny : ℝ) (raw : Dataset (Fl fmt) n p false) : ℝ :=
  termsError fmt u tiny (totalWt (exactData raw)) (totalWtError u tiny raw)

/-- The error of a weighted feature. -/
noncomputable def wtFeatureError (u tiny : ℝ) (raw : Dataset (Fl fmt) n p false) (j : Fin p) (i : Fin n) : ℝ :=
  afterRounding u tiny (totalWtError u tiny raw i * |real (raw.x i j)|)
    (totalWt (exactData raw) i * real (raw.x i j))

/-- The error of the sum of the weighted values of feature `j`. -/
noncomputable def featureSumError (u tiny : ℝ) (raw : Dataset (Fl fmt) n p false) (j : Fin p) : ℝ :=
  termsError fmt u tiny (fun i => totalWt (exactData raw) i * real (raw.x i j)) (wtFeatureError u tiny raw j)

/-- The error of the quotient of the two sums, before it is rounded. -/
noncomputable def meanQuotientError (u tiny : ℝ) (raw : Dataset (Fl fmt) n p false) (j : Fin p) : ℝ :=
  quotientError (featureSumError u tiny raw j) (sumWtError u tiny raw)
    (∑ i, totalWt (exactData raw) i * real (raw.x i j)) (∑ i, totalWt (exactData raw) i)

/-- The error of the mean of feature `j`. -/
noncomputable def wMeanError (u tiny : ℝ) (raw : Dataset (Fl fmt) n p false) (j : Fin p) : ℝ :=
  afterRounding u tiny (meanQuotientError u tiny raw j) (wMean (exactData raw) j)

/-- The exact deviation of feature `j` of observation `i` from the mean. -/
noncomputable def deviation (raw : Dataset (Fl fmt) n p false) (j : Fin p) (i : Fin n) : ℝ :=
  real (raw.x i j) - wMean (exactData raw) j

/-- The error of the deviation. -/
noncomputable def deviationError (u tiny : ℝ) (raw : Dataset (Fl fmt) n p false) (j : Fin p) (i : Fin n) : ℝ :=
  afterRounding u tiny (wMeanError u tiny raw j) (deviation raw j i)

/-- The error of the square of the deviation, before it is rounded. -/
noncomputable def squareError (u tiny : ℝ) (raw : Dataset (Fl fmt) n p false) (j : Fin p) (i : Fin n) : ℝ :=
  productError (deviationError u tiny raw j i) (deviationError u tiny raw j i) (deviation raw j i)
    (deviation raw j i)

/-- The error of the weighted square, before it is rounded. -/
noncomputable def wtSquareError (u tiny : ℝ) (raw : Dataset (Fl fmt) n p false) (j : Fin p) (i : Fin n) : ℝ :=
  productError (totalWtError u tiny raw i)
    (afterRounding u tiny (squareError u tiny raw j i) (deviation raw j i ^ 2))
    (totalWt (exactData raw) i) (deviation raw j i ^ 2)

/-- The error of the sum of the weighted squares. -/
noncomputable def squareSumError (u tiny : ℝ) (raw : Dataset (Fl fmt) n p false) (j : Fin p) : ℝ :=
  termsError fmt u tiny (fun i => totalWt (exactData raw) i * deviation raw j i ^ 2) fun i =>
    afterRounding u tiny (wtSquareError u tiny raw j i) (totalWt (exactData raw) i * deviation raw j i ^ 2)

/-- The variance before the correction. -/
noncomputable def rawVar (raw : Dataset (Fl fmt) n p false) (j : Fin p) : ℝ :=
  (∑ i, totalWt (exactData raw) i * deviation raw j i ^ 2) / ∑ i, totalWt (exactData raw) i

/-- The error of the variance before the correction and before rounding. -/
noncomputable def rawVarError (u tiny : ℝ) (raw : Dataset (Fl fmt) n p false) (j : Fin p) : ℝ :=
  quotientError (squareSumError u tiny raw j) (sumWtError u tiny raw)
    (∑ i, totalWt (exactData raw) i * deviation raw j i ^ 2) (∑ i, totalWt (exactData raw) i)

/-- The error of the sum of the frequencies times `v i`, where `v i` has error `e i`. -/
noncomputable def freqSumError (u tiny : ℝ) (raw : Dataset (Fl fmt) n p false) (v e : Fin n → ℝ) : ℝ :=
  termsError fmt u tiny (fun i => freq (exactData raw) i * v i) fun i => freqError u tiny raw i (e i) (v i)

/-- The error of the sum of the squared weights. -/
noncomputable def wtSquaresError (u tiny : ℝ) (raw : Dataset (Fl fmt) n p false) : ℝ :=
  freqSumError u tiny raw (fun i => varWt (exactData raw) i ^ 2) fun i =>
    afterRounding u tiny 0 (varWt (exactData raw) i ^ 2)

/-- The error of the square of the sum of the weights, before it is rounded. -/
noncomputable def squaredSumError (u tiny : ℝ) (raw : Dataset (Fl fmt) n p false) : ℝ :=
  productError (freqSumError u tiny raw (varWt (exactData raw)) fun _ => 0)
    (freqSumError u tiny raw (varWt (exactData raw)) fun _ => 0)
    (∑ i, freq (exactData raw) i * varWt (exactData raw) i)
    (∑ i, freq (exactData raw) i * varWt (exactData raw) i)

/-- The error of the effective number of observations before it is rounded, with variance weights. -/
noncomputable def effQuotientError (u tiny : ℝ) (raw : Dataset (Fl fmt) n p false) : ℝ :=
  quotientError
    (afterRounding u tiny (squaredSumError u tiny raw)
      ((∑ i, freq (exactData raw) i * varWt (exactData raw) i) ^ 2))
    (wtSquaresError u tiny raw)
    ((∑ i, freq (exactData raw) i * varWt (exactData raw) i) ^ 2)
    (∑ i, freq (exactData raw) i * varWt (exactData raw) i ^ 2)

/-- The error of the effective number of observations. -/
noncomputable def effError (u tiny : ℝ) (raw : Dataset (Fl fmt) n p false) : ℝ :=
  match raw.weights, raw.freqs with
  | none, none => u * n + tiny
  | none, some _ => termsError fmt u tiny (freq (exactData raw)) fun _ => 0
  | some _, _ => afterRounding u tiny (effQuotientError u tiny raw) (effCount (exactData raw))

/-- The error of the correction, before it is rounded. -/
noncomputable def biasError (u tiny : ℝ) (raw : Dataset (Fl fmt) n p false) : ℝ :=
  quotientError (effError u tiny raw)
    (afterRounding u tiny (effError u tiny raw) (effCount (exactData raw) - 1))
    (effCount (exactData raw)) (effCount (exactData raw) - 1)

/-- The error of the variance, before it is rounded. -/
noncomputable def varProductError (u tiny : ℝ) (raw : Dataset (Fl fmt) n p false) (j : Fin p) : ℝ :=
  productError (afterRounding u tiny (rawVarError u tiny raw j) (rawVar raw j))
    (afterRounding u tiny (biasError u tiny raw) (effCount (exactData raw) / (effCount (exactData raw) - 1)))
    (rawVar raw j) (effCount (exactData raw) / (effCount (exactData raw) - 1))

/-- The error of the variance of feature `j`. -/
noncomputable def sampleVarError (u tiny : ℝ) (raw : Dataset (Fl fmt) n p false) (j : Fin p) : ℝ :=
  afterRounding u tiny (varProductError u tiny raw j) (sampleVar (exactData raw) j)

/-- The error of the standard deviation of feature `j`. -/
noncomputable def scaleError (u tiny : ℝ) (raw : Dataset (Fl fmt) n p false) (j : Fin p) : ℝ :=
  afterRounding u tiny (sampleVarError u tiny raw j / Real.sqrt (sampleVar (exactData raw) j))
    (Real.sqrt (sampleVar (exactData raw) j))

/-- The weights are finite, no weight and no sum of weights overflows, and the sum of the weights is larger
than its error. -/
structure WeightsFit (u tiny big : ℝ) (raw : Dataset (Fl fmt) n p false) : Prop where
  weights : ∀ w, raw.weights = some w → ∀ i, (w i).isFinite
  freqs : ∀ f, raw.freqs = some f → ∀ i, (f i).isFinite
  small : ∀ i, |varWt (exactData raw) i| < big ∧ |totalWt (exactData raw) i|
    + |freq (exactData raw) i| * afterRounding u tiny 0 (varWt (exactData raw) i) < big
  sum : ∑ i, |totalWt (exactData raw) i| + sumWtError u tiny raw < big
  positive : sumWtError u tiny raw < ∑ i, totalWt (exactData raw) i

/-- The mean of feature `j` is computed without overflow. -/
structure CenterFits (u tiny big : ℝ) (raw : Dataset (Fl fmt) n p false) (j : Fin p) : Prop where
  finite : ∀ i, (raw.x i j).isFinite
  small : ∀ i, |totalWt (exactData raw) i * real (raw.x i j)|
    + totalWtError u tiny raw i * |real (raw.x i j)| < big
  sum : ∑ i, |totalWt (exactData raw) i * real (raw.x i j)| + featureSumError u tiny raw j < big
  quotient : |wMean (exactData raw) j| + meanQuotientError u tiny raw j < big

/-- The effective number of observations is computed without overflow. -/
structure CountFits (u tiny big : ℝ) (raw : Dataset (Fl fmt) n p false) : Prop where
  freqs : raw.weights = none → ∑ i, |freq (exactData raw) i| + effError u tiny raw < big
  weights : raw.weights ≠ none →
    (∀ i, varWt (exactData raw) i ^ 2 < big ∧ |freq (exactData raw) i * varWt (exactData raw) i ^ 2|
      + |freq (exactData raw) i| * afterRounding u tiny 0 (varWt (exactData raw) i ^ 2) < big) ∧
    ∑ i, |freq (exactData raw) i * varWt (exactData raw) i|
      + freqSumError u tiny raw (varWt (exactData raw)) (fun _ => 0) < big ∧
    ∑ i, |freq (exactData raw) i * varWt (exactData raw) i ^ 2| + wtSquaresError u tiny raw < big ∧
    (∑ i, freq (exactData raw) i * varWt (exactData raw) i) ^ 2 + squaredSumError u tiny raw < big ∧
    wtSquaresError u tiny raw < ∑ i, freq (exactData raw) i * varWt (exactData raw) i ^ 2 ∧
    |effCount (exactData raw)| + effQuotientError u tiny raw < big

/-- Moreover, it is larger than one by more than the error. -/
structure EffFits (u tiny big : ℝ) (raw : Dataset (Fl fmt) n p false) : Prop
    extends CountFits u tiny big raw where
  small : |effCount (exactData raw) - 1| + effError u tiny raw < big
  positive : afterRounding u tiny (effError u tiny raw) (effCount (exactData raw) - 1)
    < effCount (exactData raw) - 1
  bias : |effCount (exactData raw) / (effCount (exactData raw) - 1)| + biasError u tiny raw < big

/-- The variance of feature `j` is computed without overflow, and is larger than its error. -/
structure VarFits (u tiny big : ℝ) (raw : Dataset (Fl fmt) n p false) (j : Fin p) : Prop where
  dev : ∀ i, |deviation raw j i| + wMeanError u tiny raw j < big
  square : ∀ i, deviation raw j i ^ 2 + squareError u tiny raw j i < big
  weighted : ∀ i, |totalWt (exactData raw) i * deviation raw j i ^ 2| + wtSquareError u tiny raw j i < big
  sum : ∑ i, |totalWt (exactData raw) i * deviation raw j i ^ 2| + squareSumError u tiny raw j < big
  quotient : |rawVar raw j| + rawVarError u tiny raw j < big
  product : |sampleVar (exactData raw) j| + varProductError u tiny raw j < big
  positive : sampleVarError u tiny raw j < sampleVar (exactData raw) j
  root : Real.sqrt (sampleVar (exactData raw) j) + sampleVarError u tiny raw j / Real.sqrt (sampleVar (exactData raw) j) < big

/-! ### Simple conditions -/

/-- There are no weights and frequencies; the sums go through at most `D` roundings, with `D * u` at most
1/1000. -/
structure Plain (u tiny big : ℝ) (D : ℕ) (raw : Dataset (Fl fmt) n p false) : Prop where
  weights : raw.weights = none
  freqs : raw.freqs = none
  two : 2 ≤ n
  depth : (fmt.order .sum n).tree.depth 0 ≤ D
  ops : (fmt.order .sum n).tree.ops 0 ≤ D
  pos : 1 ≤ D
  small : D * u ≤ 1 / 1000
  tiny_le : tiny ≤ u
  big_gt : 2 * n < big

/-- Feature `j` is finite, of size at most `M`, and `M` and its square are neither huge nor tiny. -/
structure Moderate (u tiny big M : ℝ) (raw : Dataset (Fl fmt) n p false) (j : Fin p) : Prop where
  finite : ∀ i, (raw.x i j).isFinite
  size : ∀ i, |real (raw.x i j)| ≤ M
  pos : 0 < M
  tiny_third : 3 * tiny ≤ u * M
  tiny_sq : tiny ≤ u * M ^ 2
  big_gt : 4 * (n * M) < big
  big_sq : 6 * (n * M ^ 2) < big

end GLM.Spec
