/-
  Deviance, information criteria and dispersion in floating-point arithmetic: bounds of their errors.
-/
import Verif.Spec.ScaleAccuracy

namespace GLM.Spec
variable {fmt : FloatFormat}

/-! ### The saturated log-likelihood of one response -/

/-- The error of a computed `log v` whose argument has the error `e`. -/
noncomputable def lnError (u tiny e v : ℝ) : ℝ := afterRounding u tiny (e / (v - e)) (Real.log v)

/-- The error of a computed `v log v` whose argument has the error `e`; the code tests for zero first. -/
noncomputable def plogError (u tiny e v : ℝ) : ℝ :=
  if v = 0 then 0 else
    afterRounding u tiny (productError e (lnError u tiny e v) v (Real.log v)) (v * Real.log v)

/-- The error of a computed difference: a difference that is zero is computed without error. -/
noncomputable def differenceError (u tiny v : ℝ) : ℝ := if v = 0 then 0 else afterRounding u tiny 0 v

/-- A computed `v log v` does not overflow, and its argument has the sign of `v`. -/
def PlogFits (u tiny big e v : ℝ) : Prop :=
  v ≠ 0 → e < v ∧ |Real.log v| + e / (v - e) < big ∧
    |v * Real.log v| + productError e (lnError u tiny e v) v (Real.log v) < big

/-- The exact saturated log-likelihood. -/
noncomputable def satTerm (fam : Family) (y : ℝ) : ℝ := (fam.glm (F := ℝ)).logLikeSat y

/-- The error of the computed saturated log-likelihood of the response `y`. -/
noncomputable def satError (u tiny : ℝ) : Family → ℝ → ℝ
  | .linear => fun y =>
    afterRounding u tiny (afterRounding u tiny 0 (1 / 2 * y) * |y|) (1 / 2 * y * y)
  | .logisticLogit | .logisticCloglog => fun y =>
    afterRounding u tiny (plogError u tiny 0 y + plogError u tiny (differenceError u tiny (1 - y)) (1 - y))
      (y * Real.log y + (1 - y) * Real.log (1 - y))
  | .poisson => fun y => afterRounding u tiny (plogError u tiny 0 y) (y * Real.log y - y)
  | .binomial N => fun y =>
    afterRounding u tiny
      (afterRounding u tiny
          (plogError u tiny 0 y + plogError u tiny (differenceError u tiny (N - y)) (N - y))
          (y * Real.log y + (N - y) * Real.log (N - y))
        + plogError u tiny 0 N)
      (y * Real.log y + (N - y) * Real.log (N - y) - N * Real.log N)
  | .exponentialNegRec | .exponentialLog | .gammaNegRec | .gammaLog => fun y =>
    afterRounding u tiny (lnError u tiny 0 y) (1 + Real.log y)
  | .invGaussNegRecSq | .invGaussLog => fun y =>
    afterRounding u tiny (1 / 2 * afterRounding u tiny 0 (1 / y)) (1 / 2 * (1 / y))

/-- The response is in the domain of the family and its saturated log-likelihood does not overflow. -/
def SatFits (fmt : FloatFormat) (u tiny big : ℝ) : Family → ℝ → Prop
  | .linear => fun y => |1 / 2 * y| < big ∧
    |1 / 2 * y * y| + afterRounding u tiny 0 (1 / 2 * y) * |y| < big
  | .logisticLogit | .logisticCloglog => fun y =>
    |1 - y| < big ∧ PlogFits u tiny big 0 y ∧
    PlogFits u tiny big (differenceError u tiny (1 - y)) (1 - y) ∧
    |y * Real.log y + (1 - y) * Real.log (1 - y)|
      + (plogError u tiny 0 y + plogError u tiny (differenceError u tiny (1 - y)) (1 - y)) < big
  | .poisson => fun y => PlogFits u tiny big 0 y ∧ |y * Real.log y - y| + plogError u tiny 0 y < big
  | .binomial N => fun y => fmt.rnd (N : ℝ) = (N : ℝ) ∧
    |N - y| < big ∧ PlogFits u tiny big 0 y ∧
    PlogFits u tiny big (differenceError u tiny (N - y)) (N - y) ∧ PlogFits u tiny big 0 N ∧
    |y * Real.log y + (N - y) * Real.log (N - y)|
      + (plogError u tiny 0 y + plogError u tiny (differenceError u tiny (N - y)) (N - y)) < big ∧
    |y * Real.log y + (N - y) * Real.log (N - y) - N * Real.log N|
      + (afterRounding u tiny
          (plogError u tiny 0 y + plogError u tiny (differenceError u tiny (N - y)) (N - y))
          (y * Real.log y + (N - y) * Real.log (N - y)) + plogError u tiny 0 N) < big
  | .exponentialNegRec | .exponentialLog | .gammaNegRec | .gammaLog => fun y => 0 < y ∧
    |Real.log y| < big ∧ |1 + Real.log y| + lnError u tiny 0 y < big
  | .invGaussNegRecSq | .invGaussLog => fun y => 0 < y ∧ |1 / y| < big ∧
    |1 / 2 * (1 / y)| + 1 / 2 * afterRounding u tiny 0 (1 / y) < big

/-! ### The deviance -/

section
variable {n p : ℕ}

/-- The exact contribution of observation `i` to the deviance, without its frequency. -/
noncomputable def devTerm (fam : Family) (raw : Dataset (Fl fmt) n p false) (b : Bool)
    (β : Vec (Fl fmt) (ncols b p)) (i : Fin n) : ℝ :=
  varWt (exactData raw) i * ((satTerm fam (real (raw.y i)) - rowLik fam raw b β i) * 2)

/-- The error of the difference of the two log-likelihoods of an observation. -/
noncomputable def gapError (u tiny : ℝ) (fam : Family) (raw : Dataset (Fl fmt) n p false) (b : Bool)
    (β : Vec (Fl fmt) (ncols b p)) (i : Fin n) : ℝ :=
  afterRounding u tiny (satError u tiny fam (real (raw.y i)) + rowTermError u tiny fam raw b β i)
    (satTerm fam (real (raw.y i)) - rowLik fam raw b β i)

/-- The error of twice the difference. -/
noncomputable def twiceError (u tiny : ℝ) (fam : Family) (raw : Dataset (Fl fmt) n p false) (b : Bool)
    (β : Vec (Fl fmt) (ncols b p)) (i : Fin n) : ℝ :=
  afterRounding u tiny (gapError u tiny fam raw b β i * 2)
    ((satTerm fam (real (raw.y i)) - rowLik fam raw b β i) * 2)

/-- The error of the contribution of observation `i`. -/
noncomputable def devTermError (u tiny : ℝ) (fam : Family) (raw : Dataset (Fl fmt) n p false) (b : Bool)
    (β : Vec (Fl fmt) (ncols b p)) (i : Fin n) : ℝ :=
  afterRounding u tiny (|varWt (exactData raw) i| * twiceError u tiny fam raw b β i)
    (devTerm fam raw b β i)

/-- The error of the deviance. -/
noncomputable def devianceError (u tiny : ℝ) (fam : Family) (raw : Dataset (Fl fmt) n p false) (b : Bool)
    (β : Vec (Fl fmt) (ncols b p)) : ℝ :=
  freqSumError u tiny raw (devTerm fam raw b β) (devTermError u tiny fam raw b β)

/-- Nothing overflows in the contribution of observation `i` to the deviance. -/
def DevTermFits (u tiny big : ℝ) (fam : Family) (raw : Dataset (Fl fmt) n p false) (b : Bool)
    (β : Vec (Fl fmt) (ncols b p)) (i : Fin n) : Prop :=
  SatFits fmt u tiny big fam (real (raw.y i)) ∧
  |satTerm fam (real (raw.y i)) - rowLik fam raw b β i|
    + (satError u tiny fam (real (raw.y i)) + rowTermError u tiny fam raw b β i) < big ∧
  |(satTerm fam (real (raw.y i)) - rowLik fam raw b β i) * 2| + gapError u tiny fam raw b β i * 2 < big ∧
  |devTerm fam raw b β i| + |varWt (exactData raw) i| * twiceError u tiny fam raw b β i < big

/-- Nothing overflows in the deviance. -/
structure DevFits (u tiny big : ℝ) (fam : Family) (raw : Dataset (Fl fmt) n p false) (b : Bool)
    (β : Vec (Fl fmt) (ncols b p)) : Prop where
  like : LikFits u tiny big fam raw b β
  terms : ∀ i, DevTermFits u tiny big fam raw b β i
  weighted : ∀ i, |freq (exactData raw) i * devTerm fam raw b β i|
    + |freq (exactData raw) i| * devTermError u tiny fam raw b β i < big
  sum : ∑ i, |freq (exactData raw) i * devTerm fam raw b β i| + devianceError u tiny fam raw b β < big

/-! ### Information criteria -/

/-- The error of a computed natural number. -/
noncomputable def countError (u tiny : ℝ) (k : ℕ) : ℝ := u * k + tiny

/-- The exact sum of the logarithms of the variance weights. -/
noncomputable def logWeights (d : Dataset ℝ n p false) : ℝ := ∑ i, freq d i * Real.log (varWt d i)

/-- The error of the sum of the logarithms of the variance weights. -/
noncomputable def logWeightsError (u tiny : ℝ) (raw : Dataset (Fl fmt) n p false) : ℝ :=
  freqSumError u tiny raw (fun i => Real.log (varWt (exactData raw) i)) fun i =>
    lnError u tiny 0 (varWt (exactData raw) i)

/-- The variance weights are positive, and neither their logarithms nor twice the sum of them overflow. -/
structure LogWeightsFit (u tiny big : ℝ) (raw : Dataset (Fl fmt) n p false) : Prop where
  positive : ∀ i, 0 < varWt (exactData raw) i
  small : ∀ i, |Real.log (varWt (exactData raw) i)| < big
  weighted : ∀ i, |freq (exactData raw) i * Real.log (varWt (exactData raw) i)|
    + |freq (exactData raw) i| * lnError u tiny 0 (varWt (exactData raw) i) < big
  sum : ∑ i, |freq (exactData raw) i * Real.log (varWt (exactData raw) i)| + logWeightsError u tiny raw < big
  twice : |2 * logWeights (exactData raw)| + 2 * logWeightsError u tiny raw < big

/-- The error of twice the sum of the logarithms of the weights. -/
noncomputable def twiceLogsError (u tiny : ℝ) (raw : Dataset (Fl fmt) n p false) : ℝ :=
  afterRounding u tiny (2 * logWeightsError u tiny raw) (2 * logWeights (exactData raw))

/-- The exact Akaike criterion, with `k` coefficients. -/
noncomputable def aicOf (g : Glm ℝ) (d : Dataset ℝ n p false) (b : Bool) (β : Vec ℝ (ncols b p)) : ℝ :=
  devianceOf g d b β + 2 * (ncols b p : ℝ) - 2 * logWeights d

/-- The error of `D + 2 k`, where `D` is the deviance. -/
noncomputable def aicSumError (u tiny : ℝ) (fam : Family) (raw : Dataset (Fl fmt) n p false) (b : Bool)
    (β : Vec (Fl fmt) (ncols b p)) : ℝ :=
  afterRounding u tiny (devianceError u tiny fam raw b β
      + afterRounding u tiny (2 * countError u tiny (ncols b p)) (2 * (ncols b p : ℝ)))
    (devianceOf fam.glm (exactData raw) b (fun j => real (β j)) + 2 * (ncols b p : ℝ))

/-- The error of the Akaike criterion. -/
noncomputable def aicError (u tiny : ℝ) (fam : Family) (raw : Dataset (Fl fmt) n p false) (b : Bool)
    (β : Vec (Fl fmt) (ncols b p)) : ℝ :=
  afterRounding u tiny (aicSumError u tiny fam raw b β + twiceLogsError u tiny raw)
    (aicOf fam.glm (exactData raw) b fun j => real (β j))

/-- Nothing overflows in the Akaike criterion. -/
structure AicFits (u tiny big : ℝ) (fam : Family) (raw : Dataset (Fl fmt) n p false) (b : Bool)
    (β : Vec (Fl fmt) (ncols b p)) : Prop where
  deviance : DevFits u tiny big fam raw b β
  logs : LogWeightsFit u tiny big raw
  rank : 2 * (ncols b p : ℝ) + 2 * countError u tiny (ncols b p) < big
  sum : |devianceOf fam.glm (exactData raw) b (fun j => real (β j)) + 2 * (ncols b p : ℝ)|
    + (devianceError u tiny fam raw b β
      + afterRounding u tiny (2 * countError u tiny (ncols b p)) (2 * (ncols b p : ℝ))) < big
  total : |aicOf fam.glm (exactData raw) b fun j => real (β j)|
    + (aicSumError u tiny fam raw b β + twiceLogsError u tiny raw) < big

/-- The error of the number of observations. -/
noncomputable def obsError (u tiny : ℝ) (raw : Dataset (Fl fmt) n p false) : ℝ :=
  match raw.freqs with
  | none => countError u tiny n
  | some _ => termsError fmt u tiny (freq (exactData raw)) fun _ => 0

/-- The exact Bayesian criterion, where `l` is the log-likelihood that the fit maximizes. -/
noncomputable def bicOf (d : Dataset ℝ n p false) (b : Bool) (l : ℝ) : ℝ :=
  Real.log (obsCount d) * (ncols b p : ℝ) - 2 * l - 2 * logWeights d

/-- The error of the first term of the Bayesian criterion, before it is rounded. -/
noncomputable def bicTermError (u tiny : ℝ) (raw : Dataset (Fl fmt) n p false) (b : Bool) : ℝ :=
  productError (lnError u tiny (obsError u tiny raw) (obsCount (exactData raw)))
    (countError u tiny (ncols b p)) (Real.log (obsCount (exactData raw))) (ncols b p)

/-- The error of the first two terms, where the log-likelihood `l` has the error `e`. -/
noncomputable def bicSumError (u tiny : ℝ) (raw : Dataset (Fl fmt) n p false) (b : Bool) (e l : ℝ) : ℝ :=
  afterRounding u tiny
    (afterRounding u tiny (bicTermError u tiny raw b) (Real.log (obsCount (exactData raw)) * (ncols b p : ℝ))
      + afterRounding u tiny (2 * e) (2 * l))
    (Real.log (obsCount (exactData raw)) * (ncols b p : ℝ) - 2 * l)

/-- The error of the Bayesian criterion. -/
noncomputable def bicError (u tiny : ℝ) (raw : Dataset (Fl fmt) n p false) (b : Bool) (e l : ℝ) : ℝ :=
  afterRounding u tiny (bicSumError u tiny raw b e l + twiceLogsError u tiny raw) (bicOf (exactData raw) b l)

/-- Nothing overflows in the Bayesian criterion, and there is at least one observation. -/
structure BicFits (u tiny big : ℝ) (raw : Dataset (Fl fmt) n p false) (b : Bool) (e l : ℝ) : Prop where
  freqs : ∀ f, raw.freqs = some f → ∀ i, (f i).isFinite
  logs : LogWeightsFit u tiny big raw
  rank : (ncols b p : ℝ) < big
  obs : ∑ i, |freq (exactData raw) i| + obsError u tiny raw < big
  positive : obsError u tiny raw < obsCount (exactData raw)
  log : |Real.log (obsCount (exactData raw))|
    + obsError u tiny raw / (obsCount (exactData raw) - obsError u tiny raw) < big
  term : |Real.log (obsCount (exactData raw)) * (ncols b p : ℝ)| + bicTermError u tiny raw b < big
  like : |2 * l| + 2 * e < big
  sum : |Real.log (obsCount (exactData raw)) * (ncols b p : ℝ) - 2 * l|
    + (afterRounding u tiny (bicTermError u tiny raw b)
        (Real.log (obsCount (exactData raw)) * (ncols b p : ℝ))
      + afterRounding u tiny (2 * e) (2 * l)) < big
  total : |bicOf (exactData raw) b l| + (bicSumError u tiny raw b e l + twiceLogsError u tiny raw) < big

/-! ### Dispersion -/

/-- The error of the sum of the weights. -/
noncomputable def sumWeightsError (u tiny : ℝ) (raw : Dataset (Fl fmt) n p false) : ℝ :=
  match raw.weights with
  | none => obsError u tiny raw
  | some _ => freqSumError u tiny raw (varWt (exactData raw)) fun _ => 0

/-- The exact share of the observations that is left for the estimation of the dispersion. -/
noncomputable def freeShare (d : Dataset ℝ n p false) (b : Bool) : ℝ := 1 - (ncols b p : ℝ) / effCount d

/-- The error of the quotient of the numbers of coefficients and of observations, before it is rounded. -/
noncomputable def shareError (u tiny : ℝ) (raw : Dataset (Fl fmt) n p false) (b : Bool) : ℝ :=
  quotientError (countError u tiny (ncols b p)) (effError u tiny raw) (ncols b p) (effCount (exactData raw))

/-- The error of the share. -/
noncomputable def freeShareError (u tiny : ℝ) (raw : Dataset (Fl fmt) n p false) (b : Bool) : ℝ :=
  afterRounding u tiny
    (afterRounding u tiny (shareError u tiny raw b) ((ncols b p : ℝ) / effCount (exactData raw)))
    (freeShare (exactData raw) b)

/-- The error of the divisor of the dispersion, before it is rounded. -/
noncomputable def divisorError (u tiny : ℝ) (raw : Dataset (Fl fmt) n p false) (b : Bool) : ℝ :=
  productError (freeShareError u tiny raw b) (sumWeightsError u tiny raw) (freeShare (exactData raw) b)
    (weightSum (exactData raw))

/-- The exact dispersion of a family with a free one. -/
noncomputable def dispersionOf (g : Glm ℝ) (d : Dataset ℝ n p false) (b : Bool) (β : Vec ℝ (ncols b p)) : ℝ :=
  devianceOf g d b β / (freeShare d b * weightSum d)

/-- The error of the dispersion, before it is rounded. -/
noncomputable def dispQuotientError (u tiny : ℝ) (fam : Family) (raw : Dataset (Fl fmt) n p false) (b : Bool)
    (β : Vec (Fl fmt) (ncols b p)) : ℝ :=
  quotientError (devianceError u tiny fam raw b β)
    (afterRounding u tiny (divisorError u tiny raw b)
      (freeShare (exactData raw) b * weightSum (exactData raw)))
    (devianceOf fam.glm (exactData raw) b fun j => real (β j))
    (freeShare (exactData raw) b * weightSum (exactData raw))

/-- The error of the dispersion. -/
noncomputable def dispersionError (u tiny : ℝ) (fam : Family) (raw : Dataset (Fl fmt) n p false) (b : Bool)
    (β : Vec (Fl fmt) (ncols b p)) : ℝ :=
  afterRounding u tiny (dispQuotientError u tiny fam raw b β)
    (dispersionOf fam.glm (exactData raw) b fun j => real (β j))

/-- Nothing overflows in the dispersion, and there are more observations than coefficients. -/
structure DispFits (u tiny big : ℝ) (fam : Family) (raw : Dataset (Fl fmt) n p false) (b : Bool)
    (β : Vec (Fl fmt) (ncols b p)) : Prop where
  deviance : DevFits u tiny big fam raw b β
  weights : WeightsFit u tiny big raw
  count : CountFits u tiny big raw
  rank : (ncols b p : ℝ) < big
  more : (ncols b p : ℝ) + countError u tiny (ncols b p) + effError u tiny raw < effCount (exactData raw)
  ratio : |(ncols b p : ℝ) / effCount (exactData raw)| + shareError u tiny raw b < big
  share : |freeShare (exactData raw) b|
    + afterRounding u tiny (shareError u tiny raw b) ((ncols b p : ℝ) / effCount (exactData raw)) < big
  sum : ∑ i, |totalWt (exactData raw) i| + sumWeightsError u tiny raw < big
  product : |freeShare (exactData raw) b * weightSum (exactData raw)| + divisorError u tiny raw b < big
  positive : afterRounding u tiny (divisorError u tiny raw b)
    (freeShare (exactData raw) b * weightSum (exactData raw))
      < |freeShare (exactData raw) b * weightSum (exactData raw)|
  quotient : |dispersionOf fam.glm (exactData raw) b fun j => real (β j)|
    + dispQuotientError u tiny fam raw b β < big

/-! ### Simple conditions -/

/-- The responses and the terms of the linear predictors are finite and of size at most `M`, and neither
`M` nor its square is huge or tiny; the linear predictors go through at most `D` roundings. -/
structure ModerateFit (u tiny big M : ℝ) (D : ℕ) (raw : Dataset (Fl fmt) n p false) (b : Bool)
    (β : Vec (Fl fmt) (ncols b p)) : Prop where
  y : ∀ i, (raw.y i).isFinite ∧ |real (raw.y i)| ≤ M
  x : ∀ i j, (raw.x i j).isFinite
  coef : ∀ j, (β j).isFinite
  offset : ∀ o, raw.linearOffset = some o → ∀ i, (o i).isFinite
  size : ∀ i, predSize b raw.x raw.linearOffset β i ≤ M
  depth : ∀ i, predDepth fmt b n p raw.linearOffset i ≤ D
  ops : ∀ i, predOps fmt b n p raw.linearOffset i ≤ D
  tiny_third : 3 * tiny ≤ u * M
  tiny_sq : tiny ≤ u * M ^ 2
  big_gt : 2 * M < big
  big_sq : 5 * (n * M ^ 2) + 5 * n < big

end
end GLM.Spec
