/-
  `Dataset` and `Standardizer`, src/data.rs.
-/
import Verif.Model.Array

namespace GLM

/-- Number of columns of the finalized design matrix: one more than the number of features when
there is an intercept (`one_pad`, src/data.rs:501-510). -/
@[reducible] def ncols : Bool → ℕ → ℕ
  | true, p => p + 1
  | false, p => p

/-- `struct Standardizer`, src/data.rs:285-292. -/
structure Standardizer (F : Type) (p : ℕ) where
  shifts : Vec F p
  scales : Vec F p

/-- `struct Dataset`, src/data.rs:8-29, with `n` observations and `p` features.
The field `has_intercept` is the index `b`, so that the number of columns of `x` is
`ncols b p` by construction (in Rust this is maintained by `finalize_design_matrix`, the only
function that sets `has_intercept`, src/data.rs:61-81, and by the struct updates in src/fit.rs). -/
structure Dataset (F : Type) (n p : ℕ) (b : Bool) where
  y : Vec F n
  x : Mat F n (ncols b p)
  linearOffset : Option (Vec F n)
  weights : Option (Vec F n)
  freqs : Option (Vec F n)
  standardizer : Option (Standardizer F p)

section
variable {F : Type} [Scalar F] {n p : ℕ} {b : Bool}
open Scalar

namespace Dataset

/-- `linear_predictor_std`, src/data.rs:42-50. -/
def linearPredictorStd (d : Dataset F n p b) (regressors : Vec F (ncols b p)) : Vec F n :=
  let linearPredictor := d.x.dotV regressors
  match d.linearOffset with
  | some off => vadd linearPredictor off
  | none => linearPredictor

/-- `n_obs`, src/data.rs:53-58. -/
def nObs (d : Dataset F n p b) : F :=
  match d.freqs with
  | none => ofNat n
  | some f => vsum f

/-- `apply_freq_weights`, src/data.rs:98-103. -/
def applyFreqWeights (d : Dataset F n p b) (rhs : Vec F n) : Vec F n :=
  match d.freqs with
  | none => rhs
  | some f => vmul f rhs

/-- `apply_var_weights`, src/data.rs:110-115. -/
def applyVarWeights (d : Dataset F n p b) (rhs : Vec F n) : Vec F n :=
  match d.weights with
  | none => rhs
  | some w => vmul w rhs

/-- `apply_total_weights`, src/data.rs:106-108. -/
def applyTotalWeights (d : Dataset F n p b) (rhs : Vec F n) : Vec F n :=
  d.applyFreqWeights (d.applyVarWeights rhs)

/-- `freq_sum`, src/data.rs:120-122. -/
def freqSum (d : Dataset F n p b) (rhs : Vec F n) : F := vsum (d.applyFreqWeights rhs)

/-- `n_eff`, src/data.rs:85-95. -/
def nEff (d : Dataset F n p b) : F :=
  match d.weights with
  | none => d.nObs
  | some w =>
    let v1 := d.freqSum w
    let w2 := vmul w w
    let v2 := d.freqSum w2
    v1 * v1 / v2

/-- `get_variance_weights`, src/data.rs:124-129. -/
def getVarianceWeights (d : Dataset F n p b) : Vec F n :=
  match d.weights with
  | some w => w
  | none => vfill 1

/-- `sum_weights`, src/data.rs:133-138. -/
def sumWeights (d : Dataset F n p b) : F :=
  match d.weights with
  | none => d.nObs
  | some w => d.freqSum w

/-- `weighted_sum`, src/data.rs:141-143. -/
def weightedSum (d : Dataset F n p b) (rhs : Vec F n) : F := d.freqSum (d.applyVarWeights rhs)

/-- Scale the columns of a matrix with `n` columns by the frequency and then the variance
weights: the common body of `x_conj` (src/data.rs:150-160) and `x_conj_ext`
(src/data.rs:193-203). -/
def weightCols (d : Dataset F n p b) {m : ℕ} (xt : Mat F m n) : Mat F m n :=
  let xt := match d.freqs with
    | none => xt
    | some f => fun j i => xt j i * f i
  match d.weights with
  | none => xt
  | some w => fun j i => xt j i * w i

/-- `x_conj`, src/data.rs:150-160. -/
def xConj (d : Dataset F n p b) : Mat F (ncols b p) n := d.weightCols d.x.tr

end Dataset

namespace Standardizer

/-- `transform_inplace`, src/data.rs:354-357. -/
def transform (s : Standardizer F p) (x : Mat F n p) : Mat F n p :=
  fun i j => (x i j - s.shifts j) / s.scales j

/-- `inverse_transform`, src/data.rs:362-364. -/
def inverseTransform (s : Standardizer F p) (x : Mat F n p) : Mat F n p :=
  fun i j => x i j * s.scales j + s.shifts j

/-- `inverse_transform_coefficients`, src/data.rs:389-400. -/
def inverseTransformCoefficients (s : Standardizer F p) (beta : Vec F (p + 1)) : Vec F (p + 1) :=
  let tail : Vec F p := fun j => beta j.succ / s.scales j
  let interceptAdjust := vsum fun j => s.shifts j * tail j
  Fin.cons (beta 0 - interceptAdjust) tail

/-- `inverse_transform_coefficients_no_int`, src/data.rs:404-406. -/
def inverseTransformCoefficientsNoInt (s : Standardizer F p) (beta : Vec F p) : Vec F p :=
  fun j => beta j / s.scales j

/-- `transform_coefficients`, src/data.rs:410-415. -/
def transformCoefficients (s : Standardizer F p) (beta : Vec F (p + 1)) : Vec F (p + 1) :=
  let interceptAdjust := vsum fun j => s.shifts j * beta (Fin.succ j)
  Fin.cons (beta 0 + interceptAdjust) fun j => beta j.succ * s.scales j

/-- `transform_coefficients_no_int`, src/data.rs:419-421. -/
def transformCoefficientsNoInt (s : Standardizer F p) (beta : Vec F p) : Vec F p :=
  fun j => beta j * s.scales j

/-- `inverse_transform_fisher`, src/data.rs:428-461, entry by entry: the in-place slice updates
act on disjoint blocks (`[0,0]`, `[1..,0]`, `[0,1..]`, `[1..,1..]`). -/
def inverseTransformFisher (s : Standardizer F p) (fisher : Mat F (p + 1) (p + 1)) :
    Mat F (p + 1) (p + 1) :=
  let f00 := fisher 0 0
  let f00mu : Vec F p := fun j => s.shifts j * f00
  let row0 : Vec F p := fun j => fisher 0 j.succ * s.scales j
  let col0 : Vec F p := fun i => fisher i.succ 0 * s.scales i
  Fin.cons
    (Fin.cons f00 fun j => row0 j + f00mu j)
    fun i => Fin.cons (col0 i + f00mu i) fun j =>
      fisher i.succ j.succ * (s.scales i * s.scales j)
        + (s.shifts i * row0 j + col0 i * s.shifts j + s.shifts i * f00mu j)

/-- `inverse_transform_fisher_no_int`, src/data.rs:467-473. -/
def inverseTransformFisherNoInt (s : Standardizer F p) (fisher : Mat F p p) : Mat F p p :=
  fun i j => fisher i j * s.scales i * s.scales j

/-- `inverse_transform_score`, src/data.rs:480-487. -/
def inverseTransformScore (s : Standardizer F p) (score : Vec F (p + 1)) : Vec F (p + 1) :=
  Fin.cons (score 0) fun j => score j.succ * s.scales j + s.shifts j * score 0

/-- `inverse_transform_score_no_int`, src/data.rs:494-496. -/
def inverseTransformScoreNoInt (s : Standardizer F p) (score : Vec F p) : Vec F p :=
  fun j => score j * s.scales j

/-- `from_dataset`, src/data.rs:307-346.  The argument `hasIntercept` is the dataset's
`has_intercept` flag, which at this point of the build is already set while the ones column is
not yet padded (src/data.rs:67-80), so the raw dataset has index `false`.
`none` is the `assert!(n_eff > 1)` panic of line 325. -/
def fromDataset (data : Dataset F n p false) (hasIntercept : Bool) : Option (Standardizer F p) :=
  let x : Mat F n p := data.x
  let weights : Vec F n := data.applyTotalWeights (vfill 1)
  let sumWeights : F := vsum weights
  let nEff := data.nEff
  let means : Vec F p :=
    if n = 0 then vzeros else fun j => (vsum fun i => weights i * x i j) / sumWeights
  let vars? : Option (Vec F p) :=
    if n ≤ 1 then some (vfill 1)
    else if gt nEff 1 then
      let bias := nEff / (nEff - 1)
      some fun j =>
        (vsum fun i => weights i * ((x i j - means j) * (x i j - means j))) / sumWeights * bias
    else none
  vars?.map fun (vars : Vec F p) =>
    { shifts := if hasIntercept then means else vzeros
      scales := fun j => sqrt (if gt (vars j) 0 then vars j else 1) }

end Standardizer

/-- `one_pad`, src/data.rs:501-510. -/
def onePad (x : Mat F n p) : Mat F n (p + 1) := fun i => Fin.cons 1 (x i)

namespace Dataset

/-- The final padding step of `finalize_design_matrix`, src/data.rs:78-80. -/
def padded : (b : Bool) → Mat F n p → Mat F n (ncols b p)
  | true, x => onePad x
  | false, x => x

/-- `finalize_design_matrix`, src/data.rs:61-81, on a dataset straight from
`ModelBuilderData::build` (so both assertions at its head hold).  `none` is the panic inside
`Standardizer::from_dataset`. -/
def finalize (d : Dataset F n p false) (transform useIntercept : Bool) :
    Option (Dataset F n p useIntercept) :=
  if transform then
    (Standardizer.fromDataset d useIntercept).map fun s =>
      { y := d.y, linearOffset := d.linearOffset, weights := d.weights, freqs := d.freqs
        x := padded useIntercept (s.transform d.x)
        standardizer := some s }
  else
    some { y := d.y, linearOffset := d.linearOffset, weights := d.weights, freqs := d.freqs
           x := padded useIntercept d.x
           standardizer := none }

/-- The feature columns of the internal design matrix: the slice at the head of `x_orig`,
src/data.rs:181-185. -/
def features : {b : Bool} → Dataset F n p b → Mat F n p
  | true, d => fun i j => d.x i j.succ
  | false, d => d.x

/-- `x_orig`, src/data.rs:180-190. -/
def xOrig (d : Dataset F n p b) : Mat F n p :=
  match d.standardizer with
  | some s => s.inverseTransform d.features
  | none => d.features

/-- `x_ext`, src/data.rs:164-173. -/
def xExt : {b : Bool} → (d : Dataset F n p b) → Mat F n (ncols b p)
  | true, d => fun i => Fin.cons (d.x i (0 : Fin (p + 1))) (d.xOrig i)
  | false, d => d.xOrig

/-- `x_conj_ext`, src/data.rs:193-203. -/
def xConjExt (d : Dataset F n p b) : Mat F (ncols b p) n := d.weightCols d.xExt.tr

/-- `inverse_transform_beta`, src/data.rs:206-217. -/
def inverseTransformBeta : {b : Bool} → Dataset F n p b → Vec F (ncols b p) → Vec F (ncols b p)
  | true, d, beta => match d.standardizer with
    | some s => s.inverseTransformCoefficients beta
    | none => beta
  | false, d, beta => match d.standardizer with
    | some s => s.inverseTransformCoefficientsNoInt beta
    | none => beta

/-- `transform_beta`, src/data.rs:220-231. -/
def transformBeta : {b : Bool} → Dataset F n p b → Vec F (ncols b p) → Vec F (ncols b p)
  | true, d, beta => match d.standardizer with
    | some s => s.transformCoefficients beta
    | none => beta
  | false, d, beta => match d.standardizer with
    | some s => s.transformCoefficientsNoInt beta
    | none => beta

/-- `inverse_transform_fisher`, src/data.rs:235-246. -/
def inverseTransformFisher :
    {b : Bool} → Dataset F n p b → Mat F (ncols b p) (ncols b p) → Mat F (ncols b p) (ncols b p)
  | true, d, fisher => match d.standardizer with
    | some s => s.inverseTransformFisher fisher
    | none => fisher
  | false, d, fisher => match d.standardizer with
    | some s => s.inverseTransformFisherNoInt fisher
    | none => fisher

/-- `inverse_transform_score`, src/data.rs:250-261. -/
def inverseTransformScore : {b : Bool} → Dataset F n p b → Vec F (ncols b p) → Vec F (ncols b p)
  | true, d, score => match d.standardizer with
    | some s => s.inverseTransformScore score
    | none => score
  | false, d, score => match d.standardizer with
    | some s => s.inverseTransformScoreNoInt score
    | none => score

end Dataset
end

end GLM
