/-
  `ModelBuilder`, `ModelBuilderData`, `Model` (src/model.rs), the admission tests for responses
  (`Yval::into_float`, src/response/*.rs) and the setters of `FitConfig` (src/fit/options.rs).

  Here arrays carry their own length, because the builder receives arrays of any length.
-/
import Verif.Model.Refit

namespace GLM
open Scalar

/-- `Array1<α>` of unknown length. -/
structure Arr (α : Type) where
  len : ℕ
  get : Fin len → α

/-- `Array2<F>` of unknown shape. -/
structure Arr2 (F : Type) where
  rows : ℕ
  cols : ℕ
  get : Mat F rows cols

/-! ### Responses -/

section
variable {F : Type} [Scalar F] {G : Type} [Scalar G]

/-- `Yval<Linear<L>>::into_float`, src/response/linear.rs:31-33; `<Poisson<L>>`,
src/response/poisson.rs:32-34; `<Binomial<N>>`, src/response/binomial.rs:23-25: only the conversion
`F::from`, given by `cast` (`none` if the value has no counterpart in `F`).  `none` of the result is
`InvalidY`. -/
def intoFloatAny {Y : Type} (cast : Y → Option F) (y : Y) : Option F := cast y

/-- `Yval<Logistic<L>> for bool`, src/response/logistic.rs:32-34. -/
def intoFloatBool (y : Bool) : Option F := some (if y then 1 else 0)

/-- `Yval<Logistic<L>> for f32/f64`, src/response/logistic.rs:43-48 and :54-59.  `G` is the float
type of the response, which can differ from that of the features. -/
def intoFloatUnit (cast : G → Option F) (y : G) : Option F :=
  if !(le 0 y && le y 1) then none else cast y

/-- `Yval<Exponential<L>>`, src/response/exponential.rs:32-37 and :43-48; `<Gamma<L>>`,
src/response/gamma.rs:31-36 and :42-47; `<InvGaussian<L>>`, src/response/inverse_gaussian.rs:26-31
and :37-42. -/
def intoFloatPos (cast : G → Option F) (y : G) : Option F :=
  if le y 0 then none else cast y

/-- The response types the crate accepts for each family (the `impl Yval` blocks cited above). -/
inductive YKind (G : Type)
  | float
  | bool
  | nat

/-- The type of a single response. -/
@[reducible] def YKind.type : YKind G → Type
  | .float => G
  | .bool => Bool
  | .nat => ℕ

/-- The response types of a family: `Yval<M> for Y`. -/
def Family.accepts : Family → YKind G → Bool
  | .linear, .float => true
  | .logisticLogit, .float | .logisticCloglog, .float => true
  | .logisticLogit, .bool | .logisticCloglog, .bool => true
  | .poisson, .nat | .binomial _, .nat => true
  | .exponentialNegRec, .float | .exponentialLog, .float => true
  | .gammaNegRec, .float | .gammaLog, .float => true
  | .invGaussNegRecSq, .float | .invGaussLog, .float => true
  | _, _ => false

/-- `into_float` of each family and response type; `none` is `InvalidY`.  Integers are unbounded
here (`F::from` of an unsigned integer always succeeds). -/
def Family.intoFloat (cast : G → Option F) : Family → (k : YKind G) → k.type → Option F
  | .logisticLogit, .float, y | .logisticCloglog, .float, y => intoFloatUnit cast y
  | .exponentialNegRec, .float, y | .exponentialLog, .float, y => intoFloatPos cast y
  | .gammaNegRec, .float, y | .gammaLog, .float, y => intoFloatPos cast y
  | .invGaussNegRecSq, .float, y | .invGaussLog, .float, y => intoFloatPos cast y
  | _, .float, y => intoFloatAny cast y
  | _, .bool, y => intoFloatBool y
  | _, .nat, y => intoFloatAny (fun n => some (ofNat n)) y

end

/-! ### Builder -/

/-- The settings that must not be given twice. -/
inductive Setting
  | offset
  | freqs
  | vars
deriving DecidableEq

/-- `RegressionError` as returned by `build` (src/error.rs:8-25, src/model.rs:182-243). -/
inductive BuildErr (Y : Type)
  /-- `BuildError`, naming the setting given several times. -/
  | buildError (s : Setting)
  /-- `BadInput`: `y` and `x` disagree. -/
  | badShape
  /-- `BadInput`: the offset has the wrong length. -/
  | badOffset
  /-- `InvalidY`, with the offending response. -/
  | invalidY (y : Y)

/-- `struct ModelBuilderData`, src/model.rs:88-113. -/
structure Builder (Y F : Type) where
  dataY : Arr Y
  dataX : Arr2 F
  linearOffset : Option (Arr F)
  varWeights : Option (Arr F)
  freqWeights : Option (Arr F)
  standardize : Bool
  useIntercept : Bool
  error : Option Setting

/-- A call of one of the methods of `ModelBuilderData` before `build`. -/
inductive Call (F : Type)
  | linearOffset (a : Arr F)
  | freqWeights (a : Arr ℕ)
  | varWeights (a : Arr F)
  | noConstant
  | noStandardize

section
variable {Y F : Type} [Scalar F]

/-- `ModelBuilder::data`, src/model.rs:63-84. -/
def Builder.data (y : Arr Y) (x : Arr2 F) : Builder Y F :=
  { dataY := y, dataX := x, linearOffset := none, varWeights := none, freqWeights := none
    useIntercept := true, standardize := true, error := none }

/-- The five setters, src/model.rs:127-180.  `F::from(c : usize)` always succeeds for floats. -/
def Builder.call (bd : Builder Y F) : Call F → Builder Y F
  | .linearOffset a =>
    { bd with
      error := if bd.linearOffset.isSome then some .offset else bd.error
      linearOffset := some a }
  | .freqWeights a =>
    { bd with
      error := if bd.freqWeights.isSome then some .freqs else bd.error
      freqWeights := some ⟨a.len, fun i => ofNat (a.get i)⟩ }
  | .varWeights a =>
    { bd with
      error := if bd.varWeights.isSome then some .vars else bd.error
      varWeights := some a }
  | .noConstant => { bd with useIntercept := false }
  | .noStandardize => { bd with standardize := false }

/-- `&a * b` of ndarray on one-dimensional arrays of any length: element-wise on equal lengths, an
array of length one is repeated, `none` is the broadcasting panic. -/
def Arr.mul (a b : Arr F) : Option (Arr F) :=
  if h : a.len = b.len then some ⟨a.len, fun i => a.get i * b.get (Fin.cast h i)⟩
  else if h : a.len = 1 then some ⟨b.len, fun i => a.get (Fin.cast h.symm 0) * b.get i⟩
  else if h : b.len = 1 then some ⟨a.len, fun i => a.get i * b.get (Fin.cast h.symm 0)⟩
  else none

/-- The data set as `build` assembles it (src/model.rs:224-233): response, features and offset have
`n` rows, the lengths of the weights are whatever the user gave. -/
structure RawData (F : Type) (n p : ℕ) where
  y : Vec F n
  x : Mat F n p
  linearOffset : Option (Vec F n)
  weights : Option (Arr F)
  freqs : Option (Arr F)

namespace RawData
variable {n p : ℕ}

/-- `apply_freq_weights` (src/data.rs:98-103) before the lengths are known to agree. -/
def applyFreqWeights (d : RawData F n p) (rhs : Arr F) : Option (Arr F) :=
  match d.freqs with
  | none => some rhs
  | some f => f.mul rhs

/-- `apply_var_weights`, src/data.rs:110-115. -/
def applyVarWeights (d : RawData F n p) (rhs : Arr F) : Option (Arr F) :=
  match d.weights with
  | none => some rhs
  | some w => w.mul rhs

/-- `n_obs`, src/data.rs:53-58. -/
def nObs (d : RawData F n p) : F :=
  match d.freqs with
  | none => ofNat n
  | some f => vsum f.get

/-- `n_eff`, src/data.rs:85-95. -/
def nEff (d : RawData F n p) : Option F :=
  match d.weights with
  | none => some d.nObs
  | some w =>
    (d.applyFreqWeights w).bind fun v1 =>
    (w.mul w).bind fun w2 =>
    (d.applyFreqWeights w2).map fun v2 =>
      vsum v1.get * vsum v1.get / vsum v2.get

/-- `Standardizer::from_dataset` (src/data.rs:307-346) before the lengths are known to agree;
`none` is a panic.  The two-dimensional products `weights * x` and `weights * dx2` broadcast row by
row exactly as the one-dimensional product does in each column. -/
def standardizer (d : RawData F n p) (hasIntercept : Bool) : Option (Standardizer F p) :=
  (d.applyVarWeights ⟨n, vfill 1⟩).bind fun wv =>
  (d.applyFreqWeights wv).bind fun weights =>
  let sumWeights := vsum weights.get
  d.nEff.bind fun nEff =>
  (if n = 0 then some vzeros
    else if (weights.mul ⟨n, vfill 1⟩).isNone then none
    else some fun j => ((weights.mul ⟨n, fun i => d.x i j⟩).elim 0 fun a => vsum a.get)
      / sumWeights).bind fun (means : Vec F p) =>
  (if n ≤ 1 then some (vfill 1)
    else if gt nEff 1 then
      if (weights.mul ⟨n, vfill 1⟩).isNone then none
      else
        let bias := nEff / (nEff - 1)
        some fun j => ((weights.mul ⟨n, fun i => (d.x i j - means j) * (d.x i j - means j)⟩).elim 0
          fun a => vsum a.get) / sumWeights * bias
    else none).map fun (vars : Vec F p) =>
  { shifts := if hasIntercept then means else vzeros
    scales := fun j => sqrt (if gt (vars j) 0 then vars j else 1) }

end RawData

/-- `struct Model` with its `Dataset` (src/model.rs:16-24, src/data.rs:8-29), the lengths of the
weights still unknown. -/
structure Model (F : Type) where
  n : ℕ
  p : ℕ
  b : Bool
  y : Vec F n
  x : Mat F n (ncols b p)
  linearOffset : Option (Vec F n)
  weights : Option (Arr F)
  freqs : Option (Arr F)
  standardizer : Option (Standardizer F p)

/-- `finalize_design_matrix`, src/data.rs:61-81; `none` is a panic. -/
def RawData.finalize {n p : ℕ} (d : RawData F n p) (transform useIntercept : Bool) :
    Option (Model F) :=
  if transform then
    (d.standardizer useIntercept).map fun s =>
      { n := n, p := p, b := useIntercept, y := d.y, linearOffset := d.linearOffset
        weights := d.weights, freqs := d.freqs
        x := Dataset.padded useIntercept (s.transform d.x)
        standardizer := some s }
  else
    some { n := n, p := p, b := useIntercept, y := d.y, linearOffset := d.linearOffset
           weights := d.weights, freqs := d.freqs
           x := Dataset.padded useIntercept d.x
           standardizer := none }

/-- An optional array whose length must be `n`; `none` if it is not. -/
def fitLen {α : Type} (n : ℕ) : Option (Arr α) → Option (Option (Fin n → α))
  | none => some none
  | some a => if h : n = a.len then some (some fun i => a.get (Fin.cast h i)) else none

/-- The conversion of the responses, src/model.rs:217-222: the first one without a counterpart ends
it. -/
def collectY {n : ℕ} (conv : Y → Option F) (y : Fin n → Y) : Outcome (BuildErr Y) (Vec F n) :=
  seqOutcome fun i => match conv (y i) with
    | some v => .ok v
    | none => .err (.invalidY (y i))

/-- `build`, src/model.rs:182-243.  `conv` is `into_float` of the family and response type.  The
warning on standard error about underconstrained data is not modelled. -/
def Builder.build (conv : Y → Option F) (bd : Builder Y F) : Outcome (BuildErr Y) (Model F) :=
  match bd.error with
  | some s => .err (.buildError s)
  | none =>
    if h : bd.dataY.len = bd.dataX.rows then
      match fitLen bd.dataY.len bd.linearOffset with
      | none => .err .badOffset
      | some off =>
        (collectY conv bd.dataY.get).bind fun y =>
        let data : RawData F bd.dataY.len bd.dataX.cols :=
          { y := y
            x := fun i j => bd.dataX.get (Fin.cast h i) j
            linearOffset := off
            weights := bd.varWeights
            freqs := bd.freqWeights }
        match data.finalize bd.standardize bd.useIntercept with
        | some m => .ok m
        | none => .panic
    else .err .badShape

/-- `ModelBuilder::data(y, x)`, the given calls in order, then `build()`. -/
def buildModel (conv : Y → Option F) (y : Arr Y) (x : Arr2 F) (calls : List (Call F)) :
    Outcome (BuildErr Y) (Model F) :=
  (calls.foldl Builder.call (Builder.data y x)).build conv

/-- The data set of a model whose weights have the right lengths. -/
def Model.dataset (m : Model F) : Option (Dataset F m.n m.p m.b) :=
  (fitLen m.n m.weights).bind fun w => (fitLen m.n m.freqs).map fun f =>
    { y := m.y, x := m.x, linearOffset := m.linearOffset, weights := w, freqs := f
      standardizer := m.standardizer }

/-! ### Fit options -/

/-- A call of one of the setters of `FitConfig`, src/fit/options.rs:25-60. -/
inductive OptCall (F : Type)
  | maxIter (k : ℕ)
  | tol (t : F)
  | l2Reg (c : F)
  | l1Reg (c : F)

/-- The setters, src/fit/options.rs:25-60. -/
def FitOptions.call {k : ℕ} (o : FitOptions F k) : OptCall F → FitOptions F k
  | .maxIter m => { o with maxIter := m }
  | .tol t => { o with tol := t }
  | .l2Reg c => { o with l2 := c }
  | .l1Reg c => { o with l1 := c }

/-- `Model::with_options(o)`, the given setters in order, then `fit()`; src/model.rs:45-50,
src/fit/options.rs:20-22. -/
def fitWith {n p : ℕ} {b : Bool} (env : Env F) (g : Glm F) (data : Dataset F n p b)
    (o : FitOptions F (ncols b p)) (calls : List (OptCall F)) :
    Outcome (FitError F (ncols b p)) (Fit F n p b) :=
  regression env g data (calls.foldl FitOptions.call o)

/-- `Model::fit_options()`, the given setters in order, then `fit()`; src/model.rs:37-42.
`Model::fit()` (src/model.rs:32-34) is the case without setters. -/
def fitOptions {n p : ℕ} {b : Bool} (env : Env F) (g : Glm F) (data : Dataset F n p b)
    (calls : List (OptCall F)) : Outcome (FitError F (ncols b p)) (Fit F n p b) :=
  fitWith env g data (FitOptions.default env) calls

end

end GLM
