/-
  Vocabulary for chains of builder calls: which arrays were given for each setting, and which flags
  were set.  Independent of the builder's state.
-/
import Verif.Model.Build

namespace GLM
namespace Spec
variable {F : Type}

/-- The arrays passed to `linear_offset`, in order. -/
def offsetsOf (calls : List (Call F)) : List (Arr F) :=
  calls.filterMap fun c => match c with | .linearOffset a => some a | _ => none

/-- The arrays passed to `freq_weights`, in order. -/
def freqsOf (calls : List (Call F)) : List (Arr ℕ) :=
  calls.filterMap fun c => match c with | .freqWeights a => some a | _ => none

/-- The arrays passed to `var_weights`, in order. -/
def varsOf (calls : List (Call F)) : List (Arr F) :=
  calls.filterMap fun c => match c with | .varWeights a => some a | _ => none

/-- Setting `s` was given more than once. -/
def Repeated (calls : List (Call F)) : Setting → Prop
  | .offset => 2 ≤ (offsetsOf calls).length
  | .freqs => 2 ≤ (freqsOf calls).length
  | .vars => 2 ≤ (varsOf calls).length

/-- No setting was given more than once. -/
def NoRepeat (calls : List (Call F)) : Prop := ∀ s, ¬ Repeated calls s

/-- Whether the chain leaves standardization on. -/
def standardizes (calls : List (Call F)) : Bool :=
  calls.all fun c => match c with | .noStandardize => false | _ => true

/-- Whether the chain leaves the intercept on. -/
def withIntercept (calls : List (Call F)) : Bool :=
  calls.all fun c => match c with | .noConstant => false | _ => true

/-- An array of known length as one of unknown length. -/
def arr {α : Type} {n : ℕ} (v : Fin n → α) : Arr α := ⟨n, v⟩

/-- Counts as floating-point numbers. -/
def asFloats [Scalar F] (a : Arr ℕ) : Arr F := ⟨a.len, fun i => Scalar.ofNat (a.get i)⟩

/-- A data set of known shape as a model. -/
def modelOf {n p : ℕ} {b : Bool} (d : Dataset F n p b) : Model F :=
  { n := n, p := p, b := b, y := d.y, x := d.x, linearOffset := d.linearOffset
    weights := d.weights.map arr, freqs := d.freqs.map arr, standardizer := d.standardizer }

/-- The admission test for a response, in terms of the comparisons of the response's own type: a
float response of a logistic model must pass `0 <= y` and `y <= 1`; one of an exponential, gamma or
inverse Gaussian model must not pass `y <= 0`; everything else is admitted. -/
def Admits {G : Type} [Scalar G] : Family → (k : YKind G) → k.type → Prop
  | .logisticLogit, .float, y | .logisticCloglog, .float, y =>
    Scalar.le 0 y = true ∧ Scalar.le y 1 = true
  | .exponentialNegRec, .float, y | .exponentialLog, .float, y | .gammaNegRec, .float, y
  | .gammaLog, .float, y | .invGaussNegRecSq, .float, y | .invGaussLog, .float, y =>
    Scalar.le y 0 = false
  | _, _, _ => True

end Spec
end GLM
