/-
  Accuracy of floating-point arithmetic: how far a computed value may be from the exact one.
-/
import Verif.Spec.Ieee
import Verif.Spec.Data
import Mathlib.Analysis.SpecialFunctions.Exp

namespace GLM.Spec
variable {fmt : FloatFormat}

/-- The real number that a finite value stands for. -/
noncomputable def real (x : Fl fmt) : ℝ := x.val.toReal

/-- `r` is `v` up to a relative error `u` and an absolute error `tiny`. -/
def Near (u tiny v r : ℝ) : Prop := |r - v| ≤ u * |v| + tiny

/-- Results smaller than `big` do not overflow, and have a relative error of at most `u`, or an
absolute error of at most `tiny` where the format loses precision around zero.  This is asked of the
four operations and of the library's exponential functions. -/
structure Accurate (fmt : FloatFormat) (u tiny big : ℝ) : Prop where
  u_nonneg : 0 ≤ u
  u_le : u ≤ 1 / 4
  tiny_nonneg : 0 ≤ tiny
  tiny_le : tiny ≤ 1 / 8
  big_ge : 2 ≤ big
  rnd_two : fmt.rnd (2 : ℝ) = (2 : ℝ)
  rnd_near : ∀ v : ℝ, (∃ r : ℝ, fmt.rnd v = r ∧ Near u tiny v r) ∨
    (fmt.rnd v = ⊤ ∧ big ≤ v) ∨ (fmt.rnd v = ⊥ ∧ v ≤ -big)
  exp_near : ∀ v : ℝ, (∃ r : ℝ, fmt.exp v = r ∧ Near u tiny (Real.exp v) r) ∨
    (fmt.exp v = ⊤ ∧ big ≤ Real.exp v)
  expm1_near : ∀ v : ℝ, v ≤ 0 → ∃ r : ℝ, fmt.expm1 v = r ∧ Near u tiny (Real.exp v - 1) r
  expm1_bot : fmt.expm1 ⊥ = -1

/-- The largest number of roundings that a term goes through on its way into the sum; `q` is the number
of roundings of a single term (`0` in a plain sum, `1` in an inner product). -/
def _root_.GLM.SumTree.depth {n : ℕ} (q : ℕ) : SumTree n → ℕ
  | .zero => 0
  | .term _ => q
  | .add l r => max (l.depth q) (r.depth q) + 1
  | .fused _ r => r.depth q + 1

/-- The number of roundings altogether. -/
def _root_.GLM.SumTree.ops {n : ℕ} (q : ℕ) : SumTree n → ℕ
  | .zero => 0
  | .term _ => q
  | .add l r => l.ops q + r.ops q + 1
  | .fused _ r => r.ops q + 1

/-- Error of a sum of terms whose absolute values add up to `S`, where a term goes through at most `d`
of the `k` roundings. -/
noncomputable def sumError (u tiny : ℝ) (d k : ℕ) (S : ℝ) : ℝ :=
  ((1 + u) ^ d - 1) * S + k * (1 + u) ^ d * tiny

section
variable {m p : ℕ}

/-- The offset of row `i`; zero if there is none. -/
noncomputable def offsetAt (off : Option (Vec (Fl fmt) m)) (i : Fin m) : ℝ := match off with
  | none => 0
  | some o => real (o i)

/-- The exact linear predictor of row `i`. -/
noncomputable def exactPred (b : Bool) (x : Mat (Fl fmt) m p) (off : Option (Vec (Fl fmt) m))
    (β : Vec (Fl fmt) (ncols b p)) (i : Fin m) : ℝ :=
  ∑ j, design b (fun i j => real (x i j)) i j * real (β j) + offsetAt off i

/-- The sum of the absolute values of the terms of the linear predictor of row `i`. -/
noncomputable def predSize (b : Bool) (x : Mat (Fl fmt) m p) (off : Option (Vec (Fl fmt) m))
    (β : Vec (Fl fmt) (ncols b p)) (i : Fin m) : ℝ :=
  ∑ j, |design b (fun i j => real (x i j)) i j * real (β j)| + |offsetAt off i|

/-- The largest number of roundings that a term of the linear predictor of row `i` goes through. -/
def predDepth (fmt : FloatFormat) (b : Bool) (m p : ℕ) (off : Option (Vec (Fl fmt) m)) (i : Fin m) : ℕ :=
  match off with
  | none => (fmt.order (.matVec m i) (ncols b p)).tree.depth 1
  | some _ => (fmt.order (.matVec m i) (ncols b p)).tree.depth 1 + 1

/-- The number of roundings in the linear predictor of row `i`. -/
def predOps (fmt : FloatFormat) (b : Bool) (m p : ℕ) (off : Option (Vec (Fl fmt) m)) (i : Fin m) : ℕ :=
  match off with
  | none => (fmt.order (.matVec m i) (ncols b p)).tree.ops 1
  | some _ => (fmt.order (.matVec m i) (ncols b p)).tree.ops 1 + 1

/-- The error of the linear predictor of row `i`. -/
noncomputable def predError (u tiny : ℝ) (b : Bool) (x : Mat (Fl fmt) m p)
    (off : Option (Vec (Fl fmt) m)) (β : Vec (Fl fmt) (ncols b p)) (i : Fin m) : ℝ :=
  sumError u tiny (predDepth fmt b m p off i) (predOps fmt b m p off i) (predSize b x off β i)

/-- The numbers that enter a linear predictor are finite and their products are far enough below the
largest number of the format. -/
def PredFits (u tiny big : ℝ) (b : Bool) (x : Mat (Fl fmt) m p) (off : Option (Vec (Fl fmt) m))
    (β : Vec (Fl fmt) (ncols b p)) (i : Fin m) : Prop :=
  (∀ j, (x i j).isFinite) ∧ (∀ j, (β j).isFinite) ∧ (∀ o, off = some o → (o i).isFinite) ∧
    predSize b x off β i + predError u tiny b x off β i < big

end

/-- The exact mean at the linear predictor `η`. -/
noncomputable def exactMean : Family → ℝ → ℝ
  | .linear => fun η => η
  | .logisticLogit => fun η => 1 / (1 + Real.exp (-η))
  | .logisticCloglog => fun η => 1 - Real.exp (-Real.exp η)
  | .binomial N => fun η => N / (1 + Real.exp (-η))
  | .poisson | .exponentialLog | .gammaLog | .invGaussLog => Real.exp
  | .exponentialNegRec | .gammaNegRec => fun η => -1 / η
  | .invGaussNegRecSq => fun η => 1 / Real.sqrt (-2 * η)

/-- The relative error of the computed `√(-2η)`, if the computed `η` has the error `B`. -/
noncomputable def rootError (u tiny B η : ℝ) : ℝ :=
  (1 + (2 * B + u * (-2 * η + 2 * B) + tiny) / (-2 * η)) * (1 + u) - 1 + tiny / Real.sqrt (-2 * η)

/-- The error of the computed mean, if the computed linear predictor has the error `B`. -/
noncomputable def meanError (u tiny big B : ℝ) : Family → ℝ → ℝ
  | .linear => fun _ => B
  | .logisticLogit => fun _ => B / 4 + (3 * u + 3 * tiny + 2 / big)
  | .logisticCloglog => fun _ => B / 2 + (2 * u + 3 * tiny + 1 / big)
  | .binomial N => fun _ => N * (B / 4 + (3 * u + 3 * tiny + 2 / big))
  | .poisson | .exponentialLog | .gammaLog | .invGaussLog => fun η =>
    ((1 + u) * Real.exp B - 1) * Real.exp η + tiny
  | .exponentialNegRec | .gammaNegRec => fun η => (u * -η + B) / (-η * (-η - B)) + tiny
  | .invGaussNegRecSq => fun η =>
    (rootError u tiny B η + u) / ((1 - rootError u tiny B η) * Real.sqrt (-2 * η)) + tiny

/-- The mean does not overflow, and a predictor that has to be negative is so by more than its
error. -/
def MeanFits (fmt : FloatFormat) (u tiny big B : ℝ) : Family → ℝ → Prop
  | .linear | .logisticLogit | .logisticCloglog => fun _ => True
  | .binomial N => fun _ => 1 ≤ N ∧ fmt.rnd (N : ℝ) = (N : ℝ)
  | .poisson | .exponentialLog | .gammaLog | .invGaussLog => fun η => Real.exp (η + B) < big
  | .exponentialNegRec | .gammaNegRec => fun η => B < -η ∧ 1 / (-η - B) < big
  | .invGaussNegRecSq => fun η => B < -η ∧ -2 * η + 2 * B < big ∧ rootError u tiny B η < 1 ∧
    1 / ((1 - rootError u tiny B η) * Real.sqrt (-2 * η)) < big

end GLM.Spec
