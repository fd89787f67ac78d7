/-
  The arithmetic interface of the crate.

  Every function of the model is written once over an arbitrary `Scalar F`.  The class has no
  laws, so a theorem proved for every `Scalar F` holds in particular for IEEE-754 `f32`/`f64`
  arithmetic with NaN, infinities and rounding.  Numerical theorems use the instance at `ℝ`.
-/
import Mathlib.Analysis.SpecialFunctions.Log.Basic
import Mathlib.Analysis.SpecialFunctions.Sqrt

namespace GLM

/-- A way to add up `n` terms: an accumulator starts at zero or with a term, two partial sums are
added, or a term is added to a partial sum in one step (in an inner product the multiplication and the
addition may then be one fused operation). -/
inductive SumTree (n : ℕ)
  | zero
  | term (i : Fin n)
  | add (l r : SumTree n)
  | fused (i : Fin n) (r : SumTree n)

namespace SumTree
variable {n : ℕ}

/-- The terms that take part, with multiplicity. -/
def terms : SumTree n → List (Fin n)
  | zero => []
  | term i => [i]
  | add l r => l.terms ++ r.terms
  | fused i r => i :: r.terms

/-- The sum of the terms `t`; `f i acc` adds term `i` to `acc` in one step. -/
def eval {F : Type} [Zero F] [Add F] (t : Fin n → F) (f : Fin n → F → F) : SumTree n → F
  | zero => 0
  | term i => t i
  | add l r => l.eval t f + r.eval t f
  | fused i r => f i (r.eval t f)

/-- From left to right, starting at zero, of the terms in the list. -/
def left : List (Fin n) → SumTree n → SumTree n
  | [], acc => acc
  | i :: l, acc => left l (add acc (term i))

theorem terms_left (l : List (Fin n)) (acc : SumTree n) :
    (left l acc).terms = acc.terms ++ l := by
  induction l generalizing acc with
  | nil => simp [left]
  | cons i l ih => simp [left, ih, terms]

end SumTree

/-- An order of summation of `n` terms, in which every term takes part once. -/
structure SumOrder (n : ℕ) where
  tree : SumTree n
  complete : tree.terms.Perm (List.finRange n)

/-- Left to right. -/
def SumOrder.left (n : ℕ) : SumOrder n where
  tree := SumTree.left (List.finRange n) .zero
  complete := by rw [SumTree.terms_left]; exact List.Perm.refl _

/-- Where a sum is computed.  ndarray and the BLAS library (Cargo.toml:27, feature `blas`) choose the
order of summation for each kind of operation, depending on the shapes and on the position of the
result in the array. -/
inductive SumSite
  | /-- `sum`, `sum_axis`, `mean` -/ sum
  | /-- `Array1::dot` -/ dot
  | /-- `Array2::dot(&Array1)` -/ matVec (rows row : ℕ)
  | /-- `Array2::dot(&Array2)` -/ matMat (rows cols row col : ℕ)

/-- The floating-point operations the crate uses.
Models `num::Float` (src/num.rs:9-28) together with the `num_traits::Float`/`NdFloat` methods
called in `src/`.  Comparisons are `Bool`-valued as in Rust (`partial_cmp` based, so every
comparison with a NaN can be `false`).  `lit m e` is the decimal literal `m * 10^(-e)`;
`ofNat` is `F::from(n : usize)`.  `fma a b c` is `a * b + c` as one operation; it is used only inside
inner products (by the BLAS library), where and in which order is given by `order`. -/
class Scalar (F : Type) extends Add F, Sub F, Mul F, Div F, Neg F, Zero F, One F where
  ofNat : ℕ → F
  lit : ℕ → ℕ → F
  abs : F → F
  sqrt : F → F
  exp : F → F
  ln : F → F
  ln1p : F → F
  expm1 : F → F
  signum : F → F
  lt : F → F → Bool
  le : F → F → Bool
  eq : F → F → Bool
  totalCmp : F → F → Ordering
  fma : F → F → F → F
  order : SumSite → (n : ℕ) → SumOrder n

attribute [instance 10] Scalar.toAdd Scalar.toSub Scalar.toMul Scalar.toDiv Scalar.toNeg
  Scalar.toZero Scalar.toOne

namespace Scalar
variable {F : Type} [Scalar F]

/-- `F::half()`, src/num.rs:31-33. -/
def half : F := lit 5 1
/-- `F::two()`, src/num.rs:35-37. -/
def two : F := ofNat 2
/-- `num_traits::Float::recip` (`1/x`). -/
def recip (x : F) : F := 1 / x
/-- `num::Float::sign`, src/num.rs:18-24. -/
def sign (x : F) : F := if eq x 0 then 0 else signum x
/-- `a > b`. -/
def gt (a b : F) : Bool := lt b a

end Scalar

/-- `math::prod_log`, src/math.rs:5-13. -/
def prodLog {F : Type} [Scalar F] (x : F) : F :=
  if Scalar.eq x 0 then 0 else x * Scalar.ln x

/-! ### Exact arithmetic

The instance at `ℝ`.  `signum` of `0` is `1` as in Rust (for `+0.0`); Rust never reaches
`signum` with a zero argument in this crate because `sign` tests for zero first, and
`resid_dev` (src/fit.rs:696-706) calls `signum` directly.  `ln` of a non-positive real is
Mathlib's totalised value and is never used by a theorem without a positivity guard. -/

open Classical in
noncomputable instance instScalarReal : Scalar ℝ where
  ofNat n := n
  lit m e := m / 10 ^ e
  abs x := |x|
  sqrt := Real.sqrt
  exp := Real.exp
  ln := Real.log
  ln1p x := Real.log (1 + x)
  expm1 x := Real.exp x - 1
  signum x := if x < 0 then -1 else 1
  lt a b := decide (a < b)
  le a b := decide (a ≤ b)
  eq a b := decide (a = b)
  totalCmp a b := if a < b then .lt else if a = b then .eq else .gt
  fma a b c := a * b + c
  order _ := SumOrder.left

/-- Executable instance, used only for sanity runs of the model (no theorem uses it).
`totalCmp` agrees with IEEE totalOrder except for signed zeros and NaN signs/payloads. -/
instance instScalarFloat : Scalar Float where
  add := Float.add
  sub := Float.sub
  mul := Float.mul
  div := Float.div
  neg := Float.neg
  zero := 0.0
  one := 1.0
  ofNat n := n.toFloat
  lit m e := OfScientific.ofScientific m true e
  abs := Float.abs
  sqrt := Float.sqrt
  exp := Float.exp
  ln := Float.log
  ln1p x := Float.log (1.0 + x)
  expm1 x := Float.exp x - 1.0
  signum x := if x < 0 then -1 else if x.isNaN then x else 1
  lt a b := decide (a < b)
  le a b := decide (a ≤ b)
  eq a b := a == b
  totalCmp a b :=
    if a.isNaN then (if b.isNaN then .eq else .gt)
    else if b.isNaN then .lt
    else if a < b then .lt else if a == b then .eq else .gt
  fma a b c := a * b + c
  order _ := SumOrder.left

end GLM
