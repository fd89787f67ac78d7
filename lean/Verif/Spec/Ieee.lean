/-
  Floating-point arithmetic: rounding, overflow, underflow, infinities, signed zeros and
  not-a-number.

  `FloatFormat` is what a theorem needs to know about a format: the rounding of a result is
  monotone, symmetric and leaves rounded numbers alone, and the library functions have the right
  sign and the right limits (they need not be correctly rounded).  `Fl fmt` has the values of the
  format and the rules of IEEE 754 for the special cases.  The order of summation, and where
  multiplications and additions are fused in inner products, is part of the format.  `binary p emin emax` is the binary format
  with `p` bits of precision and exponents between `emin` and `emax`, rounding to nearest with ties to
  even; `binary64` is `f64` and `binary32` is `f32`.
-/
import Verif.Model.Refit
import Mathlib.Data.EReal.Inv
import Mathlib.Data.Int.Log

namespace GLM

/-- The rounding and the elementary functions of a floating-point format, on the extended real
line.  A number that is too large for the format is rounded to `⊤`. -/
structure FloatFormat where
  /-- rounding of the exact result of an operation -/
  rnd : EReal → EReal
  rnd_mono : Monotone rnd
  rnd_idem : ∀ v, rnd (rnd v) = rnd v
  rnd_neg : ∀ v, rnd (-v) = -rnd v
  rnd_one : rnd 1 = 1
  rnd_top : rnd ⊤ = ⊤
  /-- the library's exponential function -/
  exp : EReal → EReal
  exp_nonneg : ∀ v, 0 ≤ exp v
  exp_le_one : ∀ v, v ≤ 0 → exp v ≤ 1
  one_le_exp : ∀ v, 0 ≤ v → 1 ≤ exp v
  exp_top : exp ⊤ = ⊤
  exp_bot : exp ⊥ = 0
  /-- the library's `exp(v) - 1` -/
  expm1 : EReal → EReal
  neg_one_le_expm1 : ∀ v, -1 ≤ expm1 v
  expm1_nonpos : ∀ v, v ≤ 0 → expm1 v ≤ 0
  expm1_nonneg : ∀ v, 0 ≤ v → 0 ≤ expm1 v
  expm1_top : expm1 ⊤ = ⊤
  /-- the library's logarithm, on numbers that are not negative -/
  ln : EReal → EReal
  ln_nonneg : ∀ v, 1 ≤ v → 0 ≤ ln v
  ln_nonpos : ∀ v, v ≤ 1 → ln v ≤ 0
  ln_zero : ln 0 = ⊥
  ln_top : ln ⊤ = ⊤
  /-- the library's `ln(1 + v)`, on numbers that are at least `-1` -/
  ln1p : EReal → EReal
  ln1p_nonneg : ∀ v, 0 ≤ v → 0 ≤ ln1p v
  ln1p_nonpos : ∀ v, v ≤ 0 → ln1p v ≤ 0
  ln1p_le : ∀ v, 0 ≤ v → ln1p v ≤ rnd v
  /-- the sign of the not-a-number that an invalid operation gives (it differs between processors,
  and only `total_cmp` looks at it) -/
  nanNeg : Bool
  /-- the order in which sums are computed -/
  order : SumSite → (n : ℕ) → SumOrder n

/-- A value of the format: not-a-number with its sign, negative zero, or an extended real number
(`num 0` is positive zero, `num ⊤` and `num ⊥` are the infinities). -/
inductive Fl (fmt : FloatFormat) where
  | nan (neg : Bool)
  | negZero
  | num (v : EReal)

namespace Fl
variable {fmt : FloatFormat}

/-- Not a number. -/
def isNaN : Fl fmt → Prop
  | nan _ => True
  | _ => False

/-- The number that a value stands for. -/
noncomputable def val : Fl fmt → EReal
  | nan _ => 0
  | negZero => 0
  | num v => v

open Classical in
/-- The sign bit. -/
noncomputable def neg? : Fl fmt → Bool
  | nan s => s
  | negZero => true
  | num v => decide (v < 0)

/-- A finite number. -/
def isFinite (x : Fl fmt) : Prop := ¬ x.isNaN ∧ x.val ≠ ⊤ ∧ x.val ≠ ⊥

open Classical in
/-- The value with the given magnitude; `s` is the sign if the value is zero. -/
noncomputable def mk (s : Bool) (v : EReal) : Fl fmt :=
  if v = 0 then (if s then negZero else num 0) else num v

/-- The result of an invalid operation. -/
def invalid : Fl fmt := nan fmt.nanNeg

/-- Negation flips the sign bit. -/
noncomputable def opp : Fl fmt → Fl fmt
  | nan s => nan !s
  | negZero => num 0
  | num v => mk true (-v)

open Classical in
/-- Addition: `∞ - ∞` is invalid, an exact zero is positive unless both terms are negative zeros. -/
noncomputable def plus (x y : Fl fmt) : Fl fmt :=
  if x.isNaN ∨ y.isNaN then invalid
  else if (x.val = ⊤ ∧ y.val = ⊥) ∨ (x.val = ⊥ ∧ y.val = ⊤) then invalid
  else if x.val + y.val = 0 then mk (x.neg? && y.neg?) 0
  else mk (decide (x.val + y.val < 0)) (fmt.rnd (x.val + y.val))

open Classical in
/-- Multiplication: `0 * ∞` is invalid, the sign is the product of the signs. -/
noncomputable def times (x y : Fl fmt) : Fl fmt :=
  if x.isNaN ∨ y.isNaN then invalid
  else if (x.val = 0 ∧ (y.val = ⊤ ∨ y.val = ⊥)) ∨ ((x.val = ⊤ ∨ x.val = ⊥) ∧ y.val = 0) then invalid
  else mk (x.neg? ^^ y.neg?) (fmt.rnd (x.val * y.val))

open Classical in
/-- Fused multiplication and addition `x * y + z`: the result is rounded once. -/
noncomputable def fused (x y z : Fl fmt) : Fl fmt :=
  if x.isNaN ∨ y.isNaN ∨ z.isNaN then invalid
  else if (x.val = 0 ∧ (y.val = ⊤ ∨ y.val = ⊥)) ∨ ((x.val = ⊤ ∨ x.val = ⊥) ∧ y.val = 0) then invalid
  else if (x.val * y.val = ⊤ ∧ z.val = ⊥) ∨ (x.val * y.val = ⊥ ∧ z.val = ⊤) then invalid
  else if x.val * y.val + z.val = 0 then mk ((x.neg? ^^ y.neg?) && z.neg?) 0
  else mk (decide (x.val * y.val + z.val < 0)) (fmt.rnd (x.val * y.val + z.val))

open Classical in
/-- Division: `0 / 0` and `∞ / ∞` are invalid, another number divided by zero is infinite. -/
noncomputable def over (x y : Fl fmt) : Fl fmt :=
  if x.isNaN ∨ y.isNaN then invalid
  else if (x.val = 0 ∧ y.val = 0) ∨ ((x.val = ⊤ ∨ x.val = ⊥) ∧ (y.val = ⊤ ∨ y.val = ⊥)) then invalid
  else if y.val = 0 then num (if x.neg? ^^ y.neg? then ⊥ else ⊤)
  else mk (x.neg? ^^ y.neg?) (fmt.rnd (x.val / y.val))

open Classical in
/-- The position in the total order of IEEE 754: not-a-number at the ends according to its sign. -/
def place : Fl fmt → ℕ
  | nan true => 0
  | nan false => 2
  | _ => 1

/-- The square root of an extended real number that is not negative. -/
noncomputable def esqrt (v : EReal) : EReal := if v = ⊤ then ⊤ else (Real.sqrt v.toReal : ℝ)

open Classical in
noncomputable instance : Scalar (Fl fmt) where
  zero := num 0
  one := num 1
  add := plus
  sub x y := plus x (opp y)
  mul := times
  div := over
  neg := opp
  ofNat n := num (fmt.rnd (n : ℝ))
  lit m e := num (fmt.rnd ((m / 10 ^ e : ℝ) : EReal))
  abs
    | nan _ => nan false
    | negZero => num 0
    | num v => num (max v (-v))
  sqrt x := if x.isNaN then invalid else if x.val < 0 then invalid
    else mk x.neg? (fmt.rnd (esqrt x.val))
  exp x := if x.isNaN then invalid else num (fmt.exp x.val)
  ln x := if x.isNaN then invalid else if x.val < 0 then invalid else num (fmt.ln x.val)
  ln1p x := if x.isNaN then invalid else if x.val < -1 then invalid
    else mk x.neg? (fmt.ln1p x.val)
  expm1 x := if x.isNaN then invalid else mk x.neg? (fmt.expm1 x.val)
  signum x := if x.isNaN then invalid else if x.neg? then num (-1) else num 1
  lt x y := decide (¬ x.isNaN ∧ ¬ y.isNaN ∧ x.val < y.val)
  le x y := decide (¬ x.isNaN ∧ ¬ y.isNaN ∧ x.val ≤ y.val)
  eq x y := decide (¬ x.isNaN ∧ ¬ y.isNaN ∧ x.val = y.val)
  totalCmp x y :=
    if x.place < y.place then .lt else if y.place < x.place then .gt
    else if x.val < y.val then .lt else if y.val < x.val then .gt
    else if x.neg? = y.neg? then .eq else if x.neg? then .lt else .gt
  fma := fused
  order := fmt.order

/-- The value is a number in the given range. -/
def within (x : Fl fmt) (lo hi : EReal) : Prop := ¬ x.isNaN ∧ lo ≤ x.val ∧ x.val ≤ hi

/-- The value is not-a-number or a number that is not negative. -/
def nonnegOrNaN (x : Fl fmt) : Prop := x.isNaN ∨ 0 ≤ x.val

end Fl

/-! ### Binary formats -/

/-- The nearest integer, the even one of two. -/
noncomputable def roundEven (x : ℝ) : ℤ :=
  if x - ⌊x⌋ < 1 / 2 then ⌊x⌋
  else if 1 / 2 < x - ⌊x⌋ then ⌊x⌋ + 1
  else if Even ⌊x⌋ then ⌊x⌋ else ⌊x⌋ + 1

/-- The distance between neighbouring numbers of the format around `v`. -/
noncomputable def ulp (p : ℕ) (emin : ℤ) (v : ℝ) : ℝ :=
  2 ^ (max (Int.log 2 |v|) emin - (p - 1 : ℤ))

/-- Rounding to `p` bits, or to the spacing of the numbers of exponent `emin` below them. -/
noncomputable def roundBits (p : ℕ) (emin : ℤ) (v : ℝ) : ℝ :=
  ulp p emin v * roundEven (v / ulp p emin v)

/-- Rounding with overflow above exponent `emax`. -/
noncomputable def roundBinary (p : ℕ) (emin emax : ℤ) : EReal → EReal
  | ⊤ => ⊤
  | ⊥ => ⊥
  | (v : ℝ) =>
    if (2 : ℝ) ^ (emax + 1) ≤ roundBits p emin v then ⊤
    else if roundBits p emin v ≤ -(2 : ℝ) ^ (emax + 1) then ⊥
    else (roundBits p emin v : ℝ)

/-! ### The exact elementary functions on the extended real line -/

/-- The exponential function. -/
noncomputable def eexp : EReal → EReal
  | ⊤ => ⊤
  | ⊥ => 0
  | (v : ℝ) => (Real.exp v : ℝ)

/-- `exp(v) - 1`. -/
noncomputable def eexpm1 : EReal → EReal
  | ⊤ => ⊤
  | ⊥ => -1
  | (v : ℝ) => (Real.exp v - 1 : ℝ)

/-- The logarithm; the value below zero is not used. -/
noncomputable def eln : EReal → EReal
  | ⊤ => ⊤
  | ⊥ => ⊥
  | (v : ℝ) => if v ≤ 0 then ⊥ else (Real.log v : ℝ)

/-- `ln(1 + v)`; the value below `-1` is not used. -/
noncomputable def eln1p : EReal → EReal
  | ⊤ => ⊤
  | ⊥ => ⊥
  | (v : ℝ) => if v ≤ -1 then ⊥ else (Real.log (1 + v) : ℝ)

end GLM
