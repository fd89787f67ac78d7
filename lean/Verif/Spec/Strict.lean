/-
  Exact arithmetic in which undefined operations are visible.

  In the instance at `ℝ` every operation has a value (`x / 0 = 0`, `Real.log` of a negative number is
  the logarithm of its absolute value).  `NReal` adds a single not-a-number, which is the result of a
  division by zero, of the logarithm of a number that is not positive, and of the square root of a
  negative number (the places where IEEE arithmetic gives a NaN or an infinity), and of every
  operation on not-a-number.  Comparisons with not-a-number are false, as in IEEE arithmetic.
-/
import Verif.Model.Refit

namespace GLM

/-- A real number or not-a-number. -/
inductive NReal
  | val (x : ℝ)
  | nan

namespace NReal

/-- An operation that is always defined. -/
def map (f : ℝ → ℝ) : NReal → NReal
  | val x => val (f x)
  | nan => nan

/-- An operation of two arguments that is always defined. -/
def map₂ (f : ℝ → ℝ → ℝ) : NReal → NReal → NReal
  | val x, val y => val (f x y)
  | _, _ => nan

/-- A comparison. -/
def cmp (r : ℝ → ℝ → Bool) : NReal → NReal → Bool
  | val x, val y => r x y
  | _, _ => false

open Classical in
noncomputable instance : Scalar NReal where
  zero := val 0
  one := val 1
  add := map₂ (· + ·)
  sub := map₂ (· - ·)
  mul := map₂ (· * ·)
  div
    | val x, val y => if y = 0 then nan else val (x / y)
    | _, _ => nan
  neg := map (- ·)
  ofNat n := val (Scalar.ofNat n)
  lit m e := val (Scalar.lit m e)
  abs := map Scalar.abs
  sqrt
    | val x => if x < 0 then nan else val (Real.sqrt x)
    | nan => nan
  exp := map Scalar.exp
  ln
    | val x => if x ≤ 0 then nan else val (Real.log x)
    | nan => nan
  ln1p
    | val x => if x ≤ -1 then nan else val (Real.log (1 + x))
    | nan => nan
  expm1 := map Scalar.expm1
  signum := map Scalar.signum
  lt := cmp Scalar.lt
  le := cmp Scalar.le
  eq := cmp Scalar.eq
  totalCmp
    | val x, val y => Scalar.totalCmp x y
    | val _, nan => .lt
    | nan, val _ => .gt
    | nan, nan => .eq
  fma x y z := map₂ (· + ·) (map₂ (· * ·) x y) z
  order := Scalar.order (F := ℝ)

end NReal

/-! ### The same value in the other arithmetic -/

section
variable {n p k : ℕ} {b : Bool}

/-- A vector of numbers. -/
def Vec.strict (v : Vec ℝ n) : Vec NReal n := fun i => .val (v i)

/-- A matrix of numbers. -/
def Mat.strict (m : Mat ℝ n k) : Mat NReal n k := fun i j => .val (m i j)

/-- A data set of numbers. -/
def Dataset.strict (d : Dataset ℝ n p b) : Dataset NReal n p b :=
  { y := Vec.strict d.y
    x := Mat.strict d.x
    linearOffset := d.linearOffset.map Vec.strict
    weights := d.weights.map Vec.strict
    freqs := d.freqs.map Vec.strict
    standardizer := d.standardizer.map fun s =>
      { shifts := Vec.strict s.shifts, scales := Vec.strict s.scales } }

/-- Fit options that are numbers. -/
def FitOptions.strict (o : FitOptions ℝ k) : FitOptions NReal k :=
  { maxIter := o.maxIter, tol := .val o.tol, l2 := .val o.l2, l1 := .val o.l1
    initGuess := o.initGuess.map Vec.strict }

def IrlsStep.strict (s : IrlsStep ℝ k) : IrlsStep NReal k :=
  { guess := Vec.strict s.guess, like := .val s.like }

def Admm.strict (st : Admm ℝ k) : Admm NReal k :=
  { dual := Vec.strict st.dual, cumRes := Vec.strict st.cumRes, rho := .val st.rho
    rSq := st.rSq.map .val, sSq := st.sSq.map .val }

def Reg.strict : Reg ℝ k → Reg NReal k
  | .null => .null
  | .ridge l2 => .ridge (Vec.strict l2)
  | .lasso l1 st => .lasso (Vec.strict l1) st.strict
  | .elastic l1 l2 st => .elastic (Vec.strict l1) (Vec.strict l2) st.strict

def Irls.strict (s : Irls ℝ k) : Irls NReal k :=
  { guess := Vec.strict s.guess, reg := s.reg.strict, nIter := s.nIter
    lastLikeData := .val s.lastLikeData, done := s.done
    history := s.history.map IrlsStep.strict }

def FitError.strict : FitError ℝ k → FitError NReal k
  | .linalg => .linalg
  | .maxIter m h => .maxIter m (h.map IrlsStep.strict)

/-- A fit all of whose fields are numbers; `g` is the family in the other arithmetic. -/
def Fit.strict (g : Glm NReal) (f : Fit ℝ n p b) : Fit NReal n p b :=
  { g := g
    data := f.data.strict
    result := Vec.strict f.result
    resultStd := Vec.strict f.resultStd
    xLinPred := Vec.strict f.xLinPred
    yHat := Vec.strict f.yHat
    options := f.options.strict
    modelLike := .val f.modelLike
    reg := f.reg.strict
    nIter := f.nIter
    history := f.history.map IrlsStep.strict }

/-- The same outcome with its value and its error translated. -/
def Outcome.mapBoth {E E' α β : Type} (fe : E → E') (f : α → β) : Outcome E α → Outcome E' β
  | .ok a => .ok (f a)
  | .err e => .err (fe e)
  | .panic => .panic
  | .diverge => .diverge

open Classical in
/-- Linear algebra on numbers; the routines are never relied on when an entry is not a number. -/
noncomputable def Env.strict (env : Env ℝ) : Env NReal where
  eps := .val env.eps
  solveh m v :=
    if h : ∃ mv : Mat ℝ _ _ × Vec ℝ _, m = Mat.strict mv.1 ∧ v = Vec.strict mv.2 then
      (env.solveh h.choose.1 h.choose.2).map Vec.strict
    else .error .failed
  invh m :=
    if h : ∃ m' : Mat ℝ _ _, m = Mat.strict m' then (env.invh h.choose).map Mat.strict
    else .error .failed
  inv m :=
    if h : ∃ m' : Mat ℝ _ _, m = Mat.strict m' then (env.inv h.choose).map Mat.strict
    else .error .failed
  fuel := env.fuel

end
end GLM
