/-
  Arrays of the model.  `Array1<F>` of length `n` is `Vec F n`, `Array2<F>` of shape `(n, m)`
  is `Mat F n m`.  ndarray's ownership, views and memory order are not modelled; the order in which
  sums are computed belongs to the arithmetic (`Scalar.order`).
-/
import Verif.Model.Scalar

namespace GLM

/-- `ndarray::Array1<F>` of length `n`. -/
abbrev Vec (F : Type) (n : ℕ) := Fin n → F
/-- `ndarray::Array2<F>` with `n` rows and `m` columns. -/
abbrev Mat (F : Type) (n m : ℕ) := Fin n → Fin m → F

section
variable {F : Type} [Scalar F] {n m k : ℕ}

/-- `Array1::sum`. -/
def vsum (v : Vec F n) : F :=
  (Scalar.order (F := F) .sum n).tree.eval v fun i acc => acc + v i

/-- The inner product of two vectors, summed in the order of the given place. -/
def vdotBy (site : SumSite) (u v : Vec F n) : F :=
  (Scalar.order (F := F) site n).tree.eval (fun i => u i * v i) fun i acc =>
    Scalar.fma (u i) (v i) acc

/-- `Array1::dot(&Array1)`. -/
def vdot (u v : Vec F n) : F := vdotBy .dot u v

/-- `Array2::dot(&Array1)`. -/
def Mat.dotV (a : Mat F n m) (v : Vec F m) : Vec F n := fun i => vdotBy (.matVec n i) (a i) v

/-- `Array2::t`. -/
def Mat.tr (a : Mat F n m) : Mat F m n := fun i j => a j i

/-- `Array2::dot(&Array2)`. -/
def Mat.dotM (a : Mat F n m) (b : Mat F m k) : Mat F n k := fun i j =>
  vdotBy (.matMat n k i j) (a i) fun l => b l j

/-- `&a + &b` on equal shapes. -/
def vadd (a b : Vec F n) : Vec F n := fun i => a i + b i
/-- `&a - &b`. -/
def vsub (a b : Vec F n) : Vec F n := fun i => a i - b i
/-- `&a * &b` (element-wise). -/
def vmul (a b : Vec F n) : Vec F n := fun i => a i * b i
/-- `&a / &b` (element-wise). -/
def vdiv (a b : Vec F n) : Vec F n := fun i => a i / b i
/-- `&a * s`. -/
def vscale (a : Vec F n) (s : F) : Vec F n := fun i => a i * s
/-- `Array1::zeros(n)`. -/
def vzeros : Vec F n := fun _ => 0
/-- `Array1::from_elem(n, a)`. -/
def vfill (a : F) : Vec F n := fun _ => a

/-- `Array1::mean()`: `None` for an empty array, otherwise `sum / n`. -/
def vmean? (v : Vec F n) : Option F := if n = 0 then none else some (vsum v / Scalar.ofNat n)

/-- `m.diag_mut() += d`. -/
def Mat.addDiag (a : Mat F n n) (d : Vec F n) : Mat F n n :=
  fun i j => if i = j then a i j + d i else a i j

/-- `m.diag()`. -/
def Mat.diag (a : Mat F n n) : Vec F n := fun i => a i i

/-- Element-wise sum of matrices, `a + b`. -/
def Mat.add (a b : Mat F n m) : Mat F n m := fun i j => a i j + b i j

end

end GLM
