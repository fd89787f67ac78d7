/-
  Regularizers, src/regularization.rs.  The `dyn IrlsReg` object is an inductive type with one
  constructor per implementation; `&mut self` methods return the new state.
-/
import Verif.Model.Env

namespace GLM
open Scalar

/-- The ADMM state shared (textually) by `Lasso` (src/regularization.rs:123-136) and
`ElasticNet` (:232-247), without the penalty vectors.  `r_sq`/`s_sq` start at
`F::infinity()`; `none` stands for that initial value. -/
structure Admm (F : Type) (k : ℕ) where
  dual : Vec F k
  cumRes : Vec F k
  rho : F
  rSq : Option F
  sSq : Option F

/-- `Null`, `Ridge`, `Lasso`, `ElasticNet`, src/regularization.rs:64-344. -/
inductive Reg (F : Type) (k : ℕ) where
  | null
  | ridge (l2 : Vec F k)
  | lasso (l1 : Vec F k) (st : Admm F k)
  | elastic (l1 l2 : Vec F k) (st : Admm F k)

variable {F : Type} [Scalar F] {k : ℕ}

/-- `soft_thresh`, src/regularization.rs:347-353, on one element. -/
def softThresh (x lambda : F) : F :=
  let signX := sign x
  let absX := abs x
  let redX := absX - lambda
  let clipped := if lt redX 0 then 0 else redX
  signX * clipped

namespace Admm

/-- The initial state set by `from_diag`, src/regularization.rs:141-153 and :252-265. -/
def init : Admm F k :=
  { dual := vzeros, cumRes := vzeros, rho := 1, rSq := none, sSq := none }

/-- `update_rho`, src/regularization.rs:155-168 and :267-279.  With both residual norms
infinite neither comparison holds, so the initial call changes nothing.  The second `if` reads
only `r_sq` and `s_sq`, which the first does not change. -/
def updateRho (st : Admm F k) : Admm F k :=
  let mu : F := ofNat 8
  let tau : F := ofNat 2
  match st.rSq, st.sSq with
  | some r, some s =>
    let st := if gt r (mu * mu * s) then
        { st with rho := st.rho * tau, cumRes := fun j => st.cumRes j / tau } else st
    if lt (r * mu * mu) s then
        { st with rho := st.rho / tau, cumRes := fun j => st.cumRes j * tau } else st
  | _, _ => st

/-- `prepare`, src/regularization.rs:182-197 and :295-310. -/
def prepare (l1 : Vec F k) (st : Admm F k) (beta : Vec F k) : Admm F k :=
  let st := st.updateRho
  let oldDual := st.dual
  let dual : Vec F k := fun j => softThresh (beta j + st.cumRes j) (l1 j / st.rho)
  let r : Vec F k := fun j => beta j - dual j
  let s : Vec F k := fun j => (dual j - oldDual j) * st.rho
  { rho := st.rho
    dual := dual
    cumRes := fun j => st.cumRes j + r j
    rSq := some (vsum fun j => r j * r j)
    sSq := some (vsum fun j => s j * s j) }

/-- The augmentation term of `irls_like`, src/regularization.rs:199-205 and :313-317. -/
def augment (st : Admm F k) (beta : Vec F k) : F :=
  -half * st.rho *
    vsum fun j => (beta j - st.dual j + st.cumRes j) * (beta j - st.dual j + st.cumRes j)

/-- `irls_vec`, src/regularization.rs:209-212 and :323-326. -/
def irlsVec (st : Admm F k) (vec : Vec F k) : Vec F k :=
  fun j => vec j + (st.dual j - st.cumRes j) * st.rho

/-- `terminate_ok`, src/regularization.rs:221-228 and :336-343.  An infinite residual norm is
not below the threshold. -/
def terminateOk (st : Admm F k) (tol : F) : Bool :=
  let nSq : F := sqrt (ofNat k)
  match st.rSq, st.sSq with
  | some r, some s => lt r (nSq * tol) && lt s (nSq * tol)
  | _, _ => false

end Admm

/-- `-0.5 * sum(l2 * beta^2)` is not factored out in Rust; this is the sum appearing in
`Ridge::likelihood` (:102) and `ElasticNet` (:285, :318). -/
def sumL2 (l2 beta : Vec F k) : F := vsum fun j => l2 j * (beta j * beta j)

/-- `sum(l1 * |beta|)`, src/regularization.rs:172 and :284. -/
def sumL1 (l1 beta : Vec F k) : F := vsum fun j => l1 j * abs (beta j)

namespace Reg

/-- `likelihood`, src/regularization.rs:68-70, :101-103, :171-173, :283-286. -/
def likelihood (r : Reg F k) (beta : Vec F k) : F :=
  match r with
  | null => 0
  | ridge l2 => -half * sumL2 l2 beta
  | lasso l1 _ => -(sumL1 l1 beta)
  | elastic l1 l2 _ => -(sumL1 l1 beta) - half * sumL2 l2 beta

/-- `gradient`, src/regularization.rs:72-74, :105-107, :177-179, :290-292. -/
def gradient (r : Reg F k) (jac beta : Vec F k) : Vec F k :=
  match r with
  | null => jac
  | ridge l2 => fun j => jac j - l2 j * beta j
  | lasso l1 _ => fun j => jac j - l1 j * sign (beta j)
  | elastic l1 l2 _ => fun j => jac j - l1 j * sign (beta j) - l2 j * beta j

/-- `prepare`, src/regularization.rs:22 (default no-op), :182-197, :295-310. -/
def prepare (r : Reg F k) (guess : Vec F k) : Reg F k :=
  match r with
  | null => null
  | ridge l2 => ridge l2
  | lasso l1 st => lasso l1 (st.prepare l1 guess)
  | elastic l1 l2 st => elastic l1 l2 (st.prepare l1 guess)

/-- `irls_like`, src/regularization.rs:26-28 (default), :199-205, :312-319. -/
def irlsLike (r : Reg F k) (beta : Vec F k) : F :=
  match r with
  | null => 0
  | ridge l2 => -half * sumL2 l2 beta
  | lasso _ st => st.augment beta
  | elastic _ l2 st => st.augment beta - half * sumL2 l2 beta

/-- `irls_vec`, src/regularization.rs:76-78, :111-113, :209-212, :323-326. -/
def irlsVec (r : Reg F k) (vec _regressors : Vec F k) : Vec F k :=
  match r with
  | null => vec
  | ridge _ => vec
  | lasso _ st => st.irlsVec vec
  | elastic _ _ st => st.irlsVec vec

/-- `irls_mat`, src/regularization.rs:80-82, :115-119, :215-219, :329-334. -/
def irlsMat (r : Reg F k) (mat : Mat F k k) (_regressors : Vec F k) : Mat F k k :=
  match r with
  | null => mat
  | ridge l2 => mat.addDiag l2
  | lasso _ st => mat.addDiag (vfill st.rho)
  | elastic _ l2 st => (mat.addDiag l2).addDiag (vfill st.rho)

/-- `terminate_ok`, src/regularization.rs:58-60 (default), :221-228, :336-343. -/
def terminateOk (r : Reg F k) (tol : F) : Bool :=
  match r with
  | null => true
  | ridge _ => true
  | lasso _ st => st.terminateOk tol
  | elastic _ _ st => st.terminateOk tol

/-- `next_guess`, src/regularization.rs:43-56.  Returns the updated regularizer and the
solution or the linear-algebra error. -/
def nextGuess (env : Env F) (r : Reg F k) (guess irlsVec : Vec F k) (irlsMat : Mat F k k) :
    Reg F k × Except LinalgError (Vec F k) :=
  let r := r.prepare guess
  let lhs := r.irlsMat irlsMat guess
  let rhs := r.irlsVec irlsVec guess
  (r, env.solveh lhs rhs)

end Reg

end GLM
