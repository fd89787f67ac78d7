/-
  External behaviour the crate depends on, and the error/outcome types.
-/
import Verif.Model.Array

namespace GLM

/-- `ndarray_linalg::error::LinalgError`; its payload is irrelevant here. -/
inductive LinalgError | failed
deriving DecidableEq

/-- What the crate takes from its environment.
* `eps` is `F::epsilon()`.
* `solveh` is `SolveH::solveh_into` (LAPACK `sytrf`/`sytrs`), `invh` is `InverseHInto::invh_into`
  and `inv` is `InverseInto::inv_into`; they may fail.
* `fuel` bounds the number of iterations of the `while` loop of `step_scale`
  (src/irls.rs:365-371), which has no bound in Rust; exhausting it is reported as divergence. -/
structure Env (F : Type) where
  eps : F
  solveh : {k : ℕ} → Mat F k k → Vec F k → Except LinalgError (Vec F k)
  invh : {k : ℕ} → Mat F k k → Except LinalgError (Mat F k k)
  inv : {k : ℕ} → Mat F k k → Except LinalgError (Mat F k k)
  fuel : ℕ

/-- Result of a computation that can return, return an error, panic, or not terminate. -/
inductive Outcome (E α : Type) where
  | ok (a : α)
  | err (e : E)
  | panic
  | diverge

namespace Outcome
variable {E α β : Type}

/-- `?` / sequencing. -/
def bind (o : Outcome E α) (f : α → Outcome E β) : Outcome E β :=
  match o with
  | ok a => f a
  | err e => err e
  | panic => panic
  | diverge => diverge

/-- `map`. -/
def map (f : α → β) (o : Outcome E α) : Outcome E β := o.bind fun a => ok (f a)

end Outcome

end GLM
