/-
  The IRLS iterator, src/irls.rs, and `Glm::regression`, src/glm.rs:159-185.
-/
import Verif.Model.Glm
import Verif.Model.Regularization

namespace GLM
open Scalar

/-- `struct FitOptions`, src/fit/options.rs:63-76. -/
structure FitOptions (F : Type) (k : ℕ) where
  maxIter : ℕ
  tol : F
  l2 : F
  l1 : F
  initGuess : Option (Vec F k)

/-- `struct IrlsStep`, src/irls.rs:169-177. -/
structure IrlsStep (F : Type) (k : ℕ) where
  guess : Vec F k
  like : F

/-- The errors of `RegressionError` (src/error.rs:8-25) that fitting can produce. -/
inductive FitError (F : Type) (k : ℕ) where
  | linalg
  | maxIter (nIter : ℕ) (history : List (IrlsStep F k))

/-- `struct Irls`, src/irls.rs:18-49, without the references to the data and options, which are
passed separately and never change. -/
structure Irls (F : Type) (k : ℕ) where
  guess : Vec F k
  reg : Reg F k
  nIter : ℕ
  lastLikeData : F
  done : Bool
  history : List (IrlsStep F k)

section
variable {F : Type} [Scalar F] {n p k : ℕ} {b : Bool}

/-- `zero_first_maybe`, src/irls.rs:304-314.  With an intercept there is at least one column, so
the indexing cannot panic. -/
def zeroFirstMaybe : {b : Bool} → Vec F (ncols b p) → Vec F (ncols b p)
  | true, l => Fin.cons 0 (Fin.tail l)
  | false, l => l

/-- `get_reg`, src/irls.rs:317-345 (the warning on negative parameters has no other effect). -/
def getReg (options : FitOptions F (ncols b p)) : Reg F (ncols b p) :=
  let useL1 := gt options.l1 0
  let useL2 := gt options.l2 0
  if useL1 && useL2 then
    .elastic (zeroFirstMaybe (vfill options.l1)) (zeroFirstMaybe (vfill options.l2)) Admm.init
  else if useL2 then
    .ridge (zeroFirstMaybe (vfill options.l2))
  else if useL1 then
    .lasso (zeroFirstMaybe (vfill options.l1)) Admm.init
  else .null

/-- `small_delta`, src/irls.rs:280-285. -/
def smallDelta (new old tol : F) : Bool := le (abs (new - old)) tol

/-- `small_delta_vec`, src/irls.rs:287-301. -/
def smallDeltaVec (new old : Vec F k) (tol : F) : Bool :=
  let delta := vsub new old
  let n : F := ofNat k
  let new2 := vsum fun j => new j * new j
  let delta2 := vsum fun j => delta j * delta j
  le delta2 ((n + new2) * tol * tol)

/-- `Array1::eq`: all elements equal under the scalar's `==`. -/
def vecEq (a c : Vec F k) : Bool := (List.finRange k).all fun j => eq (a j) (c j)

/-- The constant of `step_scale`, src/irls.rs:360. -/
def goldenScale : F := lit 618033988749894 15

/-- The `while` loop of `step_scale`, src/irls.rs:365-371, from the current value of `x`.
`none` = out of fuel (still running); `some (some x)` = returned `x`;
`some none` = loop condition failed. -/
def stepScaleLoop (f : F → F) (f0 tol : F) : ℕ → F → Option (Option F)
  | 0, _ => none
  | fuel + 1, x =>
    if gt x tol then
      let x := x * goldenScale
      if gt (f x) f0 then some (some x) else stepScaleLoop f f0 tol fuel x
    else some none

/-- `step_scale`, src/irls.rs:351-385.  `none` = the loop did not finish within the fuel. -/
def stepScale (fuel : ℕ) (f : F → F) (tol : F) : Option F :=
  let tol := abs tol
  let f0 := f 0
  match stepScaleLoop f f0 tol fuel 1 with
  | none => none
  | some (some x) => some x
  | some none => if gt (f (-goldenScale)) f0 then some (-goldenScale) else some 0

/-- One value produced by `Iterator::next`: `None`, `Some(Ok(step))`, `Some(Err(e))`; or the
call does not return. -/
inductive NextRes (F : Type) (k : ℕ) where
  | stop
  | step (s : IrlsStep F k)
  | fail (e : FitError F k)
  | diverge

namespace Irls

/-- `Irls::new`, src/irls.rs:57-72. -/
def new (g : Glm F) (data : Dataset F n p b) (initial : Vec F (ncols b p))
    (options : FitOptions F (ncols b p)) : Irls F (ncols b p) :=
  { guess := initial
    reg := getReg options
    nIter := 0
    lastLikeData := g.logLike data initial
    done := false
    history := [] }

/-- `step_with`, src/irls.rs:76-93. -/
def stepWith (maxIter : ℕ) (s : Irls F k) (nextGuess : Vec F k) (nextLikeData : F) :
    NextRes F k × Irls F k :=
  let modelLike := nextLikeData + s.reg.likelihood nextGuess
  let step : IrlsStep F k := { guess := nextGuess, like := modelLike }
  let s := { s with
    guess := nextGuess
    lastLikeData := nextLikeData
    history := s.history ++ [step]
    nIter := s.nIter + 1 }
  if s.nIter > maxIter then (.fail (.maxIter maxIter s.history), s) else (.step step, s)

/-- `irls_mat_vec`, src/irls.rs:100-151, as a function of the current guess. -/
def irlsMatVec (eps : F) (g : Glm F) (data : Dataset F n p b) (guess : Vec F (ncols b p)) :
    Mat F (ncols b p) (ncols b p) × Vec F (ncols b p) :=
  let linPredNoControl := data.x.dotV guess
  let linPred : Vec F n := match data.linearOffset with
    | some off => vadd linPredNoControl off
    | none => linPredNoControl
  let predictor := g.mean linPred
  let varDiag : Vec F n := fun i => g.variance (predictor i)
  let errors : Vec F n := vsub data.y predictor
  let adj : Fin n → F × F := fun i => g.link.adjustErrorsVariance (errors i) (varDiag i) (linPred i)
  let errors : Vec F n := fun i => (adj i).1
  let varDiag : Vec F n := fun i => (adj i).2 + eps
  let xc := data.xConj
  let negHessian := Mat.dotM (fun j i => xc j i * varDiag i) data.x
  let target : Vec F n := fun i => varDiag i * linPredNoControl i + errors i
  let rhs := xc.dotV target
  (negHessian, rhs)

/-- The closure `f_step`, src/irls.rs:249-260. -/
def fStep (g : Glm F) (data : Dataset F n p b) (reg : Reg F (ncols b p))
    (guess nextGuess : Vec F (ncols b p)) (x : F) : F :=
  let c : Vec F (ncols b p) := fun j => nextGuess j * x + guess j * (1 - x)
  g.logLike data c + reg.likelihood c

/-- `Iterator::next`, src/irls.rs:188-277. -/
def next (env : Env F) (g : Glm F) (data : Dataset F n p b) (options : FitOptions F (ncols b p))
    (s : Irls F (ncols b p)) : NextRes F (ncols b p) × Irls F (ncols b p) :=
  if s.done then (.stop, s)
  else
    let mv := irlsMatVec env.eps g data s.guess
    let ng := s.reg.nextGuess env s.guess mv.2 mv.1
    let s := { s with reg := ng.1 }
    match ng.2 with
    | .error _ => (.fail .linalg, s)
    | .ok nextGuess =>
      let nextLikeData := g.logLike data nextGuess
      let lastLikeObj := s.lastLikeData + s.reg.irlsLike s.guess
      let nextLikeObj := nextLikeData + s.reg.irlsLike nextGuess
      if !s.reg.terminateOk options.tol then s.stepWith options.maxIter nextGuess nextLikeData
      else if vecEq nextGuess s.guess then (.stop, s)
      else
        let nObs : F := ofNat n
        let s := if smallDelta nextLikeObj lastLikeObj (options.tol * nObs)
            && smallDeltaVec nextGuess s.guess options.tol then { s with done := true } else s
        if gt nextLikeObj lastLikeObj then s.stepWith options.maxIter nextGuess nextLikeData
        else
          let f := fStep g data s.reg s.guess nextGuess
          let betaTolFactor := sqrt (vsum fun j => 1 + s.guess j * s.guess j)
          match stepScale env.fuel f (betaTolFactor * options.tol) with
          | none => (.diverge, s)
          | some stepMult =>
            if eq stepMult 0 then (.stop, s)
            else
              let nextGuess' : Vec F (ncols b p) :=
                fun j => nextGuess j * stepMult + s.guess j * (1 - stepMult)
              s.stepWith options.maxIter nextGuess' (g.logLike data nextGuess')

/-- `make_last_step`, src/irls.rs:157-165. -/
def makeLastStep (s : Irls F k) : IrlsStep F k :=
  { guess := s.guess, like := s.lastLikeData + s.reg.likelihood s.guess }

/-- A step returned by `step_with` counts one iteration and is within the budget. -/
theorem stepWith_step {maxIter : ℕ} {s s' : Irls F k} {v : Vec F k} {l : F} {st : IrlsStep F k}
    (h : s.stepWith maxIter v l = (.step st, s')) :
    s'.nIter = s.nIter + 1 ∧ s'.nIter ≤ maxIter := by
  unfold stepWith at h
  dsimp only at h
  split at h
  · simp at h
  · rename_i hle
    simp only [Prod.mk.injEq] at h
    obtain ⟨-, rfl⟩ := h
    exact ⟨rfl, not_lt.mp hle⟩

/-- A successful `next` counts one iteration and is within the budget (needed for the
termination of the fitting loop). -/
theorem next_step {env : Env F} {g : Glm F} {data : Dataset F n p b}
    {options : FitOptions F (ncols b p)} {s s' : Irls F (ncols b p)} {st : IrlsStep F (ncols b p)}
    (h : s.next env g data options = (.step st, s')) :
    s'.nIter = s.nIter + 1 ∧ s'.nIter ≤ options.maxIter := by
  unfold next at h
  split at h
  · simp at h
  · dsimp only at h
    split at h
    · simp at h
    · split at h
      · simpa using stepWith_step h
      · split at h
        · simp at h
        · split at h
          · have := stepWith_step h
            revert this
            split <;> exact id
          · split at h
            · simp at h
            · split at h
              · simp at h
              · have := stepWith_step h
                revert this
                split <;> exact id

end Irls

/-- The comparison `a.like.total_cmp(&b.like)` inside `Iterator::max_by`: keep the earlier
element only if it is strictly greater (src/glm.rs:180 and the standard library's `max_by`). -/
def maxByLike (best? : Option (IrlsStep F k)) (st : IrlsStep F k) : IrlsStep F k :=
  match best? with
  | none => st
  | some best => match totalCmp best.like st.like with
    | .gt => best
    | _ => st

/-- `process_results(irls.by_ref(), |iter| iter.max_by(..))`, src/glm.rs:179-181: pull steps until
the iterator stops or fails, keeping the best.  The recursion is well-founded because of the
iteration budget. -/
def fitLoop (env : Env F) (g : Glm F) (data : Dataset F n p b) (options : FitOptions F (ncols b p))
    (s : Irls F (ncols b p)) (best? : Option (IrlsStep F (ncols b p))) :
    Outcome (FitError F (ncols b p)) (Option (IrlsStep F (ncols b p)) × Irls F (ncols b p)) :=
  match _h : s.next env g data options with
  | (.stop, s') => .ok (best?, s')
  | (.fail e, _) => .err e
  | (.diverge, _) => .diverge
  | (.step st, s') => fitLoop env g data options s' (some (maxByLike best? st))
termination_by options.maxIter - s.nIter
decreasing_by
  have := Irls.next_step _h
  omega

/-- The starting point chosen by `regression`, src/glm.rs:167-173. -/
def initialGuess (env : Env F) (g : Glm F) (data : Dataset F n p b)
    (options : FitOptions F (ncols b p)) : Vec F (ncols b p) :=
  match options.initGuess with
  | some beta => data.transformBeta beta
  | none => g.initGuess env data

/-- `regression`, src/glm.rs:159-185, up to the construction of the `Fit` object: returns the
optimum (on the internal scale) and the final iterator state. -/
def regressionCore (env : Env F) (g : Glm F) (data : Dataset F n p b)
    (options : FitOptions F (ncols b p)) :
    Outcome (FitError F (ncols b p)) (IrlsStep F (ncols b p) × Irls F (ncols b p)) :=
  let irls := Irls.new g data (initialGuess env g data options) options
  (fitLoop env g data options irls none).map fun r => (r.1.getD r.2.makeLastStep, r.2)

end

end GLM
