/-
  C52: the setters of the fit options.
-/
import Verif.Model.Build

namespace GLM
namespace Spec
variable {F : Type}

/-- The values passed to `max_iter`, in order. -/
def maxIters (calls : List (OptCall F)) : List ℕ :=
  calls.filterMap fun c => match c with | .maxIter k => some k | _ => none
/-- The values passed to `tol`, in order. -/
def tols (calls : List (OptCall F)) : List F :=
  calls.filterMap fun c => match c with | .tol t => some t | _ => none
/-- The values passed to `l2_reg`, in order. -/
def l2s (calls : List (OptCall F)) : List F :=
  calls.filterMap fun c => match c with | .l2Reg t => some t | _ => none
/-- The values passed to `l1_reg`, in order. -/
def l1s (calls : List (OptCall F)) : List F :=
  calls.filterMap fun c => match c with | .l1Reg t => some t | _ => none

end Spec
open Spec

variable {F : Type} [Scalar F] {n p : ℕ} {b : Bool} {env : Env F} {g : Glm F} {d : Dataset F n p b}

/-- The options in force after a chain of setters. -/
def Spec.settled {k : ℕ} (o : FitOptions F k) (calls : List (OptCall F)) : FitOptions F k :=
  { maxIter := (maxIters calls).getLast?.getD o.maxIter
    tol := (tols calls).getLast?.getD o.tol
    l2 := (l2s calls).getLast?.getD o.l2
    l1 := (l1s calls).getLast?.getD o.l1
    initGuess := o.initGuess }

omit [Scalar F] in
private theorem getLast?_cons_getD {α : Type} (a : α) (l : List α) (o : α) :
    (a :: l).getLast?.getD o = l.getLast?.getD a := by
  rw [List.getLast?_cons]
  cases l.getLast? <;> rfl

omit [Scalar F] in
theorem foldl_optCall {k : ℕ} (o : FitOptions F k) (calls : List (OptCall F)) :
    calls.foldl FitOptions.call o = settled o calls := by
  induction calls generalizing o with
  | nil => rfl
  | cons c cs ih =>
    rw [List.foldl_cons, ih]
    cases c
    case maxIter m =>
      have := getLast?_cons_getD m (maxIters cs) o.maxIter
      exact congrArg (fun z => { settled o cs with maxIter := z }) this.symm
    case tol m =>
      have := getLast?_cons_getD m (tols cs) o.tol
      exact congrArg (fun z => { settled o cs with tol := z }) this.symm
    case l2Reg m =>
      have := getLast?_cons_getD m (l2s cs) o.l2
      exact congrArg (fun z => { settled o cs with l2 := z }) this.symm
    case l1Reg m =>
      have := getLast?_cons_getD m (l1s cs) o.l1
      exact congrArg (fun z => { settled o cs with l1 := z }) this.symm

/-- **C52**: a chain of setters followed by `fit()` is the regression in which each option has the
value given last, or that of the options it started from.  For every arithmetic. -/
theorem C52_last_wins (o : FitOptions F (ncols b p)) (calls : List (OptCall F)) :
    fitWith env g d o calls = regression env g d
      { maxIter := (maxIters calls).getLast?.getD o.maxIter
        tol := (tols calls).getLast?.getD o.tol
        l2 := (l2s calls).getLast?.getD o.l2
        l1 := (l1s calls).getLast?.getD o.l1
        initGuess := o.initGuess } := by
  unfold fitWith
  rw [foldl_optCall]
  rfl

/-- **C52**: `fit_options()` starts from at most 128 iterations, the tolerance of the float type, no
penalty and no initial guess; `fit()` is `fit_options().fit()`. -/
theorem C52_default (calls : List (OptCall F)) :
    fitOptions env g d calls = regression env g d
      { maxIter := (maxIters calls).getLast?.getD 128
        tol := (tols calls).getLast?.getD env.eps
        l2 := (l2s calls).getLast?.getD 0
        l1 := (l1s calls).getLast?.getD 0
        initGuess := none } := C52_last_wins _ _

/-- **C52**: setters of different options commute: only the order of the calls for the same option
matters. -/
theorem C52_commute (o : FitOptions F (ncols b p)) {calls calls' : List (OptCall F)}
    (h1 : maxIters calls = maxIters calls') (h2 : tols calls = tols calls')
    (h3 : l2s calls = l2s calls') (h4 : l1s calls = l1s calls') :
    fitWith env g d o calls = fitWith env g d o calls' := by
  rw [C52_last_wins, C52_last_wins, h1, h2, h3, h4]

/-- **C52**: adjacent setters of different options can be swapped anywhere in a chain. -/
theorem C52_swap (o : FitOptions F (ncols b p)) (pre post : List (OptCall F)) {c c' : OptCall F}
    (h : c.ctorIdx ≠ c'.ctorIdx) :
    fitWith env g d o (pre ++ c :: c' :: post) = fitWith env g d o (pre ++ c' :: c :: post) := by
  refine C52_commute o ?_ ?_ ?_ ?_ <;>
    simp only [maxIters, tols, l2s, l1s, List.filterMap_append] <;>
    cases c <;> cases c' <;> first | rfl | exact absurd rfl h

/-- The default options with a chain of five setters. -/
example : (fitOptions env g d [.l2Reg 1, .maxIter 7, .l2Reg 0, .tol 1, .maxIter 9]) =
    regression env g d
      { maxIter := 9, tol := 1, l2 := 0, l1 := 0, initGuess := none } := C52_default _

end GLM
