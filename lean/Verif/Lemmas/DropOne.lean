/-
  What a fit reads of its data set: not the standardizer, and the mark of the intercept only in the
  choice of the penalty.
-/
import Verif.Model.Refit
import Verif.Lemmas.Regression
import Verif.Lemmas.Data

namespace GLM
open Scalar
variable {F : Type} [Scalar F] {n p : ℕ} {b : Bool}

/-- The data set without its standardizer. -/
def Dataset.bare (d : Dataset F n p b) : Dataset F n p b := { d with standardizer := none }

/-- The data set with its first column counted as a feature. -/
def Dataset.unmark (d : Dataset F n p true) : Dataset F n (p + 1) false :=
  { y := d.y, x := d.x, linearOffset := d.linearOffset, weights := d.weights, freqs := d.freqs
    standardizer := none }

theorem nextRaw_bare (env : Env F) (g : Glm F) (d : Dataset F n p b) (tol : F)
    (s : Irls F (ncols b p)) : s.nextRaw env g d.bare tol = s.nextRaw env g d tol := rfl

theorem logLike_unmark (g : Glm F) (d : Dataset F n p true) (v : Vec F (p + 1)) :
    Glm.logLike (b := false) (p := p + 1) g d.unmark v = Glm.logLike (b := true) (p := p) g d v := by
  rcases d with ⟨y, x, off, w, fr, s⟩
  cases off <;> cases w <;> cases fr <;> rfl

theorem irlsMatVec_unmark (eps : F) (g : Glm F) (d : Dataset F n p true) (v : Vec F (p + 1)) :
    Irls.irlsMatVec (b := false) (p := p + 1) eps g d.unmark v
      = Irls.irlsMatVec (b := true) (p := p) eps g d v := by
  rcases d with ⟨y, x, off, w, fr, s⟩
  cases off <;> cases w <;> cases fr <;> rfl

theorem nextRaw_unmark (env : Env F) (g : Glm F) (d : Dataset F n p true) (tol : F)
    (s : Irls F (p + 1)) :
    Irls.nextRaw (b := false) (p := p + 1) env g d.unmark tol s
      = Irls.nextRaw (b := true) (p := p) env g d tol s := by
  have hf : ∀ reg a c, Irls.fStep (b := false) (p := p + 1) g d.unmark reg a c
      = Irls.fStep (b := true) (p := p) g d reg a c := by
    intro reg a c
    funext x
    exact congrArg (· + _) (logLike_unmark g d _)
  unfold Irls.nextRaw
  simp only [logLike_unmark, irlsMatVec_unmark, hf]
  cases s.done
  case true => rfl
  generalize Irls.irlsMatVec (b := true) (p := p) env.eps g d s.guess = mv
  rcases mv with ⟨m, v⟩
  generalize Reg.nextGuess env s.reg s.guess v m = ng
  rcases ng with ⟨reg, _ | nxt⟩
  · rfl
  · dsimp only

theorem fitLoop_bare (env : Env F) (g : Glm F) (d : Dataset F n p b)
    (options : FitOptions F (ncols b p)) (s : Irls F (ncols b p))
    (best : Option (IrlsStep F (ncols b p))) :
    fitLoop env g d.bare options s best = fitLoop env g d options s best := by
  refine fitLoop_ind env g d options (motive := fun s best =>
    fitLoop env g d.bare options s best = fitLoop env g d options s best) ?_ s best
  intro s best ih
  rw [fitLoop_eq, fitLoop_eq, nextRaw_bare]
  cases hr : s.nextRaw env g d options.tol with
  | cand s' v l =>
    dsimp only
    split
    · rfl
    · exact ih s' v l hr (by omega)
  | _ => rfl

theorem fitLoop_unmark (env : Env F) (g : Glm F) (d : Dataset F n p true)
    (options : FitOptions F (p + 1)) (s : Irls F (p + 1)) (best : Option (IrlsStep F (p + 1))) :
    fitLoop (b := false) (p := p + 1) env g d.unmark options s best
      = fitLoop (b := true) (p := p) env g d options s best := by
  refine fitLoop_ind (b := true) (p := p) env g d options (motive := fun s best =>
    fitLoop (b := false) (p := p + 1) env g d.unmark options s best
      = fitLoop (b := true) (p := p) env g d options s best) ?_ s best
  intro s best ih
  rw [fitLoop_eq, fitLoop_eq, nextRaw_unmark]
  cases hr : Irls.nextRaw (b := true) (p := p) env g d options.tol s with
  | cand s' v l =>
    dsimp only
    split
    · rfl
    · exact ih s' v l hr (by omega)
  | _ => rfl

/-- The deviance of a fit, if there is one. -/
def fitDeviance (env : Env F) (g : Glm F) (d : Dataset F n p b) (options : FitOptions F (ncols b p)) :
    Outcome (FitError F (ncols b p)) F := (regression env g d options).map Fit.deviance

theorem reducedDeviance_eq (env : Env F) (g : Glm F) (d : Dataset F n p b)
    (options : FitOptions F (ncols b p)) :
    Fit.reducedDeviance env g d options = (fitDeviance env g d options).mapErr fun e => ⟨_, e⟩ := rfl

/-- The deviance of the fit does not depend on the standardizer, apart from the reading of the
starting point. -/
theorem fitDeviance_bare (env : Env F) (g : Glm F) (d : Dataset F n p b)
    (options options' : FitOptions F (ncols b p))
    (ho : options'.maxIter = options.maxIter ∧ options'.tol = options.tol ∧ options'.l1 = options.l1 ∧
      options'.l2 = options.l2)
    (hi : initialGuess env g d.bare options' = initialGuess env g d options) :
    fitDeviance env g d.bare options' = fitDeviance env g d options := by
  have hreg : getReg options' = getReg options := by
    unfold getReg; rw [ho.2.2.1, ho.2.2.2]
  have hloop : ∀ s best, fitLoop env g d.bare options' s best = fitLoop env g d options s best := by
    intro s best
    refine fitLoop_ind env g d options (motive := fun s best =>
      fitLoop env g d.bare options' s best = fitLoop env g d options s best) ?_ s best
    intro s best ih
    rw [fitLoop_eq, fitLoop_eq, nextRaw_bare, ho.1, ho.2.1]
    cases hr : s.nextRaw env g d options.tol with
    | cand s' v l =>
      dsimp only
      split
      · rfl
      · exact ih s' v l hr (by omega)
    | _ => rfl
  unfold fitDeviance
  rw [regression_eq, regression_eq, hi]
  have hn : Irls.new g d.bare (initialGuess env g d options) options'
      = Irls.new g d (initialGuess env g d options) options := by
    unfold Irls.new; rw [hreg]; rfl
  rw [hn, hloop]
  split <;> rfl

/-- Without a penalty the mark of the intercept has no effect. -/
theorem fitDeviance_unmark (env : Env F) (g : Glm F) (d : Dataset F n p true)
    (options : FitOptions F (p + 1)) (h1 : gt options.l1 0 = false) (h2 : gt options.l2 0 = false)
    (hi : initialGuess (b := false) (p := p + 1) env g d.unmark options
      = initialGuess (b := true) (p := p) env g d options) :
    fitDeviance (b := false) (p := p + 1) env g d.unmark options
      = fitDeviance (b := true) (p := p) env g d options := by
  have hr : getReg (b := false) (p := p + 1) options = .null := by
    unfold getReg; simp [h1, h2]
  have hr' : getReg (b := true) (p := p) options = .null := by
    unfold getReg; simp [h1, h2]
  unfold fitDeviance
  rw [regression_eq, regression_eq, hi]
  have hn : Irls.new (b := false) (p := p + 1) g d.unmark
        (initialGuess (b := true) (p := p) env g d options) options
      = Irls.new (b := true) (p := p) g d (initialGuess (b := true) (p := p) env g d options) options := by
    unfold Irls.new; rw [hr, hr']; rfl
  rw [hn, fitLoop_unmark]
  generalize fitLoop (b := true) (p := p) env g d options
    (Irls.new (b := true) (p := p) g d (initialGuess (b := true) (p := p) env g d options) options)
    none = r
  rcases r with ⟨_ | _, _⟩ <;> rfl

end GLM
