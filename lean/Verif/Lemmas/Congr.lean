/-
  Two fits take the same course when their iteration equations, likelihoods and starts agree.
-/
import Verif.Lemmas.Regression

namespace GLM
open Scalar
variable {F : Type} [Scalar F] {n m p : ℕ} {b : Bool}
variable {env : Env F} {g g' : Glm F} {d : Dataset F n p b} {d' : Dataset F m p b}
  {o o' : FitOptions F (ncols b p)}

theorem nextRaw_congr {tol : F}
    (hM : ∀ γ, Irls.irlsMatVec env.eps g' d' γ = Irls.irlsMatVec env.eps g d γ)
    (hL : ∀ γ, g'.logLike d' γ = g.logLike d γ) (hn : m = n) (s : Irls F (ncols b p)) :
    s.nextRaw env g' d' tol = s.nextRaw env g d tol := by
  subst hn
  have hf : ∀ r a c, Irls.fStep g' d' r a c = Irls.fStep g d r a c := by
    intro r a c; funext x; simp only [Irls.fStep, hL]
  unfold Irls.nextRaw
  simp only [hM, hL, hf]

theorem fitLoop_congr
    (hM : ∀ γ, Irls.irlsMatVec env.eps g' d' γ = Irls.irlsMatVec env.eps g d γ)
    (hL : ∀ γ, g'.logLike d' γ = g.logLike d γ) (hn : m = n) (ht : o'.tol = o.tol)
    (hi : o'.maxIter = o.maxIter) (s : Irls F (ncols b p)) (best : Option (IrlsStep F (ncols b p))) :
    fitLoop env g' d' o' s best = fitLoop env g d o s best := by
  refine fitLoop_ind env g d o (motive := fun s best =>
    fitLoop env g' d' o' s best = fitLoop env g d o s best) ?_ s best
  intro s best ih
  rw [fitLoop_eq, fitLoop_eq, ht, nextRaw_congr hM hL hn, hi]
  split
  · rfl
  · rfl
  · rfl
  · rename_i hr
    split
    · rfl
    · rename_i hle
      exact ih _ _ _ hr (not_lt.mp hle)

theorem regressionCore_congr
    (hM : ∀ γ, Irls.irlsMatVec env.eps g' d' γ = Irls.irlsMatVec env.eps g d γ)
    (hL : ∀ γ, g'.logLike d' γ = g.logLike d γ) (hn : m = n) (ht : o'.tol = o.tol)
    (hi : o'.maxIter = o.maxIter) (h1 : o'.l1 = o.l1) (h2 : o'.l2 = o.l2)
    (h0 : initialGuess env g' d' o' = initialGuess env g d o) :
    regressionCore env g' d' o' = regressionCore env g d o := by
  have hr : getReg o' = getReg o := by simp only [getReg, h1, h2]
  unfold regressionCore
  dsimp only
  rw [fitLoop_congr hM hL hn ht hi, h0]
  simp only [Irls.new, hL, hr]

end GLM
