/-
  Two fits whose design matrices have the same columns, numbered differently, take the same course.
-/
import Verif.Spec.Features
import Verif.Spec.Strict
import Verif.Lemmas.Regression
import Verif.Lemmas.Stats

namespace GLM
open Scalar Spec
variable {n p p' k k' : ℕ} {b b' : Bool}

section
variable (τ : Fin k' ≃ Fin k)

def Admm.reorder (st : Admm ℝ k) : Admm ℝ k' :=
  { dual := fun j => st.dual (τ j), cumRes := fun j => st.cumRes (τ j), rho := st.rho
    rSq := st.rSq, sSq := st.sSq }

def Reg.reorder : Reg ℝ k → Reg ℝ k'
  | .null => .null
  | .ridge l2 => .ridge fun j => l2 (τ j)
  | .lasso l1 st => .lasso (fun j => l1 (τ j)) (st.reorder τ)
  | .elastic l1 l2 st => .elastic (fun j => l1 (τ j)) (fun j => l2 (τ j)) (st.reorder τ)

def Irls.reorder (s : Irls ℝ k) : Irls ℝ k' :=
  { guess := fun j => s.guess (τ j), reg := s.reg.reorder τ, nIter := s.nIter
    lastLikeData := s.lastLikeData, done := s.done, history := s.history.map (reorderStep τ) }

def RawNext.reorder : RawNext ℝ k → RawNext ℝ k'
  | .stop s => .stop (s.reorder τ)
  | .linalg s => .linalg (s.reorder τ)
  | .diverge s => .diverge (s.reorder τ)
  | .cand s v l => .cand (s.reorder τ) (fun j => v (τ j)) l

def FitError.reorder : FitError ℝ k → FitError ℝ k'
  | .linalg => .linalg
  | .maxIter m h => .maxIter m (h.map (reorderStep τ))

theorem FitError.reorder_same (e : FitError ℝ k) : SameError τ e (e.reorder τ) := by
  cases e
  · exact .linalg
  · exact .maxIter _ _

theorem vsum_reorder (f : Fin k → ℝ) : vsum (fun j => f (τ j)) = vsum f := by
  rw [vsum_real, vsum_real]; exact Equiv.sum_comp τ f

theorem vdotBy_reorder {s s' : SumSite} (u v : Fin k → ℝ) :
    vdotBy s (fun j => u (τ j)) (fun j => v (τ j)) = vdotBy s' u v := by
  rw [vdotBy_real, vdotBy_real]; exact Equiv.sum_comp τ fun j => u j * v j

include τ in
theorem card_reorder : k' = k := by simpa using Fintype.card_congr τ

theorem Mat.reorder_addDiag (m : Mat ℝ k k) (v : Vec ℝ k) :
    Mat.addDiag (fun i j => m (τ i) (τ j)) (fun j => v (τ j))
      = fun i j => (m.addDiag v) (τ i) (τ j) := by
  funext i j
  simp only [Mat.addDiag, τ.injective.eq_iff]

theorem Admm.reorder_updateRho (st : Admm ℝ k) :
    (st.reorder τ).updateRho = st.updateRho.reorder τ := by
  obtain ⟨du, cu, rho, r, s⟩ := st
  cases r with
  | none => rfl
  | some r => cases s with
    | none => rfl
    | some s =>
      simp only [updateRho, reorder]
      split <;> split <;> rfl

theorem Admm.reorder_prepare (l1 : Vec ℝ k) (st : Admm ℝ k) (β : Vec ℝ k) :
    (st.reorder τ).prepare (fun j => l1 (τ j)) (fun j => β (τ j))
      = (st.prepare l1 β).reorder τ := by
  simp only [prepare, reorder_updateRho]
  generalize st.updateRho = st
  simp only [reorder, Admm.mk.injEq, Option.some.injEq, true_and]
  exact ⟨vsum_reorder τ fun j => (β j - softThresh (β j + st.cumRes j) (l1 j / st.rho))
      * (β j - softThresh (β j + st.cumRes j) (l1 j / st.rho)),
    vsum_reorder τ fun j => (softThresh (β j + st.cumRes j) (l1 j / st.rho) - st.dual j) * st.rho
      * ((softThresh (β j + st.cumRes j) (l1 j / st.rho) - st.dual j) * st.rho)⟩

theorem Admm.reorder_augment (st : Admm ℝ k) (β : Vec ℝ k) :
    (st.reorder τ).augment (fun j => β (τ j)) = st.augment β := by
  simp only [augment, reorder]
  rw [vsum_reorder τ fun j => (β j - st.dual j + st.cumRes j) * (β j - st.dual j + st.cumRes j)]

theorem Admm.reorder_terminateOk (st : Admm ℝ k) (tol : ℝ) :
    (st.reorder τ).terminateOk tol = st.terminateOk tol := by
  simp only [terminateOk, reorder, card_reorder τ]

theorem sumL2_reorder (l2 β : Vec ℝ k) :
    sumL2 (fun j => l2 (τ j)) (fun j => β (τ j)) = sumL2 l2 β :=
  vsum_reorder τ fun j => l2 j * (β j * β j)

theorem sumL1_reorder (l1 β : Vec ℝ k) :
    sumL1 (fun j => l1 (τ j)) (fun j => β (τ j)) = sumL1 l1 β :=
  vsum_reorder τ fun j => l1 j * Scalar.abs (β j)

namespace Reg

theorem reorder_likelihood (r : Reg ℝ k) (β : Vec ℝ k) :
    (r.reorder τ).likelihood (fun j => β (τ j)) = r.likelihood β := by
  cases r <;> simp only [likelihood, reorder, sumL1_reorder, sumL2_reorder]

theorem reorder_gradient (r : Reg ℝ k) (jac β : Vec ℝ k) :
    (r.reorder τ).gradient (fun j => jac (τ j)) (fun j => β (τ j))
      = fun j => r.gradient jac β (τ j) := by
  cases r <;> rfl

theorem reorder_prepare (r : Reg ℝ k) (β : Vec ℝ k) :
    (r.reorder τ).prepare (fun j => β (τ j)) = (r.prepare β).reorder τ := by
  cases r <;> simp only [prepare, reorder, Admm.reorder_prepare]

theorem reorder_irlsLike (r : Reg ℝ k) (β : Vec ℝ k) :
    (r.reorder τ).irlsLike (fun j => β (τ j)) = r.irlsLike β := by
  cases r <;> simp only [irlsLike, reorder, Admm.reorder_augment, sumL2_reorder]

theorem reorder_irlsVec (r : Reg ℝ k) (v w : Vec ℝ k) (w' : Vec ℝ k') :
    (r.reorder τ).irlsVec (fun j => v (τ j)) w' = fun j => r.irlsVec v w (τ j) := by
  cases r <;> rfl

theorem reorder_irlsMat (r : Reg ℝ k) (m : Mat ℝ k k) (w : Vec ℝ k) (w' : Vec ℝ k') :
    (r.reorder τ).irlsMat (fun i j => m (τ i) (τ j)) w' = fun i j => r.irlsMat m w (τ i) (τ j) := by
  have hv : ∀ a : ℝ, (vfill a : Vec ℝ k') = fun j => (vfill a : Vec ℝ k) (τ j) := fun _ => rfl
  cases r <;> simp only [irlsMat, reorder, Admm.reorder, hv, Mat.reorder_addDiag]

theorem reorder_terminateOk (r : Reg ℝ k) (tol : ℝ) :
    (r.reorder τ).terminateOk tol = r.terminateOk tol := by
  cases r <;> simp only [terminateOk, reorder, Admm.reorder_terminateOk]

theorem reorder_nextGuess {env : Env ℝ} (he : OrderFree τ env) (r : Reg ℝ k) (β v : Vec ℝ k)
    (m : Mat ℝ k k) :
    (r.reorder τ).nextGuess env (fun j => β (τ j)) (fun j => v (τ j)) (fun i j => m (τ i) (τ j))
      = ((r.nextGuess env β v m).1.reorder τ,
          (r.nextGuess env β v m).2.map fun x j => x (τ j)) := by
  simp only [nextGuess, reorder_prepare]
  rw [reorder_irlsMat τ _ m β, reorder_irlsVec τ _ v β, he.solveh]

end Reg

theorem vecEq_reorder (u v : Vec ℝ k) :
    vecEq (fun j => u (τ j)) (fun j => v (τ j)) = vecEq u v := by
  rw [Bool.eq_iff_iff]
  simp only [vecEq, List.all_eq_true, List.mem_finRange, forall_true_left]
  exact ⟨fun h j => by simpa using h (τ.symm j), fun h j => h _⟩

theorem smallDeltaVec_reorder (u v : Vec ℝ k) (tol : ℝ) :
    smallDeltaVec (fun j => u (τ j)) (fun j => v (τ j)) tol = smallDeltaVec u v tol := by
  simp only [smallDeltaVec, card_reorder τ]
  rw [vsum_reorder τ fun j => u j * u j]
  have := vsum_reorder τ fun j => vsub u v j * vsub u v j
  simp only [vsub] at this ⊢
  rw [this]

theorem Irls.reorder_candStep (s : Irls ℝ k) (v : Vec ℝ k) (l : ℝ) :
    (s.reorder τ).candStep (fun j => v (τ j)) l = reorderStep τ (s.candStep v l) := by
  have h : (s.reorder τ).reg = s.reg.reorder τ := rfl
  simp only [candStep, h, Reg.reorder_likelihood, reorderStep]

theorem Irls.reorder_candState (s : Irls ℝ k) (v : Vec ℝ k) (l : ℝ) :
    (s.reorder τ).candState (fun j => v (τ j)) l = (s.candState v l).reorder τ := by
  have h : (s.reorder τ).history = s.history.map (reorderStep τ) := rfl
  simp only [candState, reorder_candStep, h]
  simp only [Irls.reorder, List.map_append, List.map_cons, List.map_nil]

theorem maxByLike_reorder (best? : Option (IrlsStep ℝ k)) (st : IrlsStep ℝ k) :
    maxByLike (best?.map (reorderStep τ)) (reorderStep τ st) = reorderStep τ (maxByLike best? st) := by
  cases best? with
  | none => rfl
  | some best =>
    simp only [maxByLike, Option.map_some, reorderStep]
    cases totalCmp best.like st.like <;> rfl

end

/-- The same observations; column `j` of `d'` is column `τ j` of `d`. -/
structure Relabels (τ : Fin (ncols b' p') ≃ Fin (ncols b p)) (d : Dataset ℝ n p b)
    (d' : Dataset ℝ n p' b') : Prop where
  y : d'.y = d.y
  x : ∀ i j, d'.x i j = d.x i (τ j)
  offset : d'.linearOffset = d.linearOffset
  weights : d'.weights = d.weights
  freqs : d'.freqs = d.freqs

namespace Relabels
variable {τ : Fin (ncols b' p') ≃ Fin (ncols b p)} {d : Dataset ℝ n p b} {d' : Dataset ℝ n p' b'}
  (h : Relabels τ d d')
include h

theorem dotV (γ : Vec ℝ (ncols b p)) : d'.x.dotV (fun j => γ (τ j)) = d.x.dotV γ := by
  funext i
  simp only [Mat.dotV, vdotBy_real, h.x]
  exact Equiv.sum_comp τ fun j => d.x i j * γ j

theorem linPred (γ : Vec ℝ (ncols b p)) :
    d'.linearPredictorStd (fun j => γ (τ j)) = d.linearPredictorStd γ := by
  simp only [Dataset.linearPredictorStd, h.dotV, h.offset]

theorem xConj (j : Fin (ncols b' p')) (i : Fin n) : d'.xConj j i = d.xConj (τ j) i := by
  simp only [Dataset.xConj, Dataset.weightCols, h.freqs, h.weights]
  cases d.freqs <;> cases d.weights <;> simp only [Mat.tr, h.x]

theorem freqW : d'.applyFreqWeights = d.applyFreqWeights := by
  funext v; simp only [Dataset.applyFreqWeights, h.freqs]

theorem varW : d'.applyVarWeights = d.applyVarWeights := by
  funext v; simp only [Dataset.applyVarWeights, h.weights]

theorem totalW : d'.applyTotalWeights = d.applyTotalWeights := by
  funext v; simp only [Dataset.applyTotalWeights, h.freqW, h.varW]

theorem freqSum : d'.freqSum = d.freqSum := by
  funext v; simp only [Dataset.freqSum, h.freqW]

theorem weightedSum : d'.weightedSum = d.weightedSum := by
  funext v; simp only [Dataset.weightedSum, h.freqSum, h.varW]

theorem nObs : d'.nObs = d.nObs := by simp only [Dataset.nObs, h.freqs]

theorem nEff : d'.nEff = d.nEff := by simp only [Dataset.nEff, h.weights, h.nObs, h.freqSum]

theorem sumWeights : d'.sumWeights = d.sumWeights := by
  simp only [Dataset.sumWeights, h.weights, h.nObs, h.freqSum]

theorem logLikeTerms (g : Glm ℝ) (γ : Vec ℝ (ncols b p)) :
    g.logLikeTerms d' (fun j => γ (τ j)) = g.logLikeTerms d γ := by
  simp only [Glm.logLikeTerms, h.linPred, h.y]

theorem logLike (g : Glm ℝ) (γ : Vec ℝ (ncols b p)) :
    g.logLike d' (fun j => γ (τ j)) = g.logLike d γ := by
  simp only [Glm.logLike, h.logLikeTerms, h.totalW]

theorem xConj_dotV (v : Vec ℝ n) : d'.xConj.dotV v = fun j => d.xConj.dotV v (τ j) := by
  funext j
  simp only [Mat.dotV, vdotBy_real, h.xConj]

theorem xConj_dotM (v : Vec ℝ n) : Mat.dotM (fun j i => d'.xConj j i * v i) d'.x
    = fun i j => Mat.dotM (fun j i => d.xConj j i * v i) d.x (τ i) (τ j) := by
  funext i j
  simp only [Mat.dotM, vdotBy_real, h.xConj, h.x]

theorem irlsMatVec (eps : ℝ) (g : Glm ℝ) (γ : Vec ℝ (ncols b p)) :
    Irls.irlsMatVec eps g d' (fun j => γ (τ j))
      = (fun i j => (Irls.irlsMatVec eps g d γ).1 (τ i) (τ j),
          fun j => (Irls.irlsMatVec eps g d γ).2 (τ j)) := by
  simp only [Irls.irlsMatVec, h.dotV, h.offset, h.y, h.xConj_dotV]
  exact congrArg₂ Prod.mk (h.xConj_dotM _) rfl

theorem fStep (g : Glm ℝ) (r : Reg ℝ (ncols b p)) (u v : Vec ℝ (ncols b p)) :
    Irls.fStep g d' (r.reorder τ) (fun j => u (τ j)) (fun j => v (τ j)) = Irls.fStep g d r u v := by
  funext x
  simp only [Irls.fStep]
  rw [h.logLike g fun j => v j * x + u j * (1 - x),
    Reg.reorder_likelihood τ r fun j => v j * x + u j * (1 - x)]

theorem nextRaw {env : Env ℝ} (he : OrderFree τ env) (g : Glm ℝ) (tol : ℝ) (s : Irls ℝ (ncols b p)) :
    (s.reorder τ).nextRaw env g d' tol = (s.nextRaw env g d tol).reorder τ := by
  obtain ⟨gu, reg, ni, ll, dn, hist⟩ := s
  cases dn with
  | true => rfl
  | false =>
    have hng := Reg.reorder_nextGuess τ he reg gu (Irls.irlsMatVec env.eps g d gu).2
      (Irls.irlsMatVec env.eps g d gu).1
    simp only [Irls.nextRaw, Irls.reorder, Bool.false_eq_true, if_false, h.irlsMatVec, hng]
    generalize reg.nextGuess env gu (Irls.irlsMatVec env.eps g d gu).2
      (Irls.irlsMatVec env.eps g d gu).1 = ng
    obtain ⟨r, e⟩ := ng
    cases e with
    | error e => rfl
    | ok v =>
      simp only [Except.map, h.logLike, Reg.reorder_irlsLike, Reg.reorder_terminateOk, vecEq_reorder,
        smallDeltaVec_reorder]
      cases r.terminateOk tol
      · rfl
      · simp only [Bool.not_true, Bool.false_eq_true, if_false]
        cases vecEq v gu
        · simp only [Bool.false_eq_true, if_false]
          have hs1 : ∀ c : Bool, (if c = true then
                (⟨fun j => gu (τ j), r.reorder τ, ni, ll, true, hist.map (reorderStep τ)⟩ : Irls ℝ _)
              else ⟨fun j => gu (τ j), r.reorder τ, ni, ll, false, hist.map (reorderStep τ)⟩)
              = Irls.reorder τ (if c = true then
                (⟨gu, r, ni, ll, true, hist⟩ : Irls ℝ _) else ⟨gu, r, ni, ll, false, hist⟩) := by
            intro c; cases c <;> rfl
          rw [hs1]
          generalize (if (smallDelta (g.logLike d v + r.irlsLike v)
              (ll + r.irlsLike gu) (tol * ofNat n)
              && smallDeltaVec v gu tol) = true then _
            else _ : Irls ℝ (ncols b p)) = s1
          cases gt (g.logLike d v + r.irlsLike v) (ll + r.irlsLike gu)
          · simp only [Bool.false_eq_true, if_false]
            have hfs : Irls.fStep g d' (s1.reorder τ).reg (s1.reorder τ).guess (fun j => v (τ j))
                = Irls.fStep g d s1.reg s1.guess v := h.fStep g s1.reg s1.guess v
            have hsq : (vsum fun j => 1 + (s1.reorder τ).guess j * (s1.reorder τ).guess j)
                = vsum fun j => 1 + s1.guess j * s1.guess j :=
              vsum_reorder τ fun j => 1 + s1.guess j * s1.guess j
            rw [hsq, hfs]
            cases stepScale env.fuel (Irls.fStep g d s1.reg s1.guess v)
                (sqrt (vsum fun j => 1 + s1.guess j * s1.guess j) * tol) with
            | none => rfl
            | some m =>
              have hl := h.logLike g fun j => v j * m + s1.guess j * (1 - m)
              have hg : ∀ j, (s1.reorder τ).guess j = s1.guess (τ j) := fun _ => rfl
              simp only [hg, hl]
              cases eq m 0 <;> rfl
          · rfl
        · rfl

theorem fitLoop {env : Env ℝ} (he : OrderFree τ env) (g : Glm ℝ) {o : FitOptions ℝ (ncols b p)}
    {o' : FitOptions ℝ (ncols b' p')} (ht : o'.tol = o.tol) (hm : o'.maxIter = o.maxIter)
    (s : Irls ℝ (ncols b p)) (best? : Option (IrlsStep ℝ (ncols b p))) :
    fitLoop env g d' o' (s.reorder τ) (best?.map (reorderStep τ))
      = (fitLoop env g d o s best?).mapBoth (FitError.reorder τ)
          fun r => (r.1.map (reorderStep τ), r.2.reorder τ) := by
  refine fitLoop_ind env g d o (motive := fun s best? =>
    GLM.fitLoop env g d' o' (s.reorder τ) (best?.map (reorderStep τ))
      = (GLM.fitLoop env g d o s best?).mapBoth (FitError.reorder τ)
          fun r => (r.1.map (reorderStep τ), r.2.reorder τ)) ?_ s best?
  intro s best? ih
  rw [fitLoop_eq, fitLoop_eq, ht, hm, h.nextRaw he g o.tol s]
  cases hn : s.nextRaw env g d o.tol with
  | stop s' => rfl
  | linalg s' => rfl
  | diverge s' => rfl
  | cand s' v l =>
    have hi : (s'.reorder τ).nIter = s'.nIter := rfl
    have hh : (s'.reorder τ).history = s'.history.map (reorderStep τ) := rfl
    simp only [RawNext.reorder, Irls.reorder_candStep, Irls.reorder_candState, hi, hh]
    by_cases hm : s'.nIter + 1 > o.maxIter
    · rw [if_pos hm, if_pos hm]
      simp [Outcome.mapBoth, FitError.reorder]
    · rw [if_neg hm, if_neg hm, maxByLike_reorder]
      exact ih s' v l hn (not_lt.mp hm)

theorem initGuess {env : Env ℝ} (he : OrderFree τ env) (g : Glm ℝ) :
    g.initGuess env d' = fun j => g.initGuess env d (τ j) := by
  have hM : d'.xConj.dotM d'.x = fun i j => d.xConj.dotM d.x (τ i) (τ j) := by
    funext i j; simp only [Mat.dotM, vdotBy_real, h.xConj, h.x]
  simp only [Glm.initGuess, h.y, h.offset, hM, h.xConj_dotV]
  rw [he.solveh]
  cases env.solveh (d.xConj.dotM d.x) _ <;> rfl

theorem regressionCore {env : Env ℝ} (he : OrderFree τ env) (g : Glm ℝ)
    {o : FitOptions ℝ (ncols b p)} {o' : FitOptions ℝ (ncols b' p')} (ht : o'.tol = o.tol)
    (hm : o'.maxIter = o.maxIter) (hr : getReg (b := b') o' = (getReg (b := b) o).reorder τ)
    (h0 : initialGuess env g d' o' = fun j => initialGuess env g d o (τ j)) :
    regressionCore env g d' o' = (regressionCore env g d o).mapBoth (FitError.reorder τ)
      fun r => (reorderStep τ r.1, r.2.reorder τ) := by
  unfold GLM.regressionCore
  dsimp only
  have hnew : Irls.new g d' (initialGuess env g d' o') o'
      = (Irls.new g d (initialGuess env g d o) o).reorder τ := by
    simp only [Irls.new, h0, h.logLike, hr, Irls.reorder, List.map_nil]
  have hf := h.fitLoop he g ht hm (Irls.new g d (initialGuess env g d o) o) none
  rw [Option.map_none] at hf
  rw [hnew, hf]
  cases GLM.fitLoop env g d o (Irls.new g d (initialGuess env g d o) o) none with
  | ok r =>
    obtain ⟨b?, s⟩ := r
    have hl : (s.reorder τ).makeLastStep = reorderStep τ s.makeLastStep := by
      have h : (s.reorder τ).reg = s.reg.reorder τ := rfl
      have h1 : (s.reorder τ).guess = fun j => s.guess (τ j) := rfl
      have h2 : (s.reorder τ).lastLikeData = s.lastLikeData := rfl
      simp only [Irls.makeLastStep, h, h1, h2, Reg.reorder_likelihood, reorderStep]
    simp only [Outcome.mapBoth, Outcome.map, Outcome.bind]
    cases b? with
    | none => simp only [Option.map_none, Option.getD_none, hl]
    | some b => rfl
  | err e => rfl
  | panic => rfl
  | diverge => rfl

end Relabels

end GLM
