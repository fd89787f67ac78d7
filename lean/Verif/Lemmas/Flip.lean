/-
  Two fits whose design matrices agree up to the direction of their columns take the same course.
-/
import Verif.Spec.Signs
import Verif.Spec.Strict
import Verif.Lemmas.Regression
import Verif.Lemmas.Stats

namespace GLM
open Scalar Spec
variable {n p k : ℕ} {b : Bool}

theorem IsSigns.sq {s : Fin k → ℝ} (hs : IsSigns s) (j : Fin k) : s j * s j = 1 := by
  rcases hs j with h | h <;> rw [h] <;> norm_num

theorem IsSigns.mul_mul {s : Fin k → ℝ} (hs : IsSigns s) (j : Fin k) (x y : ℝ) :
    (s j * x) * (s j * y) = x * y := by
  rw [mul_mul_mul_comm, IsSigns.sq hs, one_mul]

theorem IsSigns.abs_mul {s : Fin k → ℝ} (hs : IsSigns s) (j : Fin k) (x : ℝ) :
    |s j * x| = |x| := by
  rcases hs j with h | h <;> rw [h] <;> simp

theorem IsSigns.abs_mul' {s : Fin k → ℝ} (hs : IsSigns s) (j : Fin k) (x : ℝ) :
    Scalar.abs (s j * x) = Scalar.abs x := by
  rcases hs j with h | h <;> rw [h]
  · rw [one_mul]
  · rw [neg_one_mul]; exact abs_neg x

theorem IsSigns.sign_mul {s : Fin k → ℝ} (hs : IsSigns s) (j : Fin k) (x : ℝ) :
    Scalar.sign (s j * x) = s j * Scalar.sign x := by
  rw [sign_real, sign_real]
  rcases hs j with h | h <;> rw [h]
  · simp
  · rw [neg_one_mul, neg_one_mul, Left.sign_neg]
    simp

theorem IsSigns.softThresh {s : Fin k → ℝ} (hs : IsSigns s) (j : Fin k) (x l : ℝ) :
    softThresh (s j * x) l = s j * softThresh x l := by
  unfold GLM.softThresh
  simp only [IsSigns.sign_mul hs, IsSigns.abs_mul' hs, mul_assoc]

section
variable {s : Fin k → ℝ}

noncomputable def Admm.flip (s : Fin k → ℝ) (st : Admm ℝ k) : Admm ℝ k :=
  { st with dual := flipV s st.dual, cumRes := flipV s st.cumRes }

noncomputable def Reg.flip (s : Fin k → ℝ) : Reg ℝ k → Reg ℝ k
  | .null => .null
  | .ridge l2 => .ridge l2
  | .lasso l1 st => .lasso l1 (st.flip s)
  | .elastic l1 l2 st => .elastic l1 l2 (st.flip s)

noncomputable def Irls.flip (s : Fin k → ℝ) (t : Irls ℝ k) : Irls ℝ k :=
  { guess := flipV s t.guess, reg := t.reg.flip s, nIter := t.nIter
    lastLikeData := t.lastLikeData, done := t.done, history := t.history.map (flipStep s) }

noncomputable def RawNext.flip (s : Fin k → ℝ) : RawNext ℝ k → RawNext ℝ k
  | .stop t => .stop (t.flip s)
  | .linalg t => .linalg (t.flip s)
  | .diverge t => .diverge (t.flip s)
  | .cand t v l => .cand (t.flip s) (flipV s v) l

noncomputable def FitError.flip (s : Fin k → ℝ) : FitError ℝ k → FitError ℝ k
  | .linalg => .linalg
  | .maxIter m h => .maxIter m (h.map (flipStep s))

theorem FitError.flip_same (e : FitError ℝ k) : SameErrorFlipped s e (e.flip s) := by
  cases e
  · exact .linalg
  · exact .maxIter _ _

theorem flipV_sub (u v : Vec ℝ k) : vsub (flipV s u) (flipV s v) = flipV s (vsub u v) := by
  funext j; simp only [vsub, flipV]; ring

theorem flipV_comb (u v : Vec ℝ k) (x : ℝ) :
    (fun j => flipV s v j * x + flipV s u j * (1 - x)) = flipV s fun j => v j * x + u j * (1 - x) := by
  funext j; simp only [flipV]; ring

variable (hs : IsSigns s)
include hs

theorem vsum_flip_sq (v : Vec ℝ k) :
    (vsum fun j => flipV s v j * flipV s v j) = vsum fun j => v j * v j := by
  simp only [flipV, IsSigns.mul_mul hs]

theorem vdotBy_flip {t t' : SumSite} (u v : Fin k → ℝ) :
    vdotBy t (flipV s u) (flipV s v) = vdotBy t' u v := by
  simp only [vdotBy_real, flipV, IsSigns.mul_mul hs]

theorem flipM_addDiag (m : Mat ℝ k k) (v : Vec ℝ k) :
    Mat.addDiag (flipM s m) v = flipM s (m.addDiag v) := by
  funext i j
  simp only [Mat.addDiag, flipM]
  by_cases h : i = j
  · subst h
    simp only [if_true]
    have := IsSigns.sq hs i
    linear_combination (-(v i)) * this
  · simp only [if_neg h]

theorem flipM_dotV (m : Mat ℝ k k) (v : Vec ℝ k) :
    Mat.dotV (flipM s m) (flipV s v) = flipV s (m.dotV v) := by
  funext i
  simp only [Mat.dotV, vdotBy_real, flipM, flipV, Finset.mul_sum]
  refine Finset.sum_congr rfl fun j _ => ?_
  linear_combination (s i * m i j * v j) * IsSigns.sq hs j

theorem flipM_dotM (A B : Mat ℝ k k) : Mat.dotM (flipM s A) (flipM s B) = flipM s (Mat.dotM A B) := by
  funext i j
  simp only [Mat.dotM, vdotBy_real, flipM, Finset.mul_sum, Finset.sum_mul]
  refine Finset.sum_congr rfl fun l _ => ?_
  linear_combination (s i * A i l * B l j * s j) * IsSigns.sq hs l

omit hs in
theorem Admm.flip_updateRho (st : Admm ℝ k) :
    (st.flip s).updateRho = st.updateRho.flip s := by
  obtain ⟨du, cu, rho, r, t⟩ := st
  cases r with
  | none => rfl
  | some r => cases t with
    | none => rfl
    | some t =>
      have h1 : (fun j => flipV s cu j / (ofNat 2 : ℝ)) = flipV s fun j => cu j / ofNat 2 := by
        funext j; simp only [flipV]; ring
      have h2 : (fun j => flipV s cu j * (ofNat 2 : ℝ)) = flipV s fun j => cu j * ofNat 2 := by
        funext j; simp only [flipV]; ring
      have h3 : (fun j => flipV s cu j / ofNat 2 * (ofNat 2 : ℝ))
          = flipV s fun j => cu j / ofNat 2 * ofNat 2 := by
        funext j; simp only [flipV]; ring
      simp only [updateRho, flip]
      split <;> split <;> simp only [h1, h2, h3]

theorem Admm.flip_prepare (l1 : Vec ℝ k) (st : Admm ℝ k) (β : Vec ℝ k) :
    (st.flip s).prepare l1 (flipV s β) = (st.prepare l1 β).flip s := by
  simp only [prepare, flip_updateRho]
  generalize st.updateRho = st
  have hd : ∀ j, softThresh (flipV s β j + flipV s st.cumRes j) (l1 j / st.rho)
      = s j * softThresh (β j + st.cumRes j) (l1 j / st.rho) := by
    intro j
    rw [← IsSigns.softThresh hs]
    simp only [flipV, mul_add]
  simp only [flip, hd, Admm.mk.injEq, Option.some.injEq, true_and]
  refine ⟨rfl, ?_, ?_, ?_⟩
  · funext j; simp only [flipV]; ring
  · refine congrArg vsum (funext fun j => ?_)
    refine Eq.trans ?_ (IsSigns.mul_mul hs j _ _)
    simp only [flipV]; ring
  · refine congrArg vsum (funext fun j => ?_)
    refine Eq.trans ?_ (IsSigns.mul_mul hs j _ _)
    simp only [flipV]; ring

theorem Admm.flip_augment (st : Admm ℝ k) (β : Vec ℝ k) :
    (st.flip s).augment (flipV s β) = st.augment β := by
  simp only [augment, flip]
  refine congrArg (_ * vsum ·) (funext fun j => ?_)
  refine Eq.trans ?_ (IsSigns.mul_mul hs j _ _)
  simp only [flipV]; ring

omit hs in
theorem Admm.flip_terminateOk (st : Admm ℝ k) (tol : ℝ) :
    (st.flip s).terminateOk tol = st.terminateOk tol := rfl

theorem sumL2_flip (l2 β : Vec ℝ k) : sumL2 l2 (flipV s β) = sumL2 l2 β := by
  simp only [sumL2, flipV, IsSigns.mul_mul hs]

theorem sumL1_flip (l1 β : Vec ℝ k) : sumL1 l1 (flipV s β) = sumL1 l1 β := by
  simp only [sumL1, flipV, IsSigns.abs_mul' hs]

namespace Reg

theorem flip_likelihood (r : Reg ℝ k) (β : Vec ℝ k) :
    (r.flip s).likelihood (flipV s β) = r.likelihood β := by
  cases r <;> simp only [likelihood, flip, sumL1_flip hs, sumL2_flip hs]

theorem flip_gradient (r : Reg ℝ k) (jac β : Vec ℝ k) :
    (r.flip s).gradient (flipV s jac) (flipV s β) = flipV s (r.gradient jac β) := by
  cases r <;> funext j <;> simp only [gradient, flip, flipV, IsSigns.sign_mul hs] <;> ring

theorem flip_prepare (r : Reg ℝ k) (β : Vec ℝ k) :
    (r.flip s).prepare (flipV s β) = (r.prepare β).flip s := by
  cases r <;> simp only [prepare, flip, Admm.flip_prepare hs]

theorem flip_irlsLike (r : Reg ℝ k) (β : Vec ℝ k) :
    (r.flip s).irlsLike (flipV s β) = r.irlsLike β := by
  cases r <;> simp only [irlsLike, flip, Admm.flip_augment hs, sumL2_flip hs]

omit hs in
theorem flip_irlsVec (r : Reg ℝ k) (v w w' : Vec ℝ k) :
    (r.flip s).irlsVec (flipV s v) w' = flipV s (r.irlsVec v w) := by
  cases r <;> funext j <;> simp only [irlsVec, Admm.irlsVec, flip, Admm.flip, flipV] <;> ring

theorem flip_irlsMat (r : Reg ℝ k) (m : Mat ℝ k k) (w w' : Vec ℝ k) :
    (r.flip s).irlsMat (flipM s m) w' = flipM s (r.irlsMat m w) := by
  cases r <;> simp only [irlsMat, flip, Admm.flip, flipM_addDiag hs]

omit hs in
theorem flip_terminateOk (r : Reg ℝ k) (tol : ℝ) :
    (r.flip s).terminateOk tol = r.terminateOk tol := by
  cases r <;> rfl

theorem flip_nextGuess {env : Env ℝ} (he : SignFree s env) (r : Reg ℝ k) (β v : Vec ℝ k)
    (m : Mat ℝ k k) :
    (r.flip s).nextGuess env (flipV s β) (flipV s v) (flipM s m)
      = ((r.nextGuess env β v m).1.flip s, (r.nextGuess env β v m).2.map (flipV s)) := by
  simp only [nextGuess, flip_prepare hs]
  rw [flip_irlsMat hs _ m β, flip_irlsVec _ v β, he.solveh]

end Reg

theorem vecEq_flip (u v : Vec ℝ k) : vecEq (flipV s u) (flipV s v) = vecEq u v := by
  rw [Bool.eq_iff_iff]
  simp only [vecEq, List.all_eq_true, List.mem_finRange, forall_true_left]
  refine forall_congr' fun j => ?_
  have h0 : s j ≠ 0 := by rcases hs j with h | h <;> rw [h] <;> norm_num
  change decide (s j * u j = s j * v j) = true ↔ decide (u j = v j) = true
  rw [decide_eq_true_iff, decide_eq_true_iff]
  exact mul_right_inj' h0

theorem smallDeltaVec_flip (u v : Vec ℝ k) (tol : ℝ) :
    smallDeltaVec (flipV s u) (flipV s v) tol = smallDeltaVec u v tol := by
  simp only [smallDeltaVec, flipV_sub, vsum_flip_sq hs]

theorem Irls.flip_candStep (t : Irls ℝ k) (v : Vec ℝ k) (l : ℝ) :
    (t.flip s).candStep (flipV s v) l = flipStep s (t.candStep v l) := by
  have h : (t.flip s).reg = t.reg.flip s := rfl
  simp only [candStep, h, Reg.flip_likelihood hs, flipStep]

theorem Irls.flip_candState (t : Irls ℝ k) (v : Vec ℝ k) (l : ℝ) :
    (t.flip s).candState (flipV s v) l = (t.candState v l).flip s := by
  have h : (t.flip s).history = t.history.map (flipStep s) := rfl
  simp only [candState, flip_candStep hs, h]
  simp only [Irls.flip, List.map_append, List.map_cons, List.map_nil]

omit hs in
theorem maxByLike_flip (best? : Option (IrlsStep ℝ k)) (st : IrlsStep ℝ k) :
    maxByLike (best?.map (flipStep s)) (flipStep s st) = flipStep s (maxByLike best? st) := by
  cases best? with
  | none => rfl
  | some best =>
    simp only [maxByLike, Option.map_some, flipStep]
    cases totalCmp best.like st.like <;> rfl

end

/-- The same observations; column `j` of `d'` is column `j` of `d`, in the direction `s j`. -/
structure Flips (s : Fin (ncols b p) → ℝ) (d d' : Dataset ℝ n p b) : Prop where
  signs : IsSigns s
  y : d'.y = d.y
  x : ∀ i j, d'.x i j = s j * d.x i j
  offset : d'.linearOffset = d.linearOffset
  weights : d'.weights = d.weights
  freqs : d'.freqs = d.freqs

namespace Flips
variable {s : Fin (ncols b p) → ℝ} {d d' : Dataset ℝ n p b} (h : Flips s d d')
include h

theorem dotV (γ : Vec ℝ (ncols b p)) : d'.x.dotV (flipV s γ) = d.x.dotV γ := by
  funext i
  simp only [Mat.dotV, vdotBy_real, h.x, flipV, IsSigns.mul_mul h.signs]

theorem linPred (γ : Vec ℝ (ncols b p)) :
    d'.linearPredictorStd (flipV s γ) = d.linearPredictorStd γ := by
  simp only [Dataset.linearPredictorStd, h.dotV, h.offset]

theorem xConj (j : Fin (ncols b p)) (i : Fin n) : d'.xConj j i = s j * d.xConj j i := by
  simp only [Dataset.xConj, Dataset.weightCols, h.freqs, h.weights]
  cases d.freqs <;> cases d.weights <;> simp only [Mat.tr, h.x, mul_assoc]

theorem freqW : d'.applyFreqWeights = d.applyFreqWeights := by
  funext v; simp only [Dataset.applyFreqWeights, h.freqs]

theorem varW : d'.applyVarWeights = d.applyVarWeights := by
  funext v; simp only [Dataset.applyVarWeights, h.weights]

theorem totalW : d'.applyTotalWeights = d.applyTotalWeights := by
  funext v; simp only [Dataset.applyTotalWeights, h.freqW, h.varW]

theorem freqSum : d'.freqSum = d.freqSum := by
  funext v; simp only [Dataset.freqSum, h.freqW]

theorem weightedSum : d'.weightedSum = d.weightedSum := by
  funext v; simp only [Dataset.weightedSum, h.freqSum, h.varW]

theorem nObs : d'.nObs = d.nObs := by simp only [Dataset.nObs, h.freqs]

theorem nEff : d'.nEff = d.nEff := by simp only [Dataset.nEff, h.weights, h.nObs, h.freqSum]

theorem sumWeights : d'.sumWeights = d.sumWeights := by
  simp only [Dataset.sumWeights, h.weights, h.nObs, h.freqSum]

theorem logLikeTerms (g : Glm ℝ) (γ : Vec ℝ (ncols b p)) :
    g.logLikeTerms d' (flipV s γ) = g.logLikeTerms d γ := by
  simp only [Glm.logLikeTerms, h.linPred, h.y]

theorem logLike (g : Glm ℝ) (γ : Vec ℝ (ncols b p)) :
    g.logLike d' (flipV s γ) = g.logLike d γ := by
  simp only [Glm.logLike, h.logLikeTerms, h.totalW]

theorem xConj_dotV (v : Vec ℝ n) : d'.xConj.dotV v = flipV s (d.xConj.dotV v) := by
  funext j
  simp only [Mat.dotV, vdotBy_real, h.xConj, flipV, Finset.mul_sum, mul_assoc]

theorem xConj_dotM (v : Vec ℝ n) : Mat.dotM (fun j i => d'.xConj j i * v i) d'.x
    = flipM s (Mat.dotM (fun j i => d.xConj j i * v i) d.x) := by
  funext i j
  simp only [Mat.dotM, vdotBy_real, h.xConj, h.x, flipM, Finset.mul_sum, Finset.sum_mul]
  exact Finset.sum_congr rfl fun l _ => by ring

theorem irlsMatVec (eps : ℝ) (g : Glm ℝ) (γ : Vec ℝ (ncols b p)) :
    Irls.irlsMatVec eps g d' (flipV s γ)
      = (flipM s (Irls.irlsMatVec eps g d γ).1, flipV s (Irls.irlsMatVec eps g d γ).2) := by
  simp only [Irls.irlsMatVec, h.dotV, h.offset, h.y, h.xConj_dotV]
  exact congrArg₂ Prod.mk (h.xConj_dotM _) rfl

theorem fStep (g : Glm ℝ) (r : Reg ℝ (ncols b p)) (u v : Vec ℝ (ncols b p)) :
    Irls.fStep g d' (r.flip s) (flipV s u) (flipV s v) = Irls.fStep g d r u v := by
  funext x
  simp only [Irls.fStep, flipV_comb]
  rw [h.logLike g fun j => v j * x + u j * (1 - x),
    Reg.flip_likelihood h.signs r fun j => v j * x + u j * (1 - x)]

theorem nextRaw {env : Env ℝ} (he : SignFree s env) (g : Glm ℝ) (tol : ℝ) (t : Irls ℝ (ncols b p)) :
    (t.flip s).nextRaw env g d' tol = (t.nextRaw env g d tol).flip s := by
  obtain ⟨gu, reg, ni, ll, dn, hist⟩ := t
  cases dn with
  | true => rfl
  | false =>
    have hng := Reg.flip_nextGuess h.signs he reg gu (Irls.irlsMatVec env.eps g d gu).2
      (Irls.irlsMatVec env.eps g d gu).1
    simp only [Irls.nextRaw, Irls.flip, Bool.false_eq_true, if_false, h.irlsMatVec, hng]
    generalize reg.nextGuess env gu (Irls.irlsMatVec env.eps g d gu).2
      (Irls.irlsMatVec env.eps g d gu).1 = ng
    obtain ⟨r, e⟩ := ng
    cases e with
    | error e => rfl
    | ok v =>
      simp only [Except.map, h.logLike, Reg.flip_irlsLike h.signs, Reg.flip_terminateOk,
        vecEq_flip h.signs, smallDeltaVec_flip h.signs]
      cases r.terminateOk tol
      · rfl
      · simp only [Bool.not_true, Bool.false_eq_true, if_false]
        cases vecEq v gu
        · simp only [Bool.false_eq_true, if_false]
          have hs1 : ∀ c : Bool, (if c = true then
                (⟨flipV s gu, r.flip s, ni, ll, true, hist.map (flipStep s)⟩ : Irls ℝ _)
              else ⟨flipV s gu, r.flip s, ni, ll, false, hist.map (flipStep s)⟩)
              = Irls.flip s (if c = true then
                (⟨gu, r, ni, ll, true, hist⟩ : Irls ℝ _) else ⟨gu, r, ni, ll, false, hist⟩) := by
            intro c; cases c <;> rfl
          rw [hs1]
          generalize (if (smallDelta (g.logLike d v + r.irlsLike v)
              (ll + r.irlsLike gu) (tol * ofNat n)
              && smallDeltaVec v gu tol) = true then _
            else _ : Irls ℝ (ncols b p)) = s1
          cases gt (g.logLike d v + r.irlsLike v) (ll + r.irlsLike gu)
          · simp only [Bool.false_eq_true, if_false]
            have hfs : Irls.fStep g d' (s1.flip s).reg (s1.flip s).guess (flipV s v)
                = Irls.fStep g d s1.reg s1.guess v := h.fStep g s1.reg s1.guess v
            have hsq : (vsum fun j => 1 + (s1.flip s).guess j * (s1.flip s).guess j)
                = vsum fun j => 1 + s1.guess j * s1.guess j := by
              refine congrArg vsum (funext fun j => ?_)
              rw [← IsSigns.mul_mul h.signs j (s1.guess j)]; rfl
            rw [hsq, hfs]
            cases stepScale env.fuel (Irls.fStep g d s1.reg s1.guess v)
                (sqrt (vsum fun j => 1 + s1.guess j * s1.guess j) * tol) with
            | none => rfl
            | some m =>
              have hl := h.logLike g fun j => v j * m + s1.guess j * (1 - m)
              have hg : (fun j => flipV s v j * m + (s1.flip s).guess j * (1 - m))
                  = flipV s fun j => v j * m + s1.guess j * (1 - m) := flipV_comb s1.guess v m
              simp only [hg, hl]
              cases eq m 0 <;> rfl
          · rfl
        · rfl

theorem fitLoop {env : Env ℝ} (he : SignFree s env) (g : Glm ℝ) {o o' : FitOptions ℝ (ncols b p)}
    (ht : o'.tol = o.tol) (hm : o'.maxIter = o.maxIter)
    (t : Irls ℝ (ncols b p)) (best? : Option (IrlsStep ℝ (ncols b p))) :
    fitLoop env g d' o' (t.flip s) (best?.map (flipStep s))
      = (fitLoop env g d o t best?).mapBoth (FitError.flip s)
          fun r => (r.1.map (flipStep s), r.2.flip s) := by
  refine fitLoop_ind env g d o (motive := fun t best? =>
    GLM.fitLoop env g d' o' (t.flip s) (best?.map (flipStep s))
      = (GLM.fitLoop env g d o t best?).mapBoth (FitError.flip s)
          fun r => (r.1.map (flipStep s), r.2.flip s)) ?_ t best?
  intro t best? ih
  rw [fitLoop_eq, fitLoop_eq, ht, hm, h.nextRaw he g o.tol t]
  cases hn : t.nextRaw env g d o.tol with
  | stop t' => rfl
  | linalg t' => rfl
  | diverge t' => rfl
  | cand t' v l =>
    have hi : (t'.flip s).nIter = t'.nIter := rfl
    have hh : (t'.flip s).history = t'.history.map (flipStep s) := rfl
    simp only [RawNext.flip, Irls.flip_candStep h.signs, Irls.flip_candState h.signs, hi, hh]
    by_cases hm : t'.nIter + 1 > o.maxIter
    · rw [if_pos hm, if_pos hm]
      simp [Outcome.mapBoth, FitError.flip]
    · rw [if_neg hm, if_neg hm, maxByLike_flip]
      exact ih t' v l hn (not_lt.mp hm)

theorem initGuess {env : Env ℝ} (he : SignFree s env) (g : Glm ℝ) :
    g.initGuess env d' = flipV s (g.initGuess env d) := by
  have hM : d'.xConj.dotM d'.x = flipM s (d.xConj.dotM d.x) := by
    funext i j
    simp only [Mat.dotM, vdotBy_real, h.xConj, h.x, flipM, Finset.mul_sum, Finset.sum_mul]
    exact Finset.sum_congr rfl fun l _ => by ring
  simp only [Glm.initGuess, h.y, h.offset, hM, h.xConj_dotV]
  rw [he.solveh]
  cases env.solveh (d.xConj.dotM d.x) _ with
  | ok v => rfl
  | error e => funext j; exact (mul_zero (s j)).symm

theorem regressionCore {env : Env ℝ} (he : SignFree s env) (g : Glm ℝ)
    {o o' : FitOptions ℝ (ncols b p)} (ht : o'.tol = o.tol)
    (hm : o'.maxIter = o.maxIter) (hr : getReg (b := b) o' = (getReg (b := b) o).flip s)
    (h0 : initialGuess env g d' o' = flipV s (initialGuess env g d o)) :
    regressionCore env g d' o' = (regressionCore env g d o).mapBoth (FitError.flip s)
      fun r => (flipStep s r.1, r.2.flip s) := by
  unfold GLM.regressionCore
  dsimp only
  have hnew : Irls.new g d' (initialGuess env g d' o') o'
      = (Irls.new g d (initialGuess env g d o) o).flip s := by
    simp only [Irls.new, h0, h.logLike, hr, Irls.flip, List.map_nil]
  have hf := h.fitLoop he g ht hm (Irls.new g d (initialGuess env g d o) o) none
  rw [Option.map_none] at hf
  rw [hnew, hf]
  cases GLM.fitLoop env g d o (Irls.new g d (initialGuess env g d o) o) none with
  | ok r =>
    obtain ⟨b?, t⟩ := r
    have hl : (t.flip s).makeLastStep = flipStep s t.makeLastStep := by
      have h' : (t.flip s).reg = t.reg.flip s := rfl
      have h1 : (t.flip s).guess = flipV s t.guess := rfl
      have h2 : (t.flip s).lastLikeData = t.lastLikeData := rfl
      simp only [Irls.makeLastStep, h', h1, h2, Reg.flip_likelihood h.signs, flipStep]
    simp only [Outcome.mapBoth, Outcome.map, Outcome.bind]
    cases b? with
    | none => simp only [Option.map_none, Option.getD_none, hl]
    | some b => rfl
  | err e => rfl
  | panic => rfl
  | diverge => rfl

end Flips

end GLM
