/-
  C77: whole fits of data with frequency weights and of data with repeated rows.
-/
import Verif.Spec.Recount
import Verif.Props.Weights
import Verif.Lemmas.Stats
import Verif.Lemmas.Congr

namespace GLM
open Spec Matrix Scalar
variable {n m p : ℕ} {b : Bool}

/-! ### The course of the iteration -/

section
variable {env : Env ℝ} {g : Glm ℝ} {d : Dataset ℝ n p b} {d' : Dataset ℝ m p b}

/-- One call of the iterator on data with other counts: the same outcome, except that the flag
"converged" may be set earlier. -/
inductive LaterDone {k : ℕ} : RawNext ℝ k → RawNext ℝ k → Prop
  | stop {s s' : Irls ℝ k} (h : { s' with done := false } = { s with done := false }) :
      LaterDone (.stop s) (.stop s')
  | linalg (s s' : Irls ℝ k) : LaterDone (.linalg s) (.linalg s')
  | diverge (s s' : Irls ℝ k) : LaterDone (.diverge s) (.diverge s')
  | same (s : Irls ℝ k) (v l) : LaterDone (.cand s v l) (.cand s v l)
  | early (s : Irls ℝ k) (v l) : LaterDone (.cand s v l) (.cand { s with done := true } v l)

theorem smallDelta_mono {x y t t' : ℝ} (h : t ≤ t') (hs : smallDelta x y t = true) :
    smallDelta x y t' = true := by
  unfold smallDelta at hs ⊢
  rw [le_real] at hs ⊢
  exact hs.trans h

theorem nextRaw_laterDone {r : Fin m → Fin n} (h : Reweights d d' r) {tol : ℝ}
    (ht : tol * n ≤ tol * m) (s : Irls ℝ (ncols b p)) :
    LaterDone (s.nextRaw env g d tol) (s.nextRaw env g d' tol) := by
  have hf : ∀ reg γ v, Irls.fStep g d' reg γ v = Irls.fStep g d reg γ v := by
    intro reg γ v; funext x; simp only [Irls.fStep, h.logLike]
  unfold Irls.nextRaw
  simp only [h.irlsMatVec, h.logLike, hf]
  cases s.done
  swap
  · exact .stop rfl
  simp only [Bool.false_eq_true, if_false]
  cases (s.reg.nextGuess env s.guess (Irls.irlsMatVec env.eps g d s.guess).2
      (Irls.irlsMatVec env.eps g d s.guess).1).2 with
  | error e => exact .linalg _ _
  | ok v =>
    dsimp only
    split
    · exact .same _ _ _
    split
    · exact .stop rfl
    have hc : (smallDelta (g.logLike d v + (s.reg.nextGuess env s.guess
          (Irls.irlsMatVec env.eps g d s.guess).2 (Irls.irlsMatVec env.eps g d s.guess).1).1.irlsLike v)
        (s.lastLikeData + (s.reg.nextGuess env s.guess
          (Irls.irlsMatVec env.eps g d s.guess).2
          (Irls.irlsMatVec env.eps g d s.guess).1).1.irlsLike s.guess) (tol * Scalar.ofNat n)
        && smallDeltaVec v s.guess tol) = true →
        (smallDelta (g.logLike d v + (s.reg.nextGuess env s.guess
          (Irls.irlsMatVec env.eps g d s.guess).2 (Irls.irlsMatVec env.eps g d s.guess).1).1.irlsLike v)
        (s.lastLikeData + (s.reg.nextGuess env s.guess
          (Irls.irlsMatVec env.eps g d s.guess).2
          (Irls.irlsMatVec env.eps g d s.guess).1).1.irlsLike s.guess) (tol * Scalar.ofNat m)
        && smallDeltaVec v s.guess tol) = true := by
      simp only [Bool.and_eq_true]
      exact fun h => ⟨smallDelta_mono (by simpa only [ofNat_real] using ht) h.1, h.2⟩
    revert hc
    generalize (smallDelta _ _ (tol * Scalar.ofNat n) && _) = c1
    generalize (smallDelta _ _ (tol * Scalar.ofNat m) && _) = c2
    intro hc
    generalize Scalar.gt (_ : ℝ) _ = c3
    cases c1 <;> cases c2 <;> simp only [if_true, Bool.false_eq_true, if_false]
    · cases c3 <;> simp only [if_true, Bool.false_eq_true, if_false]
      · generalize stepScale env.fuel (_ : ℝ → ℝ) _ = q
        rcases q with _ | a
        · exact .diverge _ _
        · dsimp only
          split
          · exact .stop rfl
          · exact .same _ _ _
      · exact .same _ _ _
    · cases c3 <;> simp only [if_true, Bool.false_eq_true, if_false]
      · generalize stepScale env.fuel (_ : ℝ → ℝ) _ = q
        rcases q with _ | a
        · exact .diverge _ _
        · dsimp only
          split
          · exact .stop rfl
          · exact .early _ _ _
      · exact .early _ _ _
    · exact absurd (hc rfl) (by simp)
    · cases c3 <;> simp only [if_true, Bool.false_eq_true, if_false]
      · generalize stepScale env.fuel (_ : ℝ → ℝ) _ = q
        rcases q with _ | a
        · exact .diverge _ _
        · dsimp only
          split
          · exact .stop rfl
          · exact .same _ _ _
      · exact .same _ _ _

/-- With the same tolerance on the likelihood the calls agree. -/
theorem nextRaw_recount {r : Fin m → Fin n} (h : Reweights d d' r) {tol : ℝ}
    (ht : tol * n = tol * m) (s : Irls ℝ (ncols b p)) :
    s.nextRaw env g d' tol = s.nextRaw env g d tol := by
  have hf : ∀ reg γ v, Irls.fStep g d' reg γ v = Irls.fStep g d reg γ v := by
    intro reg γ v; funext x; simp only [Irls.fStep, h.logLike]
  unfold Irls.nextRaw
  simp only [h.irlsMatVec, h.logLike, hf, ofNat_real, ht]

/-- The loop only extends the history. -/
theorem fitLoop_prefix {o : FitOptions ℝ (ncols b p)} {s s' : Irls ℝ (ncols b p)}
    {best best' : Option (IrlsStep ℝ (ncols b p))}
    (h : fitLoop env g d o s best = .ok (best', s')) : s.history <+: s'.history := by
  refine fitLoop_ind env g d o (motive := fun s best => ∀ s' best',
    fitLoop env g d o s best = .ok (best', s') → s.history <+: s'.history) ?_ s best s' best' h
  intro s best ih s' best' h
  rw [fitLoop_eq] at h
  have hf := s.nextRaw_frame env g d o.tol
  split at h <;> rename_i hr <;> rw [hr] at hf
  · simp only [Outcome.ok.injEq, Prod.mk.injEq] at h
    obtain ⟨-, rfl⟩ := h
    rw [hf.history]
  · simp at h
  · simp at h
  · split at h
    · simp at h
    · rename_i hle
      refine List.IsPrefix.trans ?_ (ih _ _ _ hr (not_lt.mp hle) _ _ h)
      simp only [Irls.candState, hf.1.history]
      exact List.prefix_append _ _

/-- The whole loop on data with other counts: the same outcome, or an earlier stop. -/
theorem fitLoop_laterDone {r : Fin m → Fin n} (h : Reweights d d' r) {o : FitOptions ℝ (ncols b p)}
    (ht : o.tol * n ≤ o.tol * m) (s : Irls ℝ (ncols b p))
    (best : Option (IrlsStep ℝ (ncols b p))) :
    Related (· = ·) (fun x y => y.1 = x.1 ∧ { y.2 with done := false } = { x.2 with done := false })
      (fitLoop env g d o s best) (fitLoop env g d' o s best) ∨
    o.tol * n ≠ o.tol * m ∧ ∃ best' s', fitLoop env g d' o s best = .ok (best', s') ∧
      ∀ best'' s'', fitLoop env g d o s best = .ok (best'', s'') → s'.history <+: s''.history := by
  refine fitLoop_ind env g d o (motive := fun s best =>
    Related (· = ·) (fun x y => y.1 = x.1 ∧ { y.2 with done := false } = { x.2 with done := false })
      (fitLoop env g d o s best) (fitLoop env g d' o s best) ∨
    o.tol * n ≠ o.tol * m ∧ ∃ best' s', fitLoop env g d' o s best = .ok (best', s') ∧
      ∀ best'' s'', fitLoop env g d o s best = .ok (best'', s'') →
        s'.history <+: s''.history) ?_ s best
  intro s best ih
  have hl := nextRaw_laterDone (env := env) (g := g) h ht s
  by_cases hne : o.tol * n = o.tol * m
  · rw [fitLoop_eq env g d' o, fitLoop_eq env g d o, nextRaw_recount h hne]
    cases hr : s.nextRaw env g d o.tol with
    | stop => exact .inl (.ok ⟨rfl, rfl⟩)
    | linalg => exact .inl (.err rfl)
    | diverge => exact .inl .diverge
    | cand t v l =>
      dsimp only
      split
      · exact .inl (.err rfl)
      · rename_i hle
        exact ih _ _ _ hr (not_lt.mp hle)
  · rw [fitLoop_eq env g d' o, fitLoop_eq env g d o]
    generalize hr : s.nextRaw env g d o.tol = x at hl
    generalize s.nextRaw env g d' o.tol = y at hl
    cases hl with
    | stop h => exact .inl (.ok ⟨rfl, h⟩)
    | linalg => exact .inl (.err rfl)
    | diverge => exact .inl .diverge
    | same t v l =>
      dsimp only
      split
      · exact .inl (.err rfl)
      · rename_i hle
        exact ih _ _ _ hr (not_lt.mp hle)
    | early t v l =>
      dsimp only
      split
      · exact .inl (.err rfl)
      · refine .inr ⟨hne, some (maxByLike best (t.candStep v l)),
          Irls.candState { t with done := true } v l, ?_, fun best'' s'' h'' => ?_⟩
        · rw [fitLoop_eq, Irls.nextRaw_done rfl]; rfl
        · exact fitLoop_prefix (s := t.candState v l) h''

end

/-! ### The statistics -/

section
variable {d : Dataset ℝ n p b} {d' : Dataset ℝ m p b} {r : Fin m → Fin n}

theorem recount_null (h : Reweights d d' r) {f : Fit ℝ n p b} {f' : Fit ℝ m p b} (hd : f.data = d)
    (hd' : f'.data = d') (hg : f'.g = f.g) (env : Env ℝ)
    (hoff : f.data.linearOffset = none ∨ b = false) : f'.nullModelFit env = f.nullModelFit env := by
  subst hd hd'
  have hws : ∀ v : Vec ℝ n, f'.data.weightedSum (fun k => v (r k)) = f.data.weightedSum v := by
    intro v
    rw [Dataset.weightedSum_real, Dataset.weightedSum_real]
    exact h.sum_total v
  have hy : f'.data.weightedSum f'.data.y = f.data.weightedSum f.data.y := by
    rw [← hws]
    exact congrArg _ (funext h.y)
  unfold Fit.nullModelFit Fit.nullIntercept
  rw [h.sumWeights, hg, hy]
  cases ho : f.data.linearOffset with
  | none =>
    have : f'.data.linearOffset = none := by rw [h.offset, ho]; rfl
    rw [this]
  | some off =>
    have : f'.data.linearOffset = some fun k => off (r k) := by rw [h.offset, ho]; rfl
    rw [this]
    dsimp only
    obtain rfl : b = false := hoff.resolve_left (by rw [ho]; simp)
    have h2 := hws fun i => f.g.logLikeNatural (f.data.y i) (f.g.link.natParam (off i))
    simp only [← h.y] at h2
    exact congrArg (fun z => Outcome.ok (z, vzeros)) h2

theorem recount_fit (h : Reweights d d' r) {f : Fit ℝ n p b} {f' : Fit ℝ m p b} (hc : f.Coherent)
    (hc' : f'.Coherent) (hs : SamePoint f f') (ho : f'.options = f.options) (hd : f.data = d)
    (hd' : f'.data = d') : SameUpToCount r f f' := by
  subst hd hd'
  have hsm := h.sameModel
  have hl : ∀ k, f'.xLinPred k = f.xLinPred (r k) := fun k => by
    rw [hc.xLinPred, hc'.xLinPred, hs.resultStd, h.linPred]
  have hy : ∀ k, f'.yHat k = f.yHat (r k) := fun k => by
    rw [hc.yHat, hc'.yHat, hs.g]
    exact congrArg f.g.link.funcInv (hl k)
  have hrr : ∀ k, f'.residResp k = f.residResp (r k) := fun k => by
    change f'.data.y k - f'.yHat k = f.data.y (r k) - f.yHat (r k)
    rw [hy, h.y]
  have hvw : ∀ (v : Vec ℝ n) (v' : Vec ℝ m), (∀ k, v' k = v (r k)) →
      ∀ k, f'.data.applyVarWeights v' k = f.data.applyVarWeights v (r k) := by
    intro v v' hv k
    rw [Dataset.applyVarWeights_real, Dataset.applyVarWeights_real, hv, h.varWt]
  have hrp : ∀ k, f'.residPear k = f.residPear (r k) := by
    intro k
    unfold Fit.residPear
    rw [hrr, hvw (fun i => recip (f.g.variance (f.yHat i))) _ fun i => by rw [hy, hs.g]]
  have hdt : ∀ k, f'.devianceTerms k = f.devianceTerms (r k) := by
    intro k
    unfold Fit.devianceTerms
    exact hvw (fun i => (f.g.logLikeSat (f.data.y i) - f.g.logLikeTerms f.data f.resultStd i) * two) _
      (fun i => by simp only [Glm.logLikeTerms, hs.g, hs.resultStd, h.linPred, h.y]) k
  have hrw : ∀ k, f'.residWork k = f.residWork (r k) := by
    intro k
    unfold Fit.residWork
    dsimp only
    rw [hrr, hy, hl, hs.g]
  have hdisp := h.dispersion_eq hs rfl rfl
  have hnull : (f.data.linearOffset = none ∨ b = false) → ∀ env,
      f'.nullModelFit env = f.nullModelFit env :=
    fun hoff env => recount_null h rfl rfl hs.g env hoff
  have hlr : (f.data.linearOffset = none ∨ b = false) → ∀ env, f'.lrTest env = f.lrTest env :=
    fun hoff env => by simp only [Fit.lrTest, Fit.nullLike, hnull hoff, hs.modelLike]
  have hdev := h.deviance_eq hs rfl rfl
  have hcov := fun env => hsm.covariance env f f' hs rfl rfl
  have hfs : ∀ γ, f'.fisherStd γ = f.fisherStd γ := fun γ => by
    simp only [Fit.fisherStd, h.fisherDataStd_eq hs rfl rfl, hs.reg]
  have hxo : ∀ k, f'.data.xOrig k = f.data.xOrig (r k) := by
    intro k
    unfold Dataset.xOrig Dataset.features
    rw [h.std]
    funext j
    cases f.data.standardizer with
    | none => cases b <;> simp only [h.x]
    | some s => cases b <;> simp only [Standardizer.inverseTransform, h.x]
  have hwa : ∀ a, f'.waldTestAgainst a = f.waldTestAgainst a := fun a => by
    simp only [Fit.waldTestAgainst, hfs, hs.resultStd, h.transformBeta]
  have hsa : ∀ env a, f'.scoreTestAgainst env a = f.scoreTestAgainst env a := fun env a => by
    simp only [Fit.scoreTestAgainst, h.fisher_eq hs rfl rfl, h.score_eq hs rfl rfl]
  refine
    { result := hs.result
      modelLike := hs.modelLike
      predict := fun x off => by simp only [Fit.predict, hs.result, hs.g]
      ndf := by simp only [Fit.ndf, Fit.rank, h.nObs]
      deviance := hdev
      dispersion := hdisp
      aic := hsm.aic f f' hs rfl rfl
      bic := hsm.bic f f' hs rfl rfl
      rss := ?_
      score := h.score_eq hs rfl rfl
      fisher := h.fisher_eq hs rfl rfl
      covariance := hcov
      waldZ := fun env => by simp only [Fit.waldZ, hcov, hs.result]
      lrAgainst := fun β => by
        simp only [Fit.lrTestAgainst, hs.g, hs.modelLike, hs.reg, h.transformBeta, h.logLike]
      waldAgainst := hwa
      scoreAgainst := hsa
      lrTest := hlr
      waldTest := fun hoff env => by simp only [Fit.waldTest, hnull hoff, hwa]
      scoreTest := fun hoff env => by simp only [Fit.scoreTest, hnull hoff, hsa]
      rSq := fun hoff env => by simp only [Fit.rSq, hlr hoff, hdev]
      yHat := hy
      residResp := hrr
      residPear := hrp
      residDev := fun k => by simp only [Fit.residDev, hrr, hdt]
      residWork := hrw
      residPart := fun k => ?_
      leverage_isOk := fun env => ?_
      leverage := fun env v v' hv hv' k => ?_ }
  · simp only [Fit.rss, vsum_real, Dataset.applyTotalWeights_real, hrr]
    exact h.sum_total fun i => f.residResp i * f.residResp i
  · funext j
    have hfc : f'.featureCoef = f.featureCoef := by
      have := hs.result
      cases b
      · exact this
      · exact funext fun j => congrFun this _
    have h1 : ∀ j, ∑ i, f'.data.xOrig i j * f'.data.applyTotalWeights (vfill 1) i
        = ∑ i, f.data.xOrig i j * f.data.applyTotalWeights (vfill 1) i := by
      intro j
      simp only [Dataset.applyTotalWeights_real, vfill, mul_one, hxo]
      simp only [mul_comm (f.data.xOrig _ j)]
      exact h.sum_total fun i => f.data.xOrig i j
    have h2 : ∑ i, f'.data.applyTotalWeights (vfill 1) i
        = ∑ i, f.data.applyTotalWeights (vfill 1) i := by
      simp only [Dataset.applyTotalWeights_real, vfill]
      exact h.sum_total fun _ => 1
    unfold Fit.residPart
    simp only [hfc, hrw, vsum_real, h1, h2]
    cases b <;> simp only [hxo, if_true, Bool.false_eq_true, if_false]
  · unfold Fit.leverage Fit.hat Fit.fisherStdInv
    rw [hfs, hs.resultStd]
    cases env.inv (f.fisherStd f.resultStd) <;> rfl
  · unfold Fit.leverage Fit.hat Fit.fisherStdInv at hv hv'
    rw [hfs, hs.resultStd] at hv'
    cases hA : env.inv (f.fisherStd f.resultStd) with
    | error e => rw [hA] at hv; cases hv
    | ok A =>
      rw [hA] at hv hv'
      injection hv with hv
      injection hv' with hv'
      subst hv hv'
      simp only [Mat.diag, Mat.dotM, vdotBy_real, Finset.mul_sum, Dataset.xConj_real, totalWt, hy, hl,
        hs.g, h.x, h.varWt]
      refine Finset.sum_congr rfl fun j _ => Finset.sum_congr rfl fun l _ => ?_
      ring

end

/-! ### C77 -/

section
variable {raw : Dataset ℝ n p false} {raw' : Dataset ℝ m p false} {r : Fin m → Fin n} {std : Bool}
  {d : Dataset ℝ n p b} {d' : Dataset ℝ m p b} {env : Env ℝ} {g : Glm ℝ}
  {o : FitOptions ℝ (ncols b p)}

/-- C77: successful fits, without L1 penalty, of data that differ only in how the observations are
counted and that report the same coefficients agree in all their statistics. -/
theorem C77_statistics (h : Reweights raw raw' r) (hw : 0 < ∑ i, totalWt raw i)
    (hd : raw.finalize std b = some d) (hd' : raw'.finalize std b = some d') (hl1 : o.l1 ≤ 0)
    {f : Fit ℝ n p b} {f' : Fit ℝ m p b} (hf : regression env g d o = .ok f)
    (hf' : regression env g d' o = .ok f') (hr : f'.result = f.result) : SameUpToCount r f f' := by
  have hrw := h.finalize hw hd hd'
  obtain ⟨h1, h2, h3, hc⟩ := regression_coherent hf
  obtain ⟨h1', h2', h3', hc'⟩ := regression_coherent hf'
  obtain ⟨-, -, -, hR⟩ := regression_ofRaw hd hf
  obtain ⟨-, -, -, hR'⟩ := regression_ofRaw hd' hf'
  have hstd : f'.resultStd = f.resultStd := by
    rw [hR.resultStd, hR'.resultStd, hr, h2, h2', hrw.transformBeta]
  have hreg : f'.reg = f.reg := by
    have e1 := hc.reg
    have e2 := hc'.reg
    rw [h3] at e1
    rw [h3'] at e2
    have hg1 : Scalar.gt o.l1 0 = false := by
      rw [Bool.eq_false_iff]; intro hh; rw [gt_real] at hh; exact absurd hh (not_lt.mpr hl1)
    unfold getReg at e1 e2
    rw [hg1] at e1 e2
    dsimp only at e1 e2
    cases hg2 : Scalar.gt o.l2 0 <;> rw [hg2] at e1 e2 <;>
      simp only [Bool.false_and, Bool.false_eq_true, if_false, if_true] at e1 e2 <;>
      generalize f.reg = a at e1 <;> generalize f'.reg = a' at e2 <;> cases e1 <;> cases e2 <;> rfl
  refine recount_fit hrw hc hc' ⟨by rw [h1, h1'], hstd, hr, ?_, hreg⟩ (by rw [h3, h3']) h2 h2'
  rw [hc.like, hc'.like, h3, h3', h1, h1', h2, h2', hstd, hrw.logLike]

/-- C77: started from the same coefficients, the fits of two data sets that differ only in how the
observations are counted are the same, provided the tolerance on the log-likelihood, which grows with
the number of rows, is: the data have the same number of rows or the tolerance is zero. -/
theorem C77_same_fit (h : Reweights raw raw' r) (hw : 0 < ∑ i, totalWt raw i)
    (hd : raw.finalize std b = some d) (hd' : raw'.finalize std b = some d')
    (hi : o.initGuess.isSome) (ht : n = m ∨ o.tol = 0) :
    Related (· = ·) (fun f f' => SameUpToCount r f f' ∧ f'.history = f.history ∧ f'.nIter = f.nIter)
      (regression env g d o) (regression env g d' o) := by
  have hrw := h.finalize hw hd hd'
  have htol : o.tol * n = o.tol * m := by
    rcases ht with rfl | ht
    · rfl
    · rw [ht, zero_mul, zero_mul]
  have h0 : Irls.new g d' (initialGuess env g d' o) o = Irls.new g d (initialGuess env g d o) o := by
    unfold initialGuess Irls.new
    obtain ⟨β, hβ⟩ := Option.isSome_iff_exists.mp hi
    rw [hβ]
    dsimp only
    rw [hrw.transformBeta, hrw.logLike]
  have hl := (fitLoop_laterDone (env := env) (g := g) hrw htol.le
    (Irls.new g d (initialGuess env g d o) o) none).resolve_right fun hh => hh.1 htol
  have hok : ∀ f, regression env g d o = .ok f → f.Coherent := fun f hf => (regression_coherent hf).2.2.2
  have hok' : ∀ f, regression env g d' o = .ok f → f.Coherent :=
    fun f hf => (regression_coherent hf).2.2.2
  rw [regression_eq] at hok hok'
  rw [regression_eq, regression_eq]
  rw [h0] at hok' ⊢
  generalize fitLoop env g d o _ none = x at hl hok
  generalize fitLoop env g d' o _ none = y at hl hok'
  cases hl with
  | panic => exact .panic
  | diverge => exact .diverge
  | err e => exact .err (by rw [e])
  | @ok x y hxy =>
    obtain ⟨best, s⟩ := x
    obtain ⟨best', s'⟩ := y
    obtain ⟨h1, h2⟩ := hxy
    simp only at h1 h2
    subst h1
    simp only [Irls.mk.injEq] at h2
    obtain ⟨e1, e2, e3, e4, -, e6⟩ := h2
    have hm : s'.makeLastStep = s.makeLastStep := by simp only [Irls.makeLastStep, e1, e2, e4]
    refine .ok ⟨?_, ?_, e3⟩
    · refine recount_fit hrw (hok _ rfl) (hok' _ rfl) ⟨rfl, ?_, ?_, ?_, e2⟩ rfl rfl rfl
      · simp only [Fit.new, hm]
      · simp only [Fit.new, hm, hrw.inverseTransformBeta]
      · simp only [Fit.new, hm]
    · simp only [Fit.new, e6, hrw.inverseTransformBeta]

/-- C77: in general the fit of the data with more rows takes the same steps and may stop earlier: if
the fit with fewer rows succeeds, so does the one with more rows, and its history is the beginning of
the other's. -/
theorem C77_stops_first (h : Reweights raw raw' r) (hw : 0 < ∑ i, totalWt raw i)
    (hd : raw.finalize std b = some d) (hd' : raw'.finalize std b = some d')
    (hi : o.initGuess.isSome) (hnm : n ≤ m) (ht : 0 ≤ o.tol) {f : Fit ℝ n p b}
    (hf : regression env g d o = .ok f) :
    ∃ f', regression env g d' o = .ok f' ∧ f'.history <+: f.history := by
  have hrw := h.finalize hw hd hd'
  have htol : o.tol * n ≤ o.tol * m := mul_le_mul_of_nonneg_left (by exact_mod_cast hnm) ht
  have h0 : Irls.new g d' (initialGuess env g d' o) o = Irls.new g d (initialGuess env g d o) o := by
    unfold initialGuess Irls.new
    obtain ⟨β, hβ⟩ := Option.isSome_iff_exists.mp hi
    rw [hβ]
    dsimp only
    rw [hrw.transformBeta, hrw.logLike]
  obtain ⟨best, s, hl, rfl⟩ := regression_ok hf
  have hmap : ∀ (st st' : Irls ℝ (ncols b p)) (x x'), st'.history <+: st.history →
      (Fit.new g d' o x' st').history <+: (Fit.new g d o x st).history := by
    intro st st' x x' hp
    simp only [Fit.new, hrw.inverseTransformBeta]
    exact hp.map _
  rw [regression_eq, h0]
  rcases fitLoop_laterDone (env := env) (g := g) hrw htol
    (Irls.new g d (initialGuess env g d o) o) none with hh | ⟨-, best', s', h1, h2⟩
  · rw [hl] at hh
    generalize fitLoop env g d' o _ none = y at hh
    cases hh with
    | @ok _ y hxy =>
      obtain ⟨best', s'⟩ := y
      refine ⟨_, rfl, hmap _ _ _ _ ?_⟩
      have := congrArg Irls.history hxy.2
      simp only at this
      rw [this]
  · rw [h1]
    exact ⟨_, rfl, hmap _ _ _ _ (h2 _ _ hl)⟩

/-- C77: for integer frequencies.  If the fit of the data with frequencies `c ≥ 1` succeeds, so does the
fit, from the same start, of the data with row `i` written out `c i` times; it takes the same steps and
may stop earlier; and if it reports the same coefficients it reports the same statistics. -/
theorem C77_repeated_rows {c : Fin n → ℕ} (hc : raw.freqs = some fun i => (c i : ℝ))
    (hpos : ∀ i, 1 ≤ c i) (hw : 0 < ∑ i, totalWt raw i) (hd : raw.finalize std b = some d)
    (hi : o.initGuess.isSome) (ht : 0 ≤ o.tol) {f : Fit ℝ n p b}
    (hf : regression env g d o = .ok f) :
    ∃ d' f', (repeatRows raw c).finalize std b = some d' ∧ regression env g d' o = .ok f' ∧
      f'.history <+: f.history ∧ (o.l1 ≤ 0 → f'.result = f.result →
        SameUpToCount (fun k => (finSigmaFinEquiv.symm k).1) f f') := by
  have hr := reweights_repeatRows raw hc
  obtain ⟨d', hd', -⟩ := C11_frequencies_are_repeats hc hw hd
  have hnm : n ≤ ∑ i, c i := by
    calc n = ∑ _i : Fin n, 1 := by simp
      _ ≤ _ := Finset.sum_le_sum fun i _ => hpos i
  obtain ⟨f', hf', hp⟩ := C77_stops_first hr hw hd hd' hi hnm ht hf
  exact ⟨d', f', hd', hf', hp, fun hl1 he => C77_statistics hr hw hd hd' hl1 hf hf' he⟩

end

/-- The example: the three observations with frequencies 1, 2, 1 and the four written out, with
tolerance zero and start zero.  Both fits succeed and agree. -/
example (std : Bool) :
    ∃ (d : Dataset ℝ 3 1 true) (d' : Dataset ℝ (∑ i, ![1, 2, 1] i) 1 true)
      (f : Fit ℝ 3 1 true) (f' : Fit ℝ (∑ i, ![1, 2, 1] i) 1 true),
    (exRaw ![0, 1, 4]).finalize std true = some d ∧
    (repeatRows (exRaw ![0, 1, 4]) ![1, 2, 1]).finalize std true = some d' ∧
    regression (exactEnv 0 0) Family.linear.glm d
      { exOpts 0 0 (some 0) 1 with tol := 0 } = .ok f ∧
    regression (exactEnv 0 0) Family.linear.glm d'
      { exOpts 0 0 (some 0) 1 with tol := 0 } = .ok f' ∧
    f.result = ![-1 / 2, 2] ∧ SameUpToCount (fun k => (finSigmaFinEquiv.symm k).1) f f' := by
  have hc : (exRaw ![0, 1, 4]).freqs = some fun i => ((![1, 2, 1] i : ℕ) : ℝ) := by
    simp only [exRaw]; congr 1; funext i; fin_cases i <;> simp
  have hw : 0 < ∑ i, totalWt (exRaw ![0, 1, 4]) i :=
    Finset.sum_pos (fun i _ => exRaw_totalWt_pos _ i) Finset.univ_nonempty
  obtain ⟨d, hd⟩ := exLinSetting' std 0 le_rfl 0 1 (some 0)
  obtain ⟨f, hf, hr, -⟩ := C57_exact_least_squares (env := exactEnv 0 0)
    (options := { exOpts 0 0 (some 0) 1 with tol := 0 })
    ⟨hd.exact, hd.built, hd.noL1, hd.noL2, hd.weights, hd.rank, hd.solution⟩ rfl le_rfl
  obtain ⟨d', hd', -⟩ := C11_frequencies_are_repeats hc hw hd.built
  have h := C77_same_fit (env := exactEnv 0 0) (g := Family.linear.glm)
    (o := { exOpts 0 0 (some 0) 1 with tol := 0 }) (reweights_repeatRows _ hc) hw hd.built hd' rfl
    (.inr rfl)
  rw [hf] at h
  generalize hx : regression _ _ d' _ = x at h
  cases h with
  | ok h => exact ⟨d, d', f, _, hd.built, hd', hf, hx, hr, h.1⟩

end GLM
