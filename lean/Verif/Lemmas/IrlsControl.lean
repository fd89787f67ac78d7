/-
  Control flow of the IRLS iterator, for every arithmetic.
-/
import Verif.Model.Fit

namespace GLM
open Scalar
variable {F : Type} [Scalar F] {n p k : ℕ} {b : Bool}

/-- Outcome of one iterator call before the iteration budget is applied. -/
inductive RawNext (F : Type) (k : ℕ) where
  | stop (s : Irls F k)
  | linalg (s : Irls F k)
  | diverge (s : Irls F k)
  | cand (s : Irls F k) (v : Vec F k) (l : F)

namespace Irls

/-- `next` without the budget check of `step_with`. -/
def nextRaw (env : Env F) (g : Glm F) (data : Dataset F n p b) (tol : F)
    (s : Irls F (ncols b p)) : RawNext F (ncols b p) :=
  if s.done then .stop s
  else
    let mv := irlsMatVec env.eps g data s.guess
    let ng := s.reg.nextGuess env s.guess mv.2 mv.1
    let s := { s with reg := ng.1 }
    match ng.2 with
    | .error _ => .linalg s
    | .ok nextGuess =>
      let nextLikeData := g.logLike data nextGuess
      let lastLikeObj := s.lastLikeData + s.reg.irlsLike s.guess
      let nextLikeObj := nextLikeData + s.reg.irlsLike nextGuess
      if !s.reg.terminateOk tol then .cand s nextGuess nextLikeData
      else if vecEq nextGuess s.guess then .stop s
      else
        let nObs : F := ofNat n
        let s := if smallDelta nextLikeObj lastLikeObj (tol * nObs)
            && smallDeltaVec nextGuess s.guess tol then { s with done := true } else s
        if gt nextLikeObj lastLikeObj then .cand s nextGuess nextLikeData
        else
          let f := fStep g data s.reg s.guess nextGuess
          let betaTolFactor := sqrt (vsum fun j => 1 + s.guess j * s.guess j)
          match stepScale env.fuel f (betaTolFactor * tol) with
          | none => .diverge s
          | some stepMult =>
            if eq stepMult 0 then .stop s
            else
              let nextGuess' : Vec F (ncols b p) :=
                fun j => nextGuess j * stepMult + s.guess j * (1 - stepMult)
              .cand s nextGuess' (g.logLike data nextGuess')

/-- The step recorded for a candidate. -/
def candStep (s : Irls F k) (v : Vec F k) (l : F) : IrlsStep F k :=
  { guess := v, like := l + s.reg.likelihood v }

/-- The state after recording a candidate. -/
def candState (s : Irls F k) (v : Vec F k) (l : F) : Irls F k :=
  { s with guess := v, lastLikeData := l, history := s.history ++ [s.candStep v l],
           nIter := s.nIter + 1 }

/-- Apply the iteration budget. -/
def budget (maxIter : ℕ) : RawNext F k → NextRes F k × Irls F k
  | .stop s => (.stop, s)
  | .linalg s => (.fail .linalg, s)
  | .diverge s => (.diverge, s)
  | .cand s v l =>
    if s.nIter + 1 > maxIter then
      (.fail (.maxIter maxIter (s.history ++ [s.candStep v l])), s.candState v l)
    else (.step (s.candStep v l), s.candState v l)

theorem stepWith_eq (maxIter : ℕ) (s : Irls F k) (v : Vec F k) (l : F) :
    s.stepWith maxIter v l = budget maxIter (.cand s v l) := rfl

theorem next_eq (env : Env F) (g : Glm F) (data : Dataset F n p b)
    (options : FitOptions F (ncols b p)) (s : Irls F (ncols b p)) :
    s.next env g data options = budget options.maxIter (s.nextRaw env g data options.tol) := by
  unfold next nextRaw
  cases hd : s.done
  · simp only [Bool.false_eq_true, if_false]
    generalize irlsMatVec env.eps g data s.guess = mv
    generalize s.reg.nextGuess env s.guess mv.2 mv.1 = ng
    obtain ⟨r, e⟩ := ng
    cases e with
    | error e => rfl
    | ok v =>
      dsimp only
      cases r.terminateOk options.tol
      · rfl
      · simp only [Bool.not_true, Bool.false_eq_true, if_false]
        cases vecEq v s.guess
        · simp only [Bool.false_eq_true, if_false]
          generalize (if (smallDelta (g.logLike data v + r.irlsLike v)
              (s.lastLikeData + r.irlsLike s.guess) (options.tol * ofNat n)
              && smallDeltaVec v s.guess options.tol) = true then _
            else _ : Irls F (ncols b p)) = s1
          cases gt (g.logLike data v + r.irlsLike v) (s.lastLikeData + r.irlsLike s.guess)
          · simp only [Bool.false_eq_true, if_false]
            cases stepScale env.fuel (fStep g data s1.reg s1.guess v)
                (sqrt (vsum fun j => 1 + s1.guess j * s1.guess j) * options.tol) with
            | none => rfl
            | some m =>
              dsimp only
              cases eq m 0 <;> rfl
          · rfl
        · rfl
  · rfl

/-- The state after `prepare`. -/
def prep (s : Irls F k) : Irls F k := { s with reg := s.reg.prepare s.guess }

/-- The outcome of solving the IRLS system at `s`. -/
def sol (env : Env F) (g : Glm F) (data : Dataset F n p b) (s : Irls F (ncols b p)) :
    Except LinalgError (Vec F (ncols b p)) :=
  env.solveh ((s.reg.prepare s.guess).irlsMat (irlsMatVec env.eps g data s.guess).1 s.guess)
    ((s.reg.prepare s.guess).irlsVec (irlsMatVec env.eps g data s.guess).2 s.guess)

/-- The objective the line search compares, at the current point. -/
def lastObj (s : Irls F k) : F := s.lastLikeData + (s.reg.prepare s.guess).irlsLike s.guess

/-- The objective at a new point. -/
def nextObj (g : Glm F) (data : Dataset F n p b) (s : Irls F (ncols b p))
    (v : Vec F (ncols b p)) : F := g.logLike data v + (s.reg.prepare s.guess).irlsLike v

/-- Whether the step to `v` is small enough to stop afterwards. -/
def small (g : Glm F) (data : Dataset F n p b) (tol : F) (s : Irls F (ncols b p))
    (v : Vec F (ncols b p)) : Bool :=
  smallDelta (s.nextObj g data v) s.lastObj (tol * ofNat n) && smallDeltaVec v s.guess tol

/-- The line search from `s` towards `v`. -/
def scale (env : Env F) (g : Glm F) (data : Dataset F n p b) (tol : F) (s : Irls F (ncols b p))
    (v : Vec F (ncols b p)) : Option F :=
  stepScale env.fuel (fStep g data (s.reg.prepare s.guess) s.guess v)
    (sqrt (vsum fun j => 1 + s.guess j * s.guess j) * tol)

/-- The interpolated guess. -/
def interp (s v : Vec F k) (m : F) : Vec F k := fun j => v j * m + s j * (1 - m)

/-- All the ways one iterator call can go. -/
inductive NextCase (env : Env F) (g : Glm F) (data : Dataset F n p b) (tol : F)
    (s : Irls F (ncols b p)) : RawNext F (ncols b p) → Prop
  | done (h : s.done = true) : NextCase env g data tol s (.stop s)
  | linalg (h : s.done = false) (e) (hs : s.sol env g data = .error e) :
      NextCase env g data tol s (.linalg s.prep)
  | admm (h : s.done = false) (v) (hs : s.sol env g data = .ok v)
      (ht : (s.reg.prepare s.guess).terminateOk tol = false) :
      NextCase env g data tol s (.cand s.prep v (g.logLike data v))
  | equal (h : s.done = false) (v) (hs : s.sol env g data = .ok v)
      (ht : (s.reg.prepare s.guess).terminateOk tol = true) (he : vecEq v s.guess = true) :
      NextCase env g data tol s (.stop s.prep)
  | full (h : s.done = false) (v) (hs : s.sol env g data = .ok v)
      (ht : (s.reg.prepare s.guess).terminateOk tol = true) (he : vecEq v s.guess = false)
      (hg : gt (s.nextObj g data v) s.lastObj = true) :
      NextCase env g data tol s
        (.cand { s.prep with done := s.small g data tol v } v (g.logLike data v))
  | diverge (h : s.done = false) (v) (hs : s.sol env g data = .ok v)
      (ht : (s.reg.prepare s.guess).terminateOk tol = true) (he : vecEq v s.guess = false)
      (hg : gt (s.nextObj g data v) s.lastObj = false) (hm : s.scale env g data tol v = none) :
      NextCase env g data tol s (.diverge { s.prep with done := s.small g data tol v })
  | zero (h : s.done = false) (v) (hs : s.sol env g data = .ok v)
      (ht : (s.reg.prepare s.guess).terminateOk tol = true) (he : vecEq v s.guess = false)
      (hg : gt (s.nextObj g data v) s.lastObj = false) (m) (hm : s.scale env g data tol v = some m)
      (h0 : eq m 0 = true) :
      NextCase env g data tol s (.stop { s.prep with done := s.small g data tol v })
  | scaled (h : s.done = false) (v) (hs : s.sol env g data = .ok v)
      (ht : (s.reg.prepare s.guess).terminateOk tol = true) (he : vecEq v s.guess = false)
      (hg : gt (s.nextObj g data v) s.lastObj = false) (m) (hm : s.scale env g data tol v = some m)
      (h0 : eq m 0 = false) :
      NextCase env g data tol s (.cand { s.prep with done := s.small g data tol v }
        (interp s.guess v m) (g.logLike data (interp s.guess v m)))

theorem nextRaw_case (env : Env F) (g : Glm F) (data : Dataset F n p b) (tol : F)
    (s : Irls F (ncols b p)) : NextCase env g data tol s (s.nextRaw env g data tol) := by
  unfold nextRaw
  by_cases hd' : s.done = true
  case pos => rw [if_pos hd']; exact .done hd'
  case neg =>
    rw [if_neg hd']
    have hd : s.done = false := by simpa using hd'
    have hmark : ∀ c : Bool, (if c = true then { s.prep with done := true } else s.prep)
        = { s.prep with done := c } := by
      intro c
      cases c
      · simp [prep, hd]
      · rfl
    change NextCase env g data tol s (match s.sol env g data with
      | .error _ => .linalg s.prep
      | .ok v =>
        if !(s.reg.prepare s.guess).terminateOk tol then .cand s.prep v (g.logLike data v)
        else if vecEq v s.guess then .stop s.prep
        else
          let s1 := if s.small g data tol v = true then { s.prep with done := true } else s.prep
          if gt (s.nextObj g data v) s.lastObj then .cand s1 v (g.logLike data v)
          else
            match stepScale env.fuel (fStep g data s1.reg s1.guess v)
              (sqrt (vsum fun j => 1 + s1.guess j * s1.guess j) * tol) with
            | none => .diverge s1
            | some m => if eq m 0 then .stop s1
              else .cand s1 (interp s1.guess v m) (g.logLike data (interp s1.guess v m)))
    simp only [hmark]
    cases hs : s.sol env g data with
    | error e => exact .linalg hd e hs
    | ok v =>
      dsimp only
      cases ht : (s.reg.prepare s.guess).terminateOk tol
      · exact .admm hd v hs ht
      · cases he : vecEq v s.guess
        · cases hg : gt (s.nextObj g data v) s.lastObj
          · change NextCase env g data tol s (match s.scale env g data tol v with
              | none => .diverge { s.prep with done := s.small g data tol v }
              | some m => if eq m 0 then .stop { s.prep with done := s.small g data tol v }
                else .cand { s.prep with done := s.small g data tol v }
                  (interp s.guess v m) (g.logLike data (interp s.guess v m)))
            cases hm : s.scale env g data tol v with
            | none => exact .diverge hd v hs ht he hg hm
            | some m =>
              dsimp only
              cases h0 : eq m 0
              · exact .scaled hd v hs ht he hg m hm h0
              · exact .zero hd v hs ht he hg m hm h0
          · exact .full hd v hs ht he hg
        · exact .equal hd v hs ht he

section compute
variable {env : Env F} {g : Glm F} {data : Dataset F n p b} {tol : F} {s : Irls F (ncols b p)}
  {v : Vec F (ncols b p)}

theorem nextRaw_done (h : s.done = true) : s.nextRaw env g data tol = .stop s := by
  unfold nextRaw; rw [if_pos h]

theorem nextRaw_linalg {e} (h : s.done = false) (hs : s.sol env g data = .error e) :
    s.nextRaw env g data tol = .linalg s.prep := by
  have hc := nextRaw_case env g data tol s
  generalize s.nextRaw env g data tol = r at hc
  cases hc <;> first | rfl | simp_all

theorem nextRaw_equal (h : s.done = false) (hs : s.sol env g data = .ok v)
    (ht : (s.reg.prepare s.guess).terminateOk tol = true) (he : vecEq v s.guess = true) :
    s.nextRaw env g data tol = .stop s.prep := by
  have hc := nextRaw_case env g data tol s
  generalize s.nextRaw env g data tol = r at hc
  cases hc <;> first | rfl | simp_all

theorem nextRaw_full (h : s.done = false) (hs : s.sol env g data = .ok v)
    (ht : (s.reg.prepare s.guess).terminateOk tol = true) (he : vecEq v s.guess = false)
    (hg : gt (s.nextObj g data v) s.lastObj = true) :
    s.nextRaw env g data tol =
      .cand { s.prep with done := s.small g data tol v } v (g.logLike data v) := by
  have hc := nextRaw_case env g data tol s
  generalize s.nextRaw env g data tol = r at hc
  cases hc
  case full _ _ hs' _ _ _ =>
    rw [hs] at hs'; cases hs'; rfl
  all_goals simp_all

end compute

/-- How one iterator call may change the state. -/
structure Frame (s s' : Irls F k) : Prop where
  guess : s'.guess = s.guess
  nIter : s'.nIter = s.nIter
  lastLikeData : s'.lastLikeData = s.lastLikeData
  history : s'.history = s.history
  reg : s'.reg = s.reg ∨ s'.reg = s.reg.prepare s.guess

/-- Everything most control-flow proofs need to know about one call. -/
theorem nextRaw_frame (env : Env F) (g : Glm F) (data : Dataset F n p b) (tol : F)
    (s : Irls F (ncols b p)) :
    match s.nextRaw env g data tol with
    | .stop s' => Frame s s'
    | .linalg s' => Frame s s'
    | .diverge s' => Frame s s'
    | .cand s' v l => Frame s s' ∧ l = g.logLike data v ∧ s'.reg = s.reg.prepare s.guess := by
  have h := nextRaw_case env g data tol s
  generalize s.nextRaw env g data tol = r at h
  cases h
  case done => exact ⟨rfl, rfl, rfl, rfl, Or.inl rfl⟩
  case linalg => exact ⟨rfl, rfl, rfl, rfl, Or.inr rfl⟩
  case admm => exact ⟨⟨rfl, rfl, rfl, rfl, Or.inr rfl⟩, rfl, rfl⟩
  case equal => exact ⟨rfl, rfl, rfl, rfl, Or.inr rfl⟩
  case full => exact ⟨⟨rfl, rfl, rfl, rfl, Or.inr rfl⟩, rfl, rfl⟩
  case diverge => exact ⟨rfl, rfl, rfl, rfl, Or.inr rfl⟩
  case zero => exact ⟨rfl, rfl, rfl, rfl, Or.inr rfl⟩
  case scaled => exact ⟨⟨rfl, rfl, rfl, rfl, Or.inr rfl⟩, rfl, rfl⟩

end Irls

/-- Preparing a regularizer does not change its penalty. -/
theorem Reg.prepare_likelihood (r : Reg F k) (v : Vec F k) :
    (r.prepare v).likelihood = r.likelihood := by
  cases r <;> rfl

theorem Irls.Frame.likelihood {s s' : Irls F k} (h : Irls.Frame s s') :
    s'.reg.likelihood = s.reg.likelihood := by
  rcases h.reg with h | h <;> rw [h]
  exact Reg.prepare_likelihood _ _

/-- Two regularizers with the same penalty vectors (the ADMM state may differ). -/
inductive Reg.Same : Reg F k → Reg F k → Prop
  | null : Reg.Same .null .null
  | ridge (l2) : Reg.Same (.ridge l2) (.ridge l2)
  | lasso (l1 st st') : Reg.Same (.lasso l1 st) (.lasso l1 st')
  | elastic (l1 l2 st st') : Reg.Same (.elastic l1 l2 st) (.elastic l1 l2 st')

omit [Scalar F] in
theorem Reg.Same.refl (r : Reg F k) : Reg.Same r r := by
  cases r <;> constructor

theorem Reg.Same.prepare {r r' : Reg F k} (h : Reg.Same r r') (v : Vec F k) :
    Reg.Same (r.prepare v) r' := by
  cases h <;> constructor

theorem Reg.Same.likelihood {r r' : Reg F k} (h : Reg.Same r r') :
    r.likelihood = r'.likelihood := by
  cases h <;> rfl

theorem Reg.Same.gradient {r r' : Reg F k} (h : Reg.Same r r') : r.gradient = r'.gradient := by
  cases h <;> rfl

/-- The invariant of the iteration. -/
structure Irls.Inv (g : Glm F) (data : Dataset F n p b) (options : FitOptions F (ncols b p))
    (initial : Vec F (ncols b p)) (s : Irls F (ncols b p)) : Prop where
  nIter : s.nIter = s.history.length
  same : Reg.Same s.reg (getReg options)
  hist : ∀ st ∈ s.history, st.like = g.logLike data st.guess + (getReg options).likelihood st.guess
  last : s.lastLikeData = g.logLike data s.guess
  guess : s.guess = (s.history.getLast?.map IrlsStep.guess).getD initial

namespace Irls.Inv
variable {env : Env F} {g : Glm F} {data : Dataset F n p b} {options : FitOptions F (ncols b p)}
  {initial : Vec F (ncols b p)} {s s' : Irls F (ncols b p)}

theorem new : Irls.Inv g data options initial (Irls.new g data initial options) :=
  ⟨rfl, Reg.Same.refl _, by simp [Irls.new], rfl, rfl⟩

theorem frame (h : Irls.Inv g data options initial s) (hf : Irls.Frame s s') :
    Irls.Inv g data options initial s' where
  nIter := by rw [hf.nIter, hf.history, h.nIter]
  same := by
    rcases hf.reg with hr | hr <;> rw [hr]
    · exact h.same
    · exact h.same.prepare _
  hist := by rw [hf.history]; exact h.hist
  last := by rw [hf.lastLikeData, hf.guess, h.last]
  guess := by rw [hf.guess, hf.history, h.guess]

theorem cand (h : Irls.Inv g data options initial s) (v : Vec F (ncols b p)) :
    Irls.Inv g data options initial (s.candState v (g.logLike data v)) where
  nIter := by simp [Irls.candState, h.nIter]
  same := h.same
  hist := by
    intro st hst
    simp only [Irls.candState, List.mem_append, List.mem_singleton] at hst
    rcases hst with hst | rfl
    · exact h.hist st hst
    · simp [Irls.candStep, h.same.likelihood]
  last := rfl
  guess := by simp [Irls.candState, Irls.candStep]

end Irls.Inv

/-- The fitting loop, one case per outcome of `next`. -/
theorem fitLoop_eq (env : Env F) (g : Glm F) (data : Dataset F n p b)
    (options : FitOptions F (ncols b p)) (s : Irls F (ncols b p))
    (best? : Option (IrlsStep F (ncols b p))) :
    fitLoop env g data options s best? =
      match s.nextRaw env g data options.tol with
      | .stop s' => .ok (best?, s')
      | .linalg _ => .err .linalg
      | .diverge _ => .diverge
      | .cand s' v l =>
        if s'.nIter + 1 > options.maxIter then
          .err (.maxIter options.maxIter (s'.history ++ [s'.candStep v l]))
        else fitLoop env g data options (s'.candState v l)
          (some (maxByLike best? (s'.candStep v l))) := by
  rw [fitLoop]
  have h := Irls.next_eq env g data options s
  split <;> rename_i heq <;> rw [heq] at h <;> unfold Irls.budget at h <;>
    split at h <;> rename_i hr <;> simp only [hr] <;> (try split at h) <;>
    simp_all

section
variable {env : Env F} {g : Glm F} {data : Dataset F n p b} {options : FitOptions F (ncols b p)}
  {initial : Vec F (ncols b p)}

/-- Induction over the fitting loop. -/
theorem fitLoop_ind (env : Env F) (g : Glm F) (data : Dataset F n p b)
    (options : FitOptions F (ncols b p))
    {motive : Irls F (ncols b p) → Option (IrlsStep F (ncols b p)) → Prop}
    (step : ∀ s best, (∀ s' v l, s.nextRaw env g data options.tol = .cand s' v l →
      s'.nIter + 1 ≤ options.maxIter →
      motive (s'.candState v l) (some (maxByLike best (s'.candStep v l)))) → motive s best)
    (s : Irls F (ncols b p)) (best : Option (IrlsStep F (ncols b p))) : motive s best := by
  apply step
  intro s' v l h hle
  have hf := s.nextRaw_frame env g data options.tol
  rw [h] at hf
  have : s'.nIter = s.nIter := hf.1.nIter
  exact fitLoop_ind env g data options step (s'.candState v l) _
termination_by options.maxIter - s.nIter
decreasing_by
  simp only [Irls.candState]
  omega

/-- The loop preserves the invariant, respects the budget and only extends the history. -/
theorem fitLoop_ok {s s' : Irls F (ncols b p)} {best best' : Option (IrlsStep F (ncols b p))}
    (hi : Irls.Inv g data options initial s) (hb : s.nIter ≤ options.maxIter)
    (h : fitLoop env g data options s best = .ok (best', s')) :
    Irls.Inv g data options initial s' ∧ s'.nIter ≤ options.maxIter ∧
      ∃ rest, s'.history = s.history ++ rest ∧
        best' = rest.foldl (fun acc st => some (maxByLike acc st)) best := by
  refine fitLoop_ind env g data options (motive := fun s best => ∀ s' best',
    fitLoop env g data options s best = .ok (best', s') →
    Irls.Inv g data options initial s → s.nIter ≤ options.maxIter →
    Irls.Inv g data options initial s' ∧ s'.nIter ≤ options.maxIter ∧
      ∃ rest, s'.history = s.history ++ rest ∧
        best' = rest.foldl (fun acc st => some (maxByLike acc st)) best) ?_ s best s' best' h hi hb
  intro s best ih s' best' h hi hb
  rw [fitLoop_eq] at h
  have hf := s.nextRaw_frame env g data options.tol
  split at h <;> rename_i hr <;> rw [hr] at hf
  · simp only [Outcome.ok.injEq, Prod.mk.injEq] at h
    obtain ⟨rfl, rfl⟩ := h
    exact ⟨hi.frame hf, by rw [hf.nIter]; exact hb, [], by simp [hf.history], rfl⟩
  · simp at h
  · simp at h
  · obtain ⟨hf, rfl, -⟩ := hf
    split at h
    · simp at h
    · rename_i hle
      obtain ⟨h1, h2, rest, h3, h4⟩ := ih _ _ _ hr (not_lt.mp hle) _ _ h
        ((hi.frame hf).cand _) (not_lt.mp hle)
      refine ⟨h1, h2, Irls.candStep _ _ _ :: rest, ?_, h4⟩
      rw [h3]
      simp [Irls.candState, hf.history]

/-- A `MaxIter` error carries the budget and one more step than it allows. -/
theorem fitLoop_maxIter {s : Irls F (ncols b p)} {best : Option (IrlsStep F (ncols b p))}
    {m : ℕ} {hist : List (IrlsStep F (ncols b p))}
    (hi : Irls.Inv g data options initial s) (hb : s.nIter ≤ options.maxIter)
    (h : fitLoop env g data options s best = .err (.maxIter m hist)) :
    m = options.maxIter ∧ hist.length = m + 1 ∧ (∃ rest, hist = s.history ++ rest) ∧
      ∀ st ∈ hist, st.like = g.logLike data st.guess + (getReg options).likelihood st.guess := by
  revert hi hb
  refine fitLoop_ind env g data options (motive := fun s best =>
    fitLoop env g data options s best = .err (.maxIter m hist) →
    Irls.Inv g data options initial s → s.nIter ≤ options.maxIter →
    m = options.maxIter ∧ hist.length = m + 1 ∧ (∃ rest, hist = s.history ++ rest) ∧
      ∀ st ∈ hist, st.like = g.logLike data st.guess + (getReg options).likelihood st.guess)
    ?_ s best h
  intro s best ih h hi hb
  rw [fitLoop_eq] at h
  have hf := s.nextRaw_frame env g data options.tol
  split at h <;> rename_i hr <;> rw [hr] at hf
  · simp at h
  · simp at h
  · simp at h
  · obtain ⟨hf, rfl, -⟩ := hf
    split at h
    · rename_i s' v hgt
      simp only [Outcome.err.injEq, FitError.maxIter.injEq] at h
      obtain ⟨rfl, rfl⟩ := h
      have hn : s'.nIter ≤ options.maxIter := by rw [hf.nIter]; exact hb
      refine ⟨rfl, ?_, ⟨[_], by rw [hf.history]⟩, ?_⟩
      · have := (hi.frame hf).nIter
        simp only [List.length_append, List.length_singleton]
        omega
      · exact ((hi.frame hf).cand v).hist
    · rename_i hle
      obtain ⟨h1, h2, ⟨rest, h3⟩, h4⟩ := ih _ _ _ hr (not_lt.mp hle) h ((hi.frame hf).cand _)
        (not_lt.mp hle)
      rename_i s' v
      refine ⟨h1, h2, ⟨Irls.candStep s' v (g.logLike data v) :: rest, ?_⟩, h4⟩
      rw [h3]
      simp [Irls.candState, hf.history]

/-- Changing the budget: a successful run is reproduced exactly if the budget suffices and is cut
after `M + 1` steps otherwise. -/
theorem fitLoop_budget_ok {s s' : Irls F (ncols b p)} {best best' : Option (IrlsStep F (ncols b p))}
    (M : ℕ) (hi : Irls.Inv g data options initial s) (hM : s.nIter ≤ M)
    (h : fitLoop env g data options s best = .ok (best', s')) :
    (s'.nIter ≤ M →
      fitLoop env g data { options with maxIter := M } s best = .ok (best', s')) ∧
    (M < s'.nIter → fitLoop env g data { options with maxIter := M } s best
      = .err (.maxIter M (s'.history.take (M + 1)))) := by
  refine fitLoop_ind env g data options (motive := fun s best => ∀ s' best',
    fitLoop env g data options s best = .ok (best', s') →
    Irls.Inv g data options initial s → s.nIter ≤ M →
    (s'.nIter ≤ M →
      fitLoop env g data { options with maxIter := M } s best = .ok (best', s')) ∧
    (M < s'.nIter → fitLoop env g data { options with maxIter := M } s best
      = .err (.maxIter M (s'.history.take (M + 1))))) ?_ s best s' best' h hi hM
  intro s best ih s' best' h hi hM
  rw [fitLoop_eq] at h
  rw [fitLoop_eq env g data { options with maxIter := M }]
  dsimp only
  have hf := s.nextRaw_frame env g data options.tol
  split at h <;> rename_i hr <;> rw [hr] at hf
  · simp only [Outcome.ok.injEq, Prod.mk.injEq] at h
    obtain ⟨rfl, rfl⟩ := h
    have := hf.nIter
    exact ⟨fun _ => rfl, fun _ => by omega⟩
  · simp at h
  · simp at h
  · obtain ⟨hf, rfl, -⟩ := hf
    split at h
    · simp at h
    · rename_i s1 v hle
      have hc := (hi.frame hf).cand v
      obtain ⟨-, -, rest, h3, -⟩ := fitLoop_ok hc (not_lt.mp hle) h
      by_cases hlt : s1.nIter + 1 > M
      · simp only [hlt, if_true]
        have hn := hc.nIter
        have hlen : (Irls.candState s1 v (g.logLike data v)).history.length = M + 1 := by
          have := hf.nIter
          simp only [Irls.candState] at hn ⊢
          omega
        refine ⟨fun hle' => ?_, fun _ => ?_⟩
        · obtain ⟨h1, -⟩ := fitLoop_ok hc (not_lt.mp hle) h
          have := h1.nIter
          rw [h3, List.length_append, hlen] at this
          omega
        · rw [h3, ← hlen, List.take_left]
          rfl
      · simp only [hlt, if_false]
        exact ih _ _ _ hr (not_lt.mp hle) _ _ h hc (not_lt.mp hlt)

/-- Changing the budget of a run that exceeded it: any smaller budget is exceeded too. -/
theorem fitLoop_budget_err {s : Irls F (ncols b p)} {best : Option (IrlsStep F (ncols b p))}
    {m : ℕ} {hist : List (IrlsStep F (ncols b p))} (M : ℕ)
    (hi : Irls.Inv g data options initial s) (hM : s.nIter ≤ M) (hMm : M ≤ options.maxIter)
    (h : fitLoop env g data options s best = .err (.maxIter m hist)) :
    fitLoop env g data { options with maxIter := M } s best
      = .err (.maxIter M (hist.take (M + 1))) := by
  revert hi hM
  refine fitLoop_ind env g data options (motive := fun s best =>
    fitLoop env g data options s best = .err (.maxIter m hist) →
    Irls.Inv g data options initial s → s.nIter ≤ M →
    fitLoop env g data { options with maxIter := M } s best
      = .err (.maxIter M (hist.take (M + 1)))) ?_ s best h
  intro s best ih h hi hM
  have hall := fitLoop_maxIter hi (le_trans hM hMm) h
  rw [fitLoop_eq] at h
  rw [fitLoop_eq env g data { options with maxIter := M }]
  dsimp only
  have hf := s.nextRaw_frame env g data options.tol
  split at h <;> rename_i hr <;> rw [hr] at hf
  · simp at h
  · simp at h
  · simp at h
  · obtain ⟨hf, rfl, -⟩ := hf
    rename_i s1 v
    have hc := (hi.frame hf).cand v
    have hlen0 := hc.nIter
    have hni := hf.nIter
    simp only [Irls.candState, List.length_append, List.length_singleton] at hlen0
    split at h
    · rename_i hgt
      simp only [Outcome.err.injEq, FitError.maxIter.injEq] at h
      obtain ⟨rfl, rfl⟩ := h
      have : s1.nIter + 1 > M := by omega
      simp only [this, if_true]
      rw [List.take_of_length_le]
      simp only [List.length_append, List.length_singleton]
      omega
    · rename_i hle
      obtain ⟨-, -, ⟨rest, h3⟩, -⟩ := fitLoop_maxIter hc (not_lt.mp hle) h
      by_cases hlt : s1.nIter + 1 > M
      · simp only [hlt, if_true]
        have hlen : (Irls.candState s1 v (g.logLike data v)).history.length = M + 1 := by
          simp only [Irls.candState, List.length_append, List.length_singleton]
          omega
        rw [h3, ← hlen, List.take_left]
        rfl
      · simp only [hlt, if_false]
        exact ih _ _ _ hr (not_lt.mp hle) h hc (not_lt.mp hlt)

end

end GLM
