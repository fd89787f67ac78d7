/-
  Lifting an invariant of single iterator calls to whole fits, for every arithmetic.
-/
import Verif.Lemmas.Regression

namespace GLM
open Scalar
variable {F : Type} [Scalar F] {n p : ℕ} {b : Bool}
variable {env : Env F} {g : Glm F} {data : Dataset F n p b} {options : FitOptions F (ncols b p)}
  {initial : Vec F (ncols b p)} {P : Irls F (ncols b p) → Prop}

theorem fitLoop_inv
    (hP : ∀ s s' v l, Irls.Inv g data options initial s → P s →
      s.nextRaw env g data options.tol = .cand s' v l → P (s'.candState v l))
    (s : Irls F (ncols b p)) (best : Option (IrlsStep F (ncols b p)))
    (hi : Irls.Inv g data options initial s) (hs : P s) :
    (∀ best' s', fitLoop env g data options s best = .ok (best', s') →
      ∃ s0, Irls.Inv g data options initial s0 ∧ P s0 ∧
        s0.nextRaw env g data options.tol = .stop s') ∧
    (∀ m hist, fitLoop env g data options s best = .err (.maxIter m hist) →
      ∃ s0 s' v l, Irls.Inv g data options initial s0 ∧ P s0 ∧
        s0.nextRaw env g data options.tol = .cand s' v l ∧
        hist = s'.history ++ [s'.candStep v l]) ∧
    (fitLoop env g data options s best = .err .linalg →
      ∃ s0 s', Irls.Inv g data options initial s0 ∧ P s0 ∧
        s0.nextRaw env g data options.tol = .linalg s') ∧
    (fitLoop env g data options s best = .diverge →
      ∃ s0 s', Irls.Inv g data options initial s0 ∧ P s0 ∧
        s0.nextRaw env g data options.tol = .diverge s') ∧
    fitLoop env g data options s best ≠ .panic := by
  revert hi hs
  refine fitLoop_ind env g data options (motive := fun s best =>
    Irls.Inv g data options initial s → P s →
    (∀ best' s', fitLoop env g data options s best = .ok (best', s') →
      ∃ s0, Irls.Inv g data options initial s0 ∧ P s0 ∧
        s0.nextRaw env g data options.tol = .stop s') ∧
    (∀ m hist, fitLoop env g data options s best = .err (.maxIter m hist) →
      ∃ s0 s' v l, Irls.Inv g data options initial s0 ∧ P s0 ∧
        s0.nextRaw env g data options.tol = .cand s' v l ∧
        hist = s'.history ++ [s'.candStep v l]) ∧
    (fitLoop env g data options s best = .err .linalg →
      ∃ s0 s', Irls.Inv g data options initial s0 ∧ P s0 ∧
        s0.nextRaw env g data options.tol = .linalg s') ∧
    (fitLoop env g data options s best = .diverge →
      ∃ s0 s', Irls.Inv g data options initial s0 ∧ P s0 ∧
        s0.nextRaw env g data options.tol = .diverge s') ∧
    fitLoop env g data options s best ≠ .panic) ?_ s best
  intro s best ih hi hs
  have hf := s.nextRaw_frame env g data options.tol
  rw [fitLoop_eq]
  cases hr : s.nextRaw env g data options.tol with
  | stop s1 =>
    refine ⟨fun best' s' h => ?_, by simp, by simp, by simp, by simp⟩
    simp only [Outcome.ok.injEq, Prod.mk.injEq] at h
    obtain ⟨-, rfl⟩ := h
    exact ⟨s, hi, hs, hr⟩
  | linalg s1 => exact ⟨by simp, by simp, fun _ => ⟨s, s1, hi, hs, hr⟩, by simp, by simp⟩
  | diverge s1 => exact ⟨by simp, by simp, by simp, fun _ => ⟨s, s1, hi, hs, hr⟩, by simp⟩
  | cand s1 v l =>
    rw [hr] at hf
    obtain ⟨hf, rfl, -⟩ := hf
    dsimp only
    split
    · refine ⟨by simp, fun m hist h => ?_, by simp, by simp, by simp⟩
      simp only [Outcome.err.injEq, FitError.maxIter.injEq] at h
      exact ⟨s, s1, v, _, hi, hs, hr, h.2.symm⟩
    · rename_i hle
      exact ih s1 v _ hr (not_lt.mp hle) ((hi.frame hf).cand v) (hP s s1 v _ hi hs hr)

/-- A property of iterator states that holds initially and is kept by every step holds at the end
of every successful fit, where the iterator then stopped. -/
theorem regression_inv {f : Fit F n p b} (h : regression env g data options = .ok f)
    (h0 : P (Irls.new g data (initialGuess env g data options) options))
    (hP : ∀ s s' v l, Irls.Inv g data options (initialGuess env g data options) s → P s →
      s.nextRaw env g data options.tol = .cand s' v l → P (s'.candState v l)) :
    ∃ s0 s', Irls.Inv g data options (initialGuess env g data options) s0 ∧ P s0 ∧
      s0.nextRaw env g data options.tol = .stop s' ∧
      f.history = s0.history.map fun st =>
        { guess := data.inverseTransformBeta st.guess, like := st.like } := by
  obtain ⟨best, s, hl, rfl⟩ := regression_ok h
  obtain ⟨s0, hi, hp, hn⟩ := (fitLoop_inv hP _ none Irls.Inv.new h0).1 best s hl
  have hf := s0.nextRaw_frame env g data options.tol
  rw [hn] at hf
  exact ⟨s0, s, hi, hp, hn, by rw [← hf.history]; rfl⟩

/-- If no state with the invariant fails, and none that still steps has reached the budget, the fit
succeeds. -/
theorem regression_total
    (h0 : P (Irls.new g data (initialGuess env g data options) options))
    (hP : ∀ s s' v l, Irls.Inv g data options (initialGuess env g data options) s → P s →
      s.nextRaw env g data options.tol = .cand s' v l → P (s'.candState v l))
    (hlin : ∀ s s', Irls.Inv g data options (initialGuess env g data options) s → P s →
      s.nextRaw env g data options.tol ≠ .linalg s')
    (hdiv : ∀ s s', Irls.Inv g data options (initialGuess env g data options) s → P s →
      s.nextRaw env g data options.tol ≠ .diverge s')
    (hbud : ∀ s s' v l, Irls.Inv g data options (initialGuess env g data options) s → P s →
      s.nextRaw env g data options.tol = .cand s' v l → s.history.length ≠ options.maxIter) :
    ∃ f, regression env g data options = .ok f := by
  obtain ⟨-, h2, h3, h4, h5⟩ := fitLoop_inv hP _ none Irls.Inv.new h0
  rw [regression_eq]
  split
  · exact ⟨_, rfl⟩
  · rename_i e hr
    exfalso
    cases e with
    | linalg =>
      obtain ⟨s0, s', hi, hp, hn⟩ := h3 hr
      exact hlin s0 s' hi hp hn
    | maxIter m hist =>
      obtain ⟨s0, s', v, l, hi, hp, hn, hh⟩ := h2 m hist hr
      refine hbud s0 s' v l hi hp hn ?_
      obtain ⟨h6, h7, -⟩ := fitLoop_maxIter Irls.Inv.new (Nat.zero_le _) hr
      have hf := s0.nextRaw_frame env g data options.tol
      rw [hn] at hf
      rw [hh, hf.1.history, List.length_append, List.length_singleton] at h7
      omega
  · rename_i hr; exact absurd hr h5
  · rename_i hr
    obtain ⟨s0, s', hi, hp, hn⟩ := h4 hr
    exact absurd hn (hdiv s0 s' hi hp)

/-- A relation that holds for every accepted step holds between consecutive points of a successful
fit, starting from the initial guess (all on the internal scale). -/
theorem regression_chain {R : Vec F (ncols b p) → Vec F (ncols b p) → Prop} {f : Fit F n p b}
    (h : regression env g data options = .ok f)
    (hR : ∀ s s' v l, Irls.Inv g data options (initialGuess env g data options) s →
      s.nextRaw env g data options.tol = .cand s' v l → R s.guess v) :
    ∃ hist : List (IrlsStep F (ncols b p)),
      f.history = hist.map (fun st =>
        { guess := data.inverseTransformBeta st.guess, like := st.like }) ∧
      (initialGuess env g data options :: hist.map IrlsStep.guess).IsChain R := by
  obtain ⟨s0, s', -, hp, -, hh⟩ := regression_inv h
    (P := fun s => (initialGuess env g data options :: s.history.map IrlsStep.guess).IsChain R)
    (by simp [Irls.new])
    (by
      intro s s' v l hi hs hn
      have hf := s.nextRaw_frame env g data options.tol
      rw [hn] at hf
      obtain ⟨hf, rfl, -⟩ := hf
      simp only [Irls.candState, List.map_append, hf.history, ← List.cons_append]
      refine List.IsChain.append hs (by simp) ?_
      intro x hx y hy
      simp only [List.map_cons, List.map_nil, List.head?_cons, Option.mem_def,
        Option.some.injEq, Irls.candStep] at hy
      subst hy
      have hg := hi.guess
      have : x = s.guess := by
        rw [hg]
        simp only [List.getLast?_cons, Option.mem_def, Option.some.injEq, List.getLast?_map] at hx
        exact hx.symm
      rw [this]
      exact hR s s' v _ hi hn)
  exact ⟨s0.history, hh, hp⟩

end GLM
