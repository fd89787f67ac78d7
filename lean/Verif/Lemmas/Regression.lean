/-
  What every successful fit satisfies, for every arithmetic.
-/
import Verif.Lemmas.IrlsControl
import Mathlib.Data.List.Basic

namespace GLM
open Scalar
variable {F : Type} [Scalar F] {n p k : ℕ} {b : Bool}
variable {env : Env F} {g : Glm F} {data : Dataset F n p b} {options : FitOptions F (ncols b p)}

theorem regression_eq : regression env g data options =
    match fitLoop env g data options
      (Irls.new g data (initialGuess env g data options) options) none with
    | .ok (best, s) => .ok (Fit.new g data options (best.getD s.makeLastStep) s)
    | .err e => .err e
    | .panic => .panic
    | .diverge => .diverge := by
  unfold regression regressionCore
  dsimp only
  generalize fitLoop env g data options _ none = r
  rcases r with ⟨best, s⟩ | e | _ | _ <;> rfl

theorem regression_ok {f : Fit F n p b} (h : regression env g data options = .ok f) :
    ∃ best s, fitLoop env g data options
        (Irls.new g data (initialGuess env g data options) options) none = .ok (best, s) ∧
      f = Fit.new g data options (best.getD s.makeLastStep) s := by
  rw [regression_eq] at h
  split at h <;> rename_i hr
  · rename_i best s
    exact ⟨best, s, hr, by simpa using h.symm⟩
  all_goals simp at h

theorem regression_err {e : FitError F (ncols b p)} (h : regression env g data options = .err e) :
    fitLoop env g data options
        (Irls.new g data (initialGuess env g data options) options) none = .err e := by
  rw [regression_eq] at h
  split at h <;> rename_i hr
  · simp at h
  · rw [hr]; simpa using h
  all_goals simp at h

/-- The fields of a `Fit` fit together as after `Fit::new` on a step of the iteration. -/
structure Fit.Coherent (f : Fit F n p b) : Prop where
  result : f.result = f.data.inverseTransformBeta f.resultStd
  xLinPred : f.xLinPred = f.data.linearPredictorStd f.resultStd
  yHat : f.yHat = f.g.mean f.xLinPred
  like : f.modelLike = f.g.logLike f.data f.resultStd + (getReg f.options).likelihood f.resultStd
  reg : Reg.Same f.reg (getReg f.options)

/-- Keeping the best step of a non-empty list returns one of its elements. -/
theorem foldl_best_mem (l : List (IrlsStep F k)) (o : Option (IrlsStep F k)) :
    l.foldl (fun acc st => some (maxByLike acc st)) o = o ∨
      ∃ st ∈ l, l.foldl (fun acc st => some (maxByLike acc st)) o = some st := by
  induction l generalizing o with
  | nil => exact Or.inl rfl
  | cons a l ih =>
    simp only [List.foldl_cons]
    have hm : some (maxByLike o a) = o ∨ maxByLike o a = a := by
      unfold maxByLike
      cases o with
      | none => exact Or.inr rfl
      | some best => dsimp only; split <;> simp
    rcases ih (some (maxByLike o a)) with h | ⟨st, hst, h⟩
    · rw [h]
      rcases hm with h' | h'
      · exact Or.inl h'
      · exact Or.inr ⟨a, List.mem_cons_self, by rw [h']⟩
    · exact Or.inr ⟨st, List.mem_cons_of_mem _ hst, h⟩

/-- Every successful regression yields a coherent fit of the given model and data. -/
theorem regression_coherent {f : Fit F n p b} (h : regression env g data options = .ok f) :
    f.g = g ∧ f.data = data ∧ f.options = options ∧ f.Coherent := by
  obtain ⟨best, s, hl, rfl⟩ := regression_ok h
  refine ⟨rfl, rfl, rfl, rfl, rfl, rfl, ?_, ?_⟩
  · obtain ⟨hi, -, rest, h1, h2⟩ := fitLoop_ok (initial := initialGuess env g data options)
      Irls.Inv.new (Nat.zero_le _) hl
    simp only [Irls.new, List.nil_append] at h1
    subst h1
    change (best.getD s.makeLastStep).like = g.logLike data (best.getD s.makeLastStep).guess
      + (getReg options).likelihood (best.getD s.makeLastStep).guess
    rcases foldl_best_mem s.history none with h3 | ⟨st, hst, h3⟩
    · rw [h2, h3]
      simp only [Option.getD_none, Irls.makeLastStep, hi.last, hi.same.likelihood]
    · rw [h2, h3]
      exact hi.hist st hst
  · exact (fitLoop_ok (initial := initialGuess env g data options) Irls.Inv.new (Nat.zero_le _)
      hl).1.same

end GLM
