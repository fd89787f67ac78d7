/-
  C75: an intercept is a column of ones.
-/
import Verif.Props.Features

namespace GLM
open Spec Matrix Scalar
variable {n p : ℕ}

theorem withOnes_relabels (raw : Dataset ℝ n p false) {d : Dataset ℝ n p true}
    (hd : raw.finalize false true = some d) {d' : Dataset ℝ n (p + 1) false}
    (hd' : (withOnes raw).finalize false false = some d') : RelabelsExt (sameParams p) d d' := by
  cases hd
  cases hd'
  exact
    { y := rfl, x := fun _ _ => rfl, offset := rfl, weights := rfl, freqs := rfl
      inv := fun _ => rfl, beta := fun _ => rfl, fisher := fun _ => rfl, score := fun _ => rfl
      xExt := fun i j => by refine Fin.cases ?_ (fun j => ?_) j <;> rfl }

theorem getReg_null {b : Bool} {o : FitOptions ℝ (ncols b p)} (h1 : o.l1 ≤ 0) (h2 : o.l2 ≤ 0) :
    getReg (b := b) o = .null := by
  have h1' : gt o.l1 0 = false := by rw [Bool.eq_false_iff, Ne, gt_real]; exact not_lt.mpr h1
  have h2' : gt o.l2 0 = false := by rw [Bool.eq_false_iff, Ne, gt_real]; exact not_lt.mpr h2
  simp [getReg, h1', h2']

/-- C75: without standardization and without a penalty, a model with an intercept is the model without
intercept whose first feature is a column of ones.  For every family, linear algebra, weights, offset,
tolerance, budget and start, the two fits succeed or fail alike after the same steps, with the same
coefficients and the same statistics, and predict the same. -/
theorem C75_intercept_column {raw : Dataset ℝ n p false} {d : Dataset ℝ n p true}
    (hd : raw.finalize false true = some d) :
    ∃ d', (withOnes raw).finalize false false = some d' ∧
      ∀ (env : Env ℝ) (g : Glm ℝ) (o : FitOptions ℝ (ncols true p)), o.l1 ≤ 0 → o.l2 ≤ 0 →
        OrderFree (sameParams p) env ∧
        Related (SameError (sameParams p))
          (fun f f' => SameFit (sameParams p) f f' ∧
            ∀ {m : ℕ} (x : Mat ℝ m p) off,
              f'.predict (fun i => (Fin.cons 1 (x i) : Fin (p + 1) → ℝ)) off = f.predict x off)
          (regression env g d o) (regression env g d' (reorderStart (sameParams p) o)) := by
  obtain ⟨d', hd'⟩ : ∃ d', (withOnes raw).finalize false false = some d' := ⟨_, rfl⟩
  refine ⟨d', hd', fun env g o h1 h2 => ⟨orderFree_refl env, ?_⟩⟩
  have h := withOnes_relabels raw hd hd'
  have hr : getReg (b := false) (reorderStart (sameParams p) o)
      = (getReg (b := true) o).reorder (sameParams p) := by
    rw [getReg_null h1 h2]
    exact getReg_null (b := false) (o := reorderStart (sameParams p) o) h1 h2
  have h0 : initialGuess env g d' (reorderStart (sameParams p) o)
      = fun j => initialGuess env g d o (sameParams p j) := by
    unfold initialGuess reorderStart
    cases o.initGuess with
    | none => exact h.initGuess (orderFree_refl env) g
    | some β => exact h.beta β
  unfold regression
  rw [h.toRelabels.regressionCore (orderFree_refl env) g (o := o)
    (o' := reorderStart (sameParams p) o) rfl rfl hr h0]
  cases regressionCore env g d o with
  | panic => exact .panic
  | diverge => exact .diverge
  | err e => exact .err (FitError.reorder_same _ e)
  | ok r =>
    have hs := h.sameFit g (o := o) (o' := reorderStart (sameParams p) o) r.1 r.2
    refine .ok ⟨hs, fun {m} x off => ?_⟩
    have hres := hs.result
    simp only [Fit.predict, hres]
    rfl

example : ∃ d : Dataset ℝ 3 1 true, (exRaw ![0, 1, 4]).finalize false true = some d :=
  exRaw_finalize _ _ _

/-- A column of ones with feature values 0, 1, 2. -/
example : (withOnes (exRaw ![0, 1, 4])).x 2 = ![1, 2] := by
  funext j
  refine Fin.cases ?_ (fun j => ?_) j
  · rfl
  · fin_cases j; rfl

end GLM
