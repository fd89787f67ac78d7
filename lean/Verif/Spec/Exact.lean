/-
  What "exact linear algebra" means for the environment of the crate, and that it is satisfiable.
-/
import Verif.Model.Env
import Mathlib.LinearAlgebra.Matrix.NonsingularInverse
import Mathlib.LinearAlgebra.Matrix.Symmetric
import Mathlib.Data.Real.Basic

namespace GLM
open Matrix

/-- The linear-algebra routines are exact: what they return solves the system they were given, and
they return something whenever there is a unique solution.  `solveh` and `invh` are only specified
for symmetric matrices (LAPACK reads one triangle). -/
structure Env.Exact (env : Env ℝ) : Prop where
  eps_nonneg : 0 ≤ env.eps
  solveh_sound : ∀ {k : ℕ} {m : Mat ℝ k k} {v x : Vec ℝ k}, (Matrix.of m).IsSymm →
    env.solveh m v = .ok x → Matrix.of m *ᵥ x = v
  solveh_complete : ∀ {k : ℕ} {m : Mat ℝ k k} (v : Vec ℝ k), (Matrix.of m).IsSymm →
    IsUnit (Matrix.of m).det → ∃ x, env.solveh m v = .ok x
  inv_sound : ∀ {k : ℕ} {m a : Mat ℝ k k}, env.inv m = .ok a → Matrix.of m * Matrix.of a = 1
  inv_complete : ∀ {k : ℕ} {m : Mat ℝ k k}, IsUnit (Matrix.of m).det → ∃ a, env.inv m = .ok a
  invh_sound : ∀ {k : ℕ} {m a : Mat ℝ k k}, (Matrix.of m).IsSymm → env.invh m = .ok a →
    Matrix.of m * Matrix.of a = 1
  invh_complete : ∀ {k : ℕ} {m : Mat ℝ k k}, (Matrix.of m).IsSymm → IsUnit (Matrix.of m).det →
    ∃ a, env.invh m = .ok a

open Classical in
/-- An exact environment: Cramer's rule, failing on singular matrices. -/
noncomputable def exactEnv (eps : ℝ) (fuel : ℕ) : Env ℝ where
  eps := eps
  solveh m v := if IsUnit (Matrix.of m).det then .ok ((Matrix.of m)⁻¹ *ᵥ v) else .error .failed
  invh m := if IsUnit (Matrix.of m).det then .ok (Matrix.of.symm (Matrix.of m)⁻¹) else .error .failed
  inv m := if IsUnit (Matrix.of m).det then .ok (Matrix.of.symm (Matrix.of m)⁻¹) else .error .failed
  fuel := fuel

/-- `Env.Exact` is satisfiable, for every machine epsilon. -/
theorem exactEnv_exact {eps : ℝ} (h : 0 ≤ eps) (fuel : ℕ) : (exactEnv eps fuel).Exact where
  eps_nonneg := h
  solveh_sound {k m v x} _ hx := by
    unfold exactEnv at hx
    dsimp only at hx
    split at hx
    · cases hx; rename_i hu; rw [mulVec_mulVec, mul_nonsing_inv _ hu, one_mulVec]
    · cases hx
  solveh_complete {k m} v _ hu := ⟨_, if_pos hu⟩
  inv_sound {k m a} ha := by
    unfold exactEnv at ha
    dsimp only at ha
    split at ha
    · cases ha; rename_i hu; rw [Equiv.apply_symm_apply, mul_nonsing_inv _ hu]
    · cases ha
  inv_complete {k m} hu := ⟨_, if_pos hu⟩
  invh_sound {k m a} _ ha := by
    unfold exactEnv at ha
    dsimp only at ha
    split at ha
    · cases ha; rename_i hu; rw [Equiv.apply_symm_apply, mul_nonsing_inv _ hu]
    · cases ha
  invh_complete {k m} _ hu := ⟨_, if_pos hu⟩

namespace Env.Exact
variable {env : Env ℝ} (he : env.Exact) {k : ℕ} {m : Mat ℝ k k}

include he

/-- An exact solve of a regular symmetric system returns its unique solution. -/
theorem solveh_eq {v x : Vec ℝ k} (hs : (Matrix.of m).IsSymm) (hu : IsUnit (Matrix.of m).det)
    (hx : Matrix.of m *ᵥ x = v) : env.solveh m v = .ok x := by
  obtain ⟨y, hy⟩ := he.solveh_complete v hs hu
  rw [hy]
  have := he.solveh_sound hs hy
  rw [← hx] at this
  have := congrArg (fun z => (Matrix.of m)⁻¹ *ᵥ z) this
  simp only [mulVec_mulVec, nonsing_inv_mul _ hu, one_mulVec] at this
  rw [this]

theorem inv_eq (hu : IsUnit (Matrix.of m).det) : env.inv m = .ok (Matrix.of.symm (Matrix.of m)⁻¹) := by
  obtain ⟨a, ha⟩ := he.inv_complete hu
  rw [ha, inv_eq_right_inv (he.inv_sound ha), Equiv.symm_apply_apply]

theorem inv_ok {a : Mat ℝ k k} (ha : env.inv m = .ok a) :
    IsUnit (Matrix.of m).det ∧ Matrix.of a = (Matrix.of m)⁻¹ := by
  have h := he.inv_sound ha
  exact ⟨(Matrix.isUnit_iff_isUnit_det _).mp (IsUnit.of_mul_eq_one _ h), (inv_eq_right_inv h).symm⟩

end Env.Exact
end GLM
