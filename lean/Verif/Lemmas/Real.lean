/-
  The scalar and array operations of the model at `ℝ` are the usual ones.
-/
import Verif.Lemmas.Sum
import Mathlib.Data.Matrix.Mul
import Mathlib.Algebra.BigOperators.Fin

namespace GLM
open scoped Matrix

section scalar
variable (x y : ℝ)

@[simp] theorem ofNat_real (n : ℕ) : (Scalar.ofNat n : ℝ) = n := rfl
@[simp] theorem lit_real (m e : ℕ) : (Scalar.lit m e : ℝ) = m / 10 ^ e := rfl
@[simp] theorem half_real : (Scalar.half : ℝ) = 1 / 2 := by
  simp only [Scalar.half, lit_real]; norm_num
@[simp] theorem two_real : (Scalar.two : ℝ) = 2 := by
  simp only [Scalar.two, ofNat_real]; norm_num
@[simp] theorem abs_real : Scalar.abs x = |x| := rfl
@[simp] theorem sqrt_real : Scalar.sqrt x = Real.sqrt x := rfl
@[simp] theorem exp_real : Scalar.exp x = Real.exp x := rfl
@[simp] theorem ln_real : Scalar.ln x = Real.log x := rfl
@[simp] theorem ln1p_real : Scalar.ln1p x = Real.log (1 + x) := rfl
@[simp] theorem expm1_real : Scalar.expm1 x = Real.exp x - 1 := rfl
@[simp] theorem recip_real : Scalar.recip x = 1 / x := rfl
@[simp] theorem lt_real : (Scalar.lt x y = true) = (x < y) := by
  simp [Scalar.lt]
@[simp] theorem le_real : (Scalar.le x y = true) = (x ≤ y) := by
  simp [Scalar.le]
@[simp] theorem eq_real : (Scalar.eq x y = true) = (x = y) := by
  simp [Scalar.eq]
@[simp] theorem gt_real : (Scalar.gt x y = true) = (x > y) := by
  simp [Scalar.gt]
theorem signum_real : Scalar.signum x = if x < 0 then -1 else 1 := by
  simp only [Scalar.signum]
theorem sign_real : Scalar.sign x = SignType.sign x := by
  unfold Scalar.sign
  simp only [eq_real, signum_real]
  rcases lt_trichotomy x 0 with h | h | h
  · simp [h, h.ne]
  · simp [h]
  · simp [h, h.ne', h.le]
theorem prodLog_real : prodLog x = x * Real.log x := by
  unfold prodLog
  simp only [eq_real, ln_real]
  split
  · simp [*]
  · rfl

end scalar

section arrays
variable {n m k : ℕ}

/-- In exact arithmetic the order does not matter. -/
theorem SumTree.eval_real (t : Fin n → ℝ) {f : Fin n → ℝ → ℝ} (hf : ∀ i acc, f i acc = acc + t i)
    (o : SumTree n) : o.eval t f = (o.terms.map t).sum := by
  induction o with
  | zero => rfl
  | term i => simp [eval, terms]
  | add l r hl hr => simp [eval, terms, hl, hr]
  | fused i r hr => simp [eval, terms, hr, hf, add_comm]

theorem SumOrder.eval_real (t : Fin n → ℝ) {f : Fin n → ℝ → ℝ} (hf : ∀ i acc, f i acc = acc + t i)
    (o : SumOrder n) : o.tree.eval t f = ∑ i, t i := by
  rw [SumTree.eval_real t hf, (o.complete.map t).sum_eq, ← List.ofFn_eq_map, List.sum_ofFn]

@[simp] theorem vsum_real (v : Vec ℝ n) : vsum v = ∑ i, v i :=
  SumOrder.eval_real v (fun _ _ => rfl) _
@[simp] theorem vdotBy_real (site : SumSite) (u v : Vec ℝ n) : vdotBy site u v = ∑ i, u i * v i :=
  SumOrder.eval_real (fun i => u i * v i) (fun _ _ => add_comm _ _) _
theorem vdot_real (u v : Vec ℝ n) : vdot u v = u ⬝ᵥ v := by
  simp [vdot, dotProduct]
theorem dotV_real (a : Mat ℝ n m) (v : Vec ℝ m) : Mat.dotV a v = Matrix.mulVec (Matrix.of a) v := by
  funext i; simp [Mat.dotV, Matrix.mulVec, dotProduct]
theorem dotM_real (a : Mat ℝ n m) (c : Mat ℝ m k) :
    Mat.dotM a c = (Matrix.of a * Matrix.of c : Matrix (Fin n) (Fin k) ℝ) := by
  funext i j; simp [Mat.dotM, Matrix.mul_apply]
theorem tr_real (a : Mat ℝ n m) : Mat.tr a = (Matrix.of a)ᵀ := rfl

end arrays

end GLM
