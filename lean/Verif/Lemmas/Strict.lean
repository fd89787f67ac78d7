/-
  Every operation of the model, applied to numbers in the arithmetic with not-a-number, gives the
  number it gives in `ℝ`, provided its divisors, logarithms and square roots are defined.
-/
import Verif.Spec.Strict
import Verif.Lemmas.Real
import Verif.Lemmas.IrlsControl

namespace GLM
open Scalar

namespace NReal
variable (a c : ℝ)

theorem zero_eq : (0 : NReal) = val 0 := rfl
theorem one_eq : (1 : NReal) = val 1 := rfl
@[simp] theorem add_val : val a + val c = val (a + c) := rfl
@[simp] theorem sub_val : val a - val c = val (a - c) := rfl
@[simp] theorem mul_val : val a * val c = val (a * c) := rfl
@[simp] theorem neg_val : -val a = val (-a) := rfl
theorem div_val {c : ℝ} (h : c ≠ 0) : val a / val c = val (a / c) := if_neg h
theorem div_val_zero : val a / val 0 = nan := if_pos rfl
@[simp] theorem ofNat_val (n : ℕ) : (ofNat n : NReal) = val (ofNat n) := rfl
@[simp] theorem lit_val (m e : ℕ) : (lit m e : NReal) = val (lit m e) := rfl
@[simp] theorem half_val : (half : NReal) = val half := rfl
@[simp] theorem two_val : (two : NReal) = val two := rfl
@[simp] theorem abs_val : Scalar.abs (val a) = val (Scalar.abs a) := rfl
@[simp] theorem exp_val : exp (val a) = val (exp a) := rfl
@[simp] theorem expm1_val : expm1 (val a) = val (expm1 a) := rfl
@[simp] theorem signum_val : signum (val a) = val (signum a) := rfl
theorem sqrt_val {a : ℝ} (h : 0 ≤ a) : sqrt (val a) = val (sqrt a) := if_neg (not_lt.mpr h)
theorem ln_val {a : ℝ} (h : 0 < a) : ln (val a) = val (ln a) := if_neg (not_le.mpr h)
theorem ln1p_val {a : ℝ} (h : -1 < a) : ln1p (val a) = val (ln1p a) := if_neg (not_le.mpr h)
theorem ln_nonpos {a : ℝ} (h : a ≤ 0) : ln (val a) = nan := if_pos h
theorem sqrt_neg {a : ℝ} (h : a < 0) : sqrt (val a) = nan := if_pos h
@[simp] theorem lt_val : lt (val a) (val c) = lt a c := rfl
@[simp] theorem le_val : le (val a) (val c) = le a c := rfl
@[simp] theorem eq_val : eq (val a) (val c) = eq a c := rfl
@[simp] theorem gt_val : gt (val a) (val c) = gt a c := rfl
@[simp] theorem totalCmp_val : totalCmp (val a) (val c) = totalCmp a c := rfl
@[simp] theorem add_nan (x : NReal) : x + nan = nan := by cases x <;> rfl
@[simp] theorem nan_add (x : NReal) : nan + x = nan := by cases x <;> rfl
@[simp] theorem sub_nan (x : NReal) : x - nan = nan := by cases x <;> rfl
@[simp] theorem nan_sub (x : NReal) : nan - x = nan := by cases x <;> rfl
@[simp] theorem mul_nan (x : NReal) : x * nan = nan := by cases x <;> rfl
@[simp] theorem nan_mul (x : NReal) : nan * x = nan := by cases x <;> rfl
@[simp] theorem neg_nan : -nan = nan := rfl
theorem recip_val {a : ℝ} (h : a ≠ 0) : recip (val a) = val (recip a) := div_val 1 h
theorem sign_val : sign (val a) = val (sign a) := by
  unfold sign
  rw [zero_eq, eq_val, signum_val]
  split <;> rfl
theorem ite_val {P : Prop} [Decidable P] : (if P then val a else val c) = val (if P then a else c) :=
  (apply_ite val _ _ _).symm
theorem prodLog_val {a : ℝ} (h : 0 ≤ a) : prodLog (val a) = val (prodLog a) := by
  unfold prodLog
  rw [zero_eq, eq_val]
  simp only [eq_real]
  rcases h.eq_or_lt with h | h
  · simp [← h]
  · rw [if_neg h.ne', if_neg h.ne', ln_val h, mul_val]

theorem lt_defined {x y : NReal} (h : lt x y = true) : ∃ a c, x = val a ∧ y = val c ∧ a < c := by
  cases x <;> cases y <;> first
    | exact ⟨_, _, rfl, rfl, by simpa using h⟩
    | exact absurd h (by simp [lt, cmp])

theorem val_inj {a c : ℝ} : val a = val c ↔ a = c := ⟨fun h => by cases h; rfl, congrArg _⟩

end NReal
open NReal

section arrays
variable {n m k : ℕ}

theorem vsum_val (v : Vec ℝ n) : vsum (fun i => val (v i)) = val (vsum v) := by
  refine SumTree.eval_rel (R := fun (x : NReal) (a : ℝ) => x = val a) rfl (fun _ => rfl) ?_ ?_ _
  · rintro _ _ a c rfl rfl; exact add_val a c
  · rintro i _ a rfl; exact add_val a (v i)

theorem vdotBy_val (site : SumSite) (u v : Vec ℝ n) :
    vdotBy site (fun i => val (u i)) (fun i => val (v i)) = val (vdotBy site u v) := by
  refine SumTree.eval_rel (R := fun (x : NReal) (a : ℝ) => x = val a) rfl (fun i => mul_val _ _) ?_ ?_ _
  · rintro _ _ a c rfl rfl; exact add_val a c
  · rintro i _ a rfl; rfl

@[simp] theorem vsum_strict (v : Vec ℝ n) : vsum (Vec.strict v) = val (vsum v) := vsum_val v

@[simp] theorem vdot_strict (u v : Vec ℝ n) : vdot (Vec.strict u) (Vec.strict v) = val (vdot u v) :=
  vdotBy_val _ _ _

@[simp] theorem dotV_strict (a : Mat ℝ n m) (v : Vec ℝ m) :
    Mat.dotV (Mat.strict a) (Vec.strict v) = Vec.strict (Mat.dotV a v) :=
  funext fun i => vdotBy_val _ (a i) v

@[simp] theorem dotM_strict (a : Mat ℝ n m) (c : Mat ℝ m k) :
    Mat.dotM (Mat.strict a) (Mat.strict c) = Mat.strict (Mat.dotM a c) :=
  funext fun _ => funext fun _ => vdotBy_val _ _ _

@[simp] theorem tr_strict (a : Mat ℝ n m) : Mat.tr (Mat.strict a) = Mat.strict (Mat.tr a) := rfl
@[simp] theorem vadd_strict (u v : Vec ℝ n) :
    vadd (Vec.strict u) (Vec.strict v) = Vec.strict (vadd u v) := rfl
@[simp] theorem vsub_strict (u v : Vec ℝ n) :
    vsub (Vec.strict u) (Vec.strict v) = Vec.strict (vsub u v) := rfl
@[simp] theorem vmul_strict (u v : Vec ℝ n) :
    vmul (Vec.strict u) (Vec.strict v) = Vec.strict (vmul u v) := rfl
@[simp] theorem vzeros_strict : (vzeros : Vec NReal n) = Vec.strict vzeros := rfl
@[simp] theorem vfill_strict (a : ℝ) : (vfill (val a) : Vec NReal n) = Vec.strict (vfill a) := rfl
@[simp] theorem addDiag_strict (a : Mat ℝ n n) (d : Vec ℝ n) :
    Mat.addDiag (Mat.strict a) (Vec.strict d) = Mat.strict (Mat.addDiag a d) := by
  funext i j
  simp only [Mat.addDiag, Mat.strict, Vec.strict, add_val, ite_val]
theorem diag_strict (a : Mat ℝ n n) : (Mat.strict a).diag = Vec.strict a.diag := rfl
theorem vdiv_strict (u : Vec ℝ n) {v : Vec ℝ n} (h : ∀ i, v i ≠ 0) :
    vdiv (Vec.strict u) (Vec.strict v) = Vec.strict (vdiv u v) :=
  funext fun i => div_val _ (h i)
theorem vecEq_strict (u v : Vec ℝ n) : vecEq (Vec.strict u) (Vec.strict v) = vecEq u v := rfl

theorem strict_inj {u v : Vec ℝ n} (h : Vec.strict u = Vec.strict v) : u = v :=
  funext fun i => val_inj.mp (congrFun h i)
theorem mstrict_inj {u v : Mat ℝ n m} (h : Mat.strict u = Mat.strict v) : u = v :=
  funext fun i => funext fun j => val_inj.mp (congrFun (congrFun h i) j)

end arrays

section env
variable {k : ℕ} (env : Env ℝ)

@[simp] theorem solveh_strict (m : Mat ℝ k k) (v : Vec ℝ k) :
    env.strict.solveh (Mat.strict m) (Vec.strict v) = (env.solveh m v).map Vec.strict := by
  have h : ∃ mv : Mat ℝ k k × Vec ℝ k, Mat.strict m = Mat.strict mv.1 ∧ Vec.strict v = Vec.strict mv.2 :=
    ⟨(m, v), rfl, rfl⟩
  have hc := h.choose_spec
  unfold Env.strict
  dsimp only
  rw [dif_pos h, ← mstrict_inj hc.1, ← strict_inj hc.2]

@[simp] theorem inv_strict (m : Mat ℝ k k) :
    env.strict.inv (Mat.strict m) = (env.inv m).map Mat.strict := by
  have h : ∃ m' : Mat ℝ k k, Mat.strict m = Mat.strict m' := ⟨m, rfl⟩
  have hc := h.choose_spec
  unfold Env.strict
  dsimp only
  rw [dif_pos h, ← mstrict_inj hc]

end env

/-! ### Data sets -/
section data
variable {n p : ℕ} {b : Bool} (d : Dataset ℝ n p b)

namespace Dataset

@[simp] theorem strict_linearPredictorStd (β : Vec ℝ (ncols b p)) :
    d.strict.linearPredictorStd (Vec.strict β) = Vec.strict (d.linearPredictorStd β) := by
  unfold linearPredictorStd
  obtain ⟨y, x, off, w, f, s⟩ := d
  cases off <;> simp [strict]

@[simp] theorem strict_nObs : d.strict.nObs = val d.nObs := by
  unfold nObs
  obtain ⟨y, x, off, w, f, s⟩ := d
  cases f <;> simp [strict]

@[simp] theorem strict_applyFreqWeights (v : Vec ℝ n) :
    d.strict.applyFreqWeights (Vec.strict v) = Vec.strict (d.applyFreqWeights v) := by
  unfold applyFreqWeights
  obtain ⟨y, x, off, w, f, s⟩ := d
  cases f <;> simp [strict]

@[simp] theorem strict_applyVarWeights (v : Vec ℝ n) :
    d.strict.applyVarWeights (Vec.strict v) = Vec.strict (d.applyVarWeights v) := by
  unfold applyVarWeights
  obtain ⟨y, x, off, w, f, s⟩ := d
  cases w <;> simp [strict]

@[simp] theorem strict_applyTotalWeights (v : Vec ℝ n) :
    d.strict.applyTotalWeights (Vec.strict v) = Vec.strict (d.applyTotalWeights v) := by
  simp [applyTotalWeights]

@[simp] theorem strict_freqSum (v : Vec ℝ n) :
    d.strict.freqSum (Vec.strict v) = val (d.freqSum v) := by simp [freqSum]

@[simp] theorem strict_weightedSum (v : Vec ℝ n) :
    d.strict.weightedSum (Vec.strict v) = val (d.weightedSum v) := by simp [weightedSum]

@[simp] theorem strict_getVarianceWeights :
    d.strict.getVarianceWeights = Vec.strict d.getVarianceWeights := by
  unfold getVarianceWeights
  obtain ⟨y, x, off, w, f, s⟩ := d
  cases w
  · rfl
  · rfl

@[simp] theorem strict_sumWeights : d.strict.sumWeights = val d.sumWeights := by
  have h : d.strict.weights = d.weights.map Vec.strict := rfl
  unfold sumWeights
  rw [h]
  cases d.weights <;> simp

theorem strict_nEff (h : ∀ w, d.weights = some w → d.freqSum (vmul w w) ≠ 0) :
    d.strict.nEff = val d.nEff := by
  have e : d.strict.weights = d.weights.map Vec.strict := rfl
  unfold nEff
  rw [e]
  cases hw : d.weights with
  | none => simp
  | some w => simp [div_val _ (h w hw)]

@[simp] theorem strict_weightCols {m : ℕ} (x : Mat ℝ m n) :
    d.strict.weightCols (Mat.strict x) = Mat.strict (d.weightCols x) := by
  unfold weightCols
  obtain ⟨y, x', off, w, f, s⟩ := d
  cases f <;> cases w <;> rfl

@[simp] theorem strict_xConj : d.strict.xConj = Mat.strict d.xConj :=
  strict_weightCols d d.x.tr

theorem strict_xOrig : d.strict.xOrig = Mat.strict d.xOrig := by
  cases b <;> (obtain ⟨y, x, off, w, f, s⟩ := d; cases s <;> rfl)

theorem strict_xExt : d.strict.xExt = Mat.strict d.xExt := by
  cases b
  · exact strict_xOrig d
  · funext i j
    refine Fin.cases rfl (fun j => ?_) j
    exact congrFun (congrFun (strict_xOrig d) i) j

@[simp] theorem strict_xConjExt : d.strict.xConjExt = Mat.strict d.xConjExt := by
  unfold xConjExt
  rw [strict_xExt, tr_strict, strict_weightCols]

theorem cons_strict {k : ℕ} (a : ℝ) (v : Vec ℝ k) :
    (Fin.cons (val a) (Vec.strict v) : Vec NReal (k + 1)) = Vec.strict (Fin.cons a v) :=
  funext fun j => Fin.cases rfl (fun _ => rfl) j

@[simp] theorem strict_transformBeta (β : Vec ℝ (ncols b p)) :
    d.strict.transformBeta (Vec.strict β) = Vec.strict (d.transformBeta β) := by
  cases b
  · obtain ⟨y, x, off, w, f, s⟩ := d
    cases s <;> rfl
  · obtain ⟨y, x, off, w, f, s⟩ := d
    cases s with
    | none => rfl
    | some s =>
      simp only [strict, transformBeta, Option.map_some, Standardizer.transformCoefficients]
      simp only [Vec.strict, mul_val, vsum_val, add_val]
      exact cons_strict _ _

theorem strict_inverseTransformBeta (h : ∀ s, d.standardizer = some s → ∀ j, s.scales j ≠ 0)
    (β : Vec ℝ (ncols b p)) :
    d.strict.inverseTransformBeta (Vec.strict β) = Vec.strict (d.inverseTransformBeta β) := by
  cases b
  · obtain ⟨y, x, off, w, f, s⟩ := d
    cases s with
    | none => rfl
    | some s => exact funext fun j => div_val _ (h s rfl j)
  · obtain ⟨y, x, off, w, f, s⟩ := d
    cases s with
    | none => rfl
    | some s =>
      simp only [strict, inverseTransformBeta, Option.map_some,
        Standardizer.inverseTransformCoefficients]
      simp only [Vec.strict, div_val _ (h s rfl _), mul_val, vsum_val, sub_val]
      exact cons_strict _ _

@[simp] theorem strict_inverseTransformFisher (m : Mat ℝ (ncols b p) (ncols b p)) :
    d.strict.inverseTransformFisher (Mat.strict m) = Mat.strict (d.inverseTransformFisher m) := by
  cases b
  · obtain ⟨y, x, off, w, f, s⟩ := d
    cases s <;> rfl
  · obtain ⟨y, x, off, w, f, s⟩ := d
    cases s with
    | none => rfl
    | some s =>
      funext i j
      refine Fin.cases ?_ (fun i => ?_) i <;> refine Fin.cases ?_ (fun j => ?_) j <;> rfl

@[simp] theorem strict_inverseTransformScore (v : Vec ℝ (ncols b p)) :
    d.strict.inverseTransformScore (Vec.strict v) = Vec.strict (d.inverseTransformScore v) := by
  cases b
  · obtain ⟨y, x, off, w, f, s⟩ := d
    cases s <;> rfl
  · obtain ⟨y, x, off, w, f, s⟩ := d
    cases s with
    | none => rfl
    | some s => funext j; refine Fin.cases rfl (fun j => rfl) j

end Dataset
end data

/-! ### Regularizers -/
section reg
variable {k : ℕ}

theorem softThresh_val (x l : ℝ) : softThresh (val x) (val l) = val (softThresh x l) := by
  unfold softThresh
  by_cases h : lt (Scalar.abs x - l) 0 = true
  · have h' : lt (Scalar.abs (val x) - val l) 0 = true := h
    simp only [sign_val, if_pos h, if_pos h']
    rfl
  · have h' : ¬ lt (Scalar.abs (val x) - val l) 0 = true := h
    simp only [sign_val, if_neg h, if_neg h']
    rfl

theorem Admm.strict_updateRho (st : Admm ℝ k) : st.strict.updateRho = st.updateRho.strict := by
  have h2 : (ofNat 2 : ℝ) ≠ 0 := by simp
  obtain ⟨du, cu, rho, r, s⟩ := st
  rcases r with _ | r
  · rfl
  rcases s with _ | s
  · rfl
  by_cases hg : gt r (ofNat 8 * ofNat 8 * s) = true <;>
    have hg' := hg <;>
    rw [← gt_val, ← mul_val, ← mul_val, ← ofNat_val] at hg' <;>
    by_cases hl : lt (r * ofNat 8 * ofNat 8) s = true <;>
    have hl' := hl <;>
    rw [← lt_val, ← mul_val, ← mul_val, ← ofNat_val] at hl' <;>
    simp only [updateRho, strict, Option.map_some, hg, hg', hl, hl', if_true, if_false,
      Bool.false_eq_true] <;>
    simp only [Vec.strict, ofNat_val, div_val _ h2, mul_val]
  all_goals rfl

theorem Admm.updateRho_ne {st : Admm ℝ k} (h : st.rho ≠ 0) : st.updateRho.rho ≠ 0 := by
  have h2 : (ofNat 2 : ℝ) ≠ 0 := by simp
  obtain ⟨du, cu, rho, r, s⟩ := st
  rcases r with _ | r
  · exact h
  rcases s with _ | s
  · exact h
  have h' : rho ≠ 0 := h
  unfold updateRho
  by_cases hg : gt r (ofNat 8 * ofNat 8 * s) = true <;>
    by_cases hl : lt (r * ofNat 8 * ofNat 8) s = true <;>
    simp only [hg, hl, if_true, if_false, Bool.false_eq_true]
  · exact div_ne_zero (mul_ne_zero h' h2) h2
  · exact mul_ne_zero h' h2
  · exact div_ne_zero h' h2
  · exact h'

theorem Admm.strict_prepare (l1 : Vec ℝ k) (st : Admm ℝ k) (h : st.rho ≠ 0) (β : Vec ℝ k) :
    st.strict.prepare (Vec.strict l1) (Vec.strict β) = (st.prepare l1 β).strict := by
  have h' := updateRho_ne h
  unfold prepare
  rw [strict_updateRho]
  generalize st.updateRho = st' at h'
  obtain ⟨du, cu, rho, r, s⟩ := st'
  simp only [strict, Vec.strict, add_val, div_val _ h', softThresh_val, sub_val, mul_val, vsum_val,
    Option.map_some]
  rfl

theorem Admm.strict_augment (st : Admm ℝ k) (β : Vec ℝ k) :
    st.strict.augment (Vec.strict β) = val (st.augment β) := by
  simp only [augment, strict, Vec.strict, half_val, neg_val, mul_val, sub_val, add_val, vsum_val]

theorem Admm.strict_irlsVec (st : Admm ℝ k) (v : Vec ℝ k) :
    st.strict.irlsVec (Vec.strict v) = Vec.strict (st.irlsVec v) := rfl

theorem Admm.strict_terminateOk (st : Admm ℝ k) (tol : ℝ) :
    st.strict.terminateOk (val tol) = st.terminateOk tol := by
  obtain ⟨du, cu, rho, r, s⟩ := st
  have h : (0 : ℝ) ≤ ofNat k := by simp
  cases r <;> cases s <;> try rfl
  simp only [terminateOk, strict, Option.map_some, ofNat_val, sqrt_val h, mul_val, lt_val]

theorem sumL2_strict (l β : Vec ℝ k) : sumL2 (Vec.strict l) (Vec.strict β) = val (sumL2 l β) := by
  simp only [sumL2, Vec.strict, mul_val, vsum_val]

theorem sumL1_strict (l β : Vec ℝ k) : sumL1 (Vec.strict l) (Vec.strict β) = val (sumL1 l β) := by
  simp only [sumL1, Vec.strict, abs_val, mul_val, vsum_val]

namespace Reg

/-- The step size of the L1 iteration is not zero. -/
def RhoNe : Reg ℝ k → Prop
  | .lasso _ st | .elastic _ _ st => st.rho ≠ 0
  | _ => True

theorem RhoNe.prepare {r : Reg ℝ k} (h : r.RhoNe) (β : Vec ℝ k) : (r.prepare β).RhoNe := by
  cases r with
  | null => trivial
  | ridge l2 => trivial
  | lasso l1 st => exact Admm.updateRho_ne h
  | elastic l1 l2 st => exact Admm.updateRho_ne h

@[simp] theorem strict_likelihood (r : Reg ℝ k) (β : Vec ℝ k) :
    r.strict.likelihood (Vec.strict β) = val (r.likelihood β) := by
  cases r <;> simp only [strict, likelihood, sumL2_strict, sumL1_strict, half_val, neg_val, mul_val,
    sub_val]
  rfl

@[simp] theorem strict_irlsLike (r : Reg ℝ k) (β : Vec ℝ k) :
    r.strict.irlsLike (Vec.strict β) = val (r.irlsLike β) := by
  cases r <;> simp only [strict, irlsLike, sumL2_strict, Admm.strict_augment, half_val, neg_val,
    mul_val, sub_val]
  rfl

@[simp] theorem strict_gradient (r : Reg ℝ k) (j β : Vec ℝ k) :
    r.strict.gradient (Vec.strict j) (Vec.strict β) = Vec.strict (r.gradient j β) := by
  cases r <;> simp only [strict, gradient] <;> funext i <;>
    simp only [Vec.strict, sign_val, mul_val, sub_val]

theorem strict_prepare (r : Reg ℝ k) (h : r.RhoNe) (β : Vec ℝ k) :
    r.strict.prepare (Vec.strict β) = (r.prepare β).strict := by
  cases r with
  | null => rfl
  | ridge l2 => rfl
  | lasso l1 st => simp only [strict, prepare, Admm.strict_prepare l1 st h]
  | elastic l1 l2 st => simp only [strict, prepare, Admm.strict_prepare l1 st h]

@[simp] theorem strict_irlsVec (r : Reg ℝ k) (v β : Vec ℝ k) :
    r.strict.irlsVec (Vec.strict v) (Vec.strict β) = Vec.strict (r.irlsVec v β) := by
  cases r <;> rfl

@[simp] theorem strict_irlsMat (r : Reg ℝ k) (m : Mat ℝ k k) (β : Vec ℝ k) :
    r.strict.irlsMat (Mat.strict m) (Vec.strict β) = Mat.strict (r.irlsMat m β) := by
  cases r with
  | null => rfl
  | ridge l2 => exact addDiag_strict _ _
  | lasso l1 st => exact addDiag_strict m (vfill st.rho)
  | elastic l1 l2 st =>
    simp only [strict, irlsMat, addDiag_strict]
    exact addDiag_strict _ (vfill st.rho)

@[simp] theorem strict_terminateOk (r : Reg ℝ k) (tol : ℝ) :
    r.strict.terminateOk (val tol) = r.terminateOk tol := by
  cases r <;> simp only [strict, terminateOk, Admm.strict_terminateOk]

theorem strict_nextGuess (env : Env ℝ) (r : Reg ℝ k) (h : r.RhoNe) (β v : Vec ℝ k) (m : Mat ℝ k k) :
    r.strict.nextGuess env.strict (Vec.strict β) (Vec.strict v) (Mat.strict m)
      = ((r.nextGuess env β v m).1.strict, (r.nextGuess env β v m).2.map Vec.strict) := by
  simp only [nextGuess, strict_prepare r h, strict_irlsMat, strict_irlsVec, solveh_strict]

end Reg
end reg

/-! ### Families -/

/-- The family in the arithmetic with not-a-number does what the family in `ℝ` does, for linear
predictors in `W`. -/
structure Tracks (g : Glm NReal) (g' : Glm ℝ) (W : Set ℝ) : Prop where
  dispersed : g.dispersed = g'.dispersed
  funcInv : ∀ ω ∈ W, g.link.funcInv (val ω) = val (g'.link.funcInv ω)
  variance : ∀ ω ∈ W, g.variance (val (g'.link.funcInv ω)) = val (g'.variance (g'.link.funcInv ω))
  natParam : ∀ ω ∈ W, g.link.natParam (val ω) = val (g'.link.natParam ω)
  dNatParam : ∀ ω ∈ W, g.link.dNatParam (val ω) = val (g'.link.dNatParam ω)
  adjustErrors : ∀ ω ∈ W, ∀ e, g.link.adjustErrors (val e) (val ω) = val (g'.link.adjustErrors e ω)
  adjustVariance : ∀ ω ∈ W, ∀ v,
    g.link.adjustVariance (val v) (val ω) = val (g'.link.adjustVariance v ω)
  adjustErrorsVariance : ∀ ω ∈ W, ∀ e v, g.link.adjustErrorsVariance (val e) (val v) (val ω)
    = (val (g'.link.adjustErrorsVariance e v ω).1, val (g'.link.adjustErrorsVariance e v ω).2)
  logLike : ∀ ω ∈ W, ∀ y, g.logLikeNatural (val y) (val (g'.link.natParam ω))
    = val (g'.logLikeNatural y (g'.link.natParam ω))

/-- A vector less the linear offset. -/
def Dataset.lessOffset {F : Type} [Scalar F] {n p : ℕ} {b : Bool} (d : Dataset F n p b)
    (v : Vec F n) : Vec F n :=
  match d.linearOffset with
  | some off => vsub v off
  | none => v

theorem Dataset.strict_lessOffset {n p : ℕ} {b : Bool} (d : Dataset ℝ n p b) (v : Vec ℝ n) :
    d.strict.lessOffset (Vec.strict v) = Vec.strict (d.lessOffset v) := by
  have h : d.strict.linearOffset = d.linearOffset.map Vec.strict := rfl
  unfold Dataset.lessOffset
  rw [h]
  cases d.linearOffset <;> rfl

theorem initGuess_eq {F : Type} [Scalar F] {n p : ℕ} {b : Bool} (env : Env F) (g : Glm F)
    (d : Dataset F n p b) :
    g.initGuess env d = match env.solveh (d.xConj.dotM d.x) (d.xConj.dotV (d.lessOffset
        fun i => g.link.func (half * (d.y i + (vmean? d.y).getD 0)))) with
      | .ok sol => sol
      | .error _ => vzeros := by
  rfl

theorem irlsMatVec_eq {F : Type} [Scalar F] {n p : ℕ} {b : Bool} (eps : F) (g : Glm F)
    (d : Dataset F n p b) (β : Vec F (ncols b p)) :
    Irls.irlsMatVec eps g d β =
      (Mat.dotM (fun j i => d.xConj j i *
        ((g.link.adjustErrorsVariance (vsub d.y (g.mean (d.linearPredictorStd β)) i)
          (g.variance (g.mean (d.linearPredictorStd β) i)) (d.linearPredictorStd β i)).2 + eps)) d.x,
      d.xConj.dotV fun i =>
        ((g.link.adjustErrorsVariance (vsub d.y (g.mean (d.linearPredictorStd β)) i)
          (g.variance (g.mean (d.linearPredictorStd β) i)) (d.linearPredictorStd β i)).2 + eps)
          * d.x.dotV β i
        + (g.link.adjustErrorsVariance (vsub d.y (g.mean (d.linearPredictorStd β)) i)
          (g.variance (g.mean (d.linearPredictorStd β) i)) (d.linearPredictorStd β i)).1) := by
  rfl

section glm
variable {g : Glm NReal} {g' : Glm ℝ} {W : Set ℝ} (ht : Tracks g g' W) {n p : ℕ} {b : Bool}
  (d : Dataset ℝ n p b)
include ht

theorem Tracks.mean {v : Vec ℝ n} (h : ∀ i, v i ∈ W) :
    g.mean (Vec.strict v) = Vec.strict (g'.mean v) :=
  funext fun i => ht.funcInv _ (h i)

theorem Tracks.adjustedVarianceDiag {v : Vec ℝ n} (h : ∀ i, v i ∈ W) :
    g.adjustedVarianceDiag (Vec.strict v) = Vec.strict (g'.adjustedVarianceDiag v) := by
  funext i
  unfold Glm.adjustedVarianceDiag
  rw [ht.mean h]
  simp only [Vec.strict, Glm.mean]
  rw [ht.variance _ (h i), ht.adjustVariance _ (h i)]

theorem Tracks.logLikeTerms {β : Vec ℝ (ncols b p)} (h : ∀ i, d.linearPredictorStd β i ∈ W) :
    g.logLikeTerms d.strict (Vec.strict β) = Vec.strict (g'.logLikeTerms d β) := by
  funext i
  simp only [Glm.logLikeTerms, Dataset.strict_linearPredictorStd]
  simp only [Vec.strict]
  rw [ht.natParam _ (h i)]
  exact ht.logLike _ (h i) _

theorem Tracks.logLike' {β : Vec ℝ (ncols b p)} (h : ∀ i, d.linearPredictorStd β i ∈ W) :
    g.logLike d.strict (Vec.strict β) = val (g'.logLike d β) := by
  simp only [Glm.logLike, ht.logLikeTerms d h, Dataset.strict_applyTotalWeights, vsum_strict]

theorem Tracks.irlsMatVec (eps : ℝ) {β : Vec ℝ (ncols b p)}
    (h : ∀ i, d.linearPredictorStd β i ∈ W) :
    Irls.irlsMatVec (val eps) g d.strict (Vec.strict β)
      = (Mat.strict (Irls.irlsMatVec eps g' d β).1, Vec.strict (Irls.irlsMatVec eps g' d β).2) := by
  have hx : d.strict.x.dotV (Vec.strict β) = Vec.strict (d.x.dotV β) := dotV_strict _ _
  have hy : d.strict.y = Vec.strict d.y := rfl
  have hX : d.strict.x = Mat.strict d.x := rfl
  have hadj : ∀ i, g.link.adjustErrorsVariance (vsub (Vec.strict d.y)
        (Vec.strict (g'.mean (d.linearPredictorStd β))) i)
      (g.variance (Vec.strict (g'.mean (d.linearPredictorStd β)) i))
      (Vec.strict (d.linearPredictorStd β) i)
      = (val (g'.link.adjustErrorsVariance (vsub d.y (g'.mean (d.linearPredictorStd β)) i)
          (g'.variance (g'.mean (d.linearPredictorStd β) i)) (d.linearPredictorStd β i)).1,
        val (g'.link.adjustErrorsVariance (vsub d.y (g'.mean (d.linearPredictorStd β)) i)
          (g'.variance (g'.mean (d.linearPredictorStd β) i)) (d.linearPredictorStd β i)).2) := by
    intro i
    have hv := ht.variance _ (h i)
    simp only [vsub_strict, Vec.strict, Glm.mean]
    rw [hv, ht.adjustErrorsVariance _ (h i)]
  rw [irlsMatVec_eq, irlsMatVec_eq, Dataset.strict_linearPredictorStd, ht.mean h, hx,
    Dataset.strict_xConj, hy]
  simp only [hadj]
  exact congrArg₂ Prod.mk (dotM_strict _ _) (dotV_strict _ _)

omit ht in
theorem strict_initGuess (env : Env ℝ)
    (hf : n ≠ 0 → ∀ i, g.link.func (val (half * (d.y i + vsum d.y / ofNat n)))
      = val (g'.link.func (half * (d.y i + vsum d.y / ofNat n)))) :
    g.initGuess env.strict d.strict = Vec.strict (g'.initGuess env d) := by
  have hy : d.strict.y = Vec.strict d.y := rfl
  have hX : d.strict.x = Mat.strict d.x := rfl
  have hlink : (fun i => g.link.func (half * (d.strict.y i + (vmean? d.strict.y).getD 0)))
      = Vec.strict fun i => g'.link.func (half * (d.y i + (vmean? d.y).getD 0)) := by
    funext i
    have hn : n ≠ 0 := fun hn => (hn ▸ i).elim0
    have hn' : (ofNat n : ℝ) ≠ 0 := by simpa using hn
    have h := hf hn i
    simp only [vmean?, hn, if_false, Option.getD_some]
    rw [hy, vsum_strict, ofNat_val, div_val _ hn']
    exact h
  rw [initGuess_eq, initGuess_eq, hlink, Dataset.strict_lessOffset, Dataset.strict_xConj, hX,
    dotM_strict, dotV_strict, solveh_strict]
  cases env.solveh (d.xConj.dotM d.x) _ <;> rfl

end glm

/-! ### The iteration -/
section irls
variable {k : ℕ}

theorem zeroFirst_strict {p : ℕ} {b : Bool} (l : Vec ℝ (ncols b p)) :
    zeroFirstMaybe (Vec.strict l) = Vec.strict (zeroFirstMaybe l) := by
  cases b
  · rfl
  · exact Dataset.cons_strict 0 (Fin.tail l)

theorem getReg_strict {p : ℕ} {b : Bool} (o : FitOptions ℝ (ncols b p)) :
    getReg o.strict = (getReg o).strict := by
  have h1 : gt o.strict.l1 0 = gt o.l1 0 := rfl
  have h2 : gt o.strict.l2 0 = gt o.l2 0 := rfl
  have e1 : (zeroFirstMaybe (vfill o.strict.l1) : Vec NReal (ncols b p))
      = Vec.strict (zeroFirstMaybe (vfill o.l1)) := zeroFirst_strict _
  have e2 : (zeroFirstMaybe (vfill o.strict.l2) : Vec NReal (ncols b p))
      = Vec.strict (zeroFirstMaybe (vfill o.l2)) := zeroFirst_strict _
  unfold getReg
  simp only [h1, h2, e1, e2]
  cases gt o.l1 0 <;> cases gt o.l2 0 <;> rfl

theorem getReg_rhoNe {p : ℕ} {b : Bool} (o : FitOptions ℝ (ncols b p)) : (getReg o).RhoNe := by
  unfold getReg
  dsimp only
  split
  · exact one_ne_zero
  · split
    · trivial
    · split
      · exact one_ne_zero
      · trivial

theorem smallDelta_val (a c t : ℝ) : smallDelta (val a) (val c) (val t) = smallDelta a c t := rfl

theorem smallDeltaVec_strict (u v : Vec ℝ k) (t : ℝ) :
    smallDeltaVec (Vec.strict u) (Vec.strict v) (val t) = smallDeltaVec u v t := by
  simp only [smallDeltaVec, vsub_strict]
  simp only [Vec.strict, mul_val, vsum_val, ofNat_val, add_val, le_val]

theorem stepScaleLoop_val {f : NReal → NReal} {f' : ℝ → ℝ} (h : ∀ x, f (val x) = val (f' x))
    (f0 tol : ℝ) (fuel : ℕ) (x : ℝ) :
    stepScaleLoop f (val f0) (val tol) fuel (val x)
      = (stepScaleLoop f' f0 tol fuel x).map (Option.map val) := by
  have hg : (goldenScale : NReal) = val goldenScale := rfl
  induction fuel generalizing x with
  | zero => rfl
  | succ fuel ih =>
    simp only [stepScaleLoop, hg, mul_val, h, gt_val]
    by_cases h1 : gt x tol = true
    · rw [if_pos h1, if_pos h1]
      by_cases h2 : gt (f' (x * goldenScale)) f0 = true
      · rw [if_pos h2, if_pos h2]; rfl
      · rw [if_neg h2, if_neg h2, ih]
    · rw [if_neg h1, if_neg h1]; rfl

theorem stepScale_val {f : NReal → NReal} {f' : ℝ → ℝ} (h : ∀ x, f (val x) = val (f' x))
    (fuel : ℕ) (tol : ℝ) :
    stepScale fuel f (val tol) = (stepScale fuel f' tol).map val := by
  unfold stepScale
  have h0 : f 0 = val (f' 0) := h 0
  have hm : f (-goldenScale) = val (f' (-goldenScale)) := h _
  dsimp only
  rw [h0, hm, abs_val, one_eq, stepScaleLoop_val h]
  cases stepScaleLoop f' (f' 0) (Scalar.abs tol) fuel 1 with
  | none => rfl
  | some o =>
    cases o with
    | some x => rfl
    | none =>
      simp only [Option.map_some, Option.map_none]
      by_cases h1 : gt (f' (-goldenScale)) (f' 0) = true
      · have h1' : gt (val (f' (-goldenScale))) (val (f' 0)) = true := h1
        rw [if_pos h1', if_pos h1]; rfl
      · have h1' : ¬ gt (val (f' (-goldenScale))) (val (f' 0)) = true := h1
        rw [if_neg h1', if_neg h1]; rfl

def NextRes.strict : NextRes ℝ k → NextRes NReal k
  | .stop => .stop
  | .step s => .step s.strict
  | .fail e => .fail e.strict
  | .diverge => .diverge

def RawNext.strict : RawNext ℝ k → RawNext NReal k
  | .stop s => .stop s.strict
  | .linalg s => .linalg s.strict
  | .diverge s => .diverge s.strict
  | .cand s v l => .cand s.strict (Vec.strict v) (val l)

theorem Irls.strict_candStep (s : Irls ℝ k) (v : Vec ℝ k) (l : ℝ) :
    s.strict.candStep (Vec.strict v) (val l) = (s.candStep v l).strict := by
  have h : s.strict.reg = s.reg.strict := rfl
  simp only [candStep, h, Reg.strict_likelihood, add_val, IrlsStep.strict]

theorem Irls.strict_candState (s : Irls ℝ k) (v : Vec ℝ k) (l : ℝ) :
    s.strict.candState (Vec.strict v) (val l) = (s.candState v l).strict := by
  have h : s.strict.history = s.history.map IrlsStep.strict := rfl
  simp only [candState, strict_candStep, h]
  simp only [Irls.strict, List.map_append, List.map_cons, List.map_nil]

theorem Irls.strict_budget (m : ℕ) (r : RawNext ℝ k) :
    Irls.budget m r.strict = ((Irls.budget m r).1.strict, (Irls.budget m r).2.strict) := by
  cases r with
  | stop s => rfl
  | linalg s => rfl
  | diverge s => rfl
  | cand s v l =>
    have h : s.strict.history = s.history.map IrlsStep.strict := rfl
    have hn : s.strict.nIter = s.nIter := rfl
    simp only [RawNext.strict, budget, strict_candStep, strict_candState, h, hn]
    split <;> simp [NextRes.strict, FitError.strict]

variable {g : Glm NReal} {g' : Glm ℝ} (ht : Tracks g g' Set.univ) {n p : ℕ} {b : Bool}
  (d : Dataset ℝ n p b) (env : Env ℝ) (o : FitOptions ℝ (ncols b p))
include ht

theorem Tracks.fStep (r : Reg ℝ (ncols b p)) (u v : Vec ℝ (ncols b p)) (x : ℝ) :
    Irls.fStep g d.strict r.strict (Vec.strict u) (Vec.strict v) (val x)
      = val (Irls.fStep g' d r u v x) := by
  have hc : (fun j => Vec.strict v j * val x + Vec.strict u j * (1 - val x))
      = Vec.strict fun j => v j * x + u j * (1 - x) := rfl
  simp only [Irls.fStep, hc, ht.logLike' d fun _ => Set.mem_univ _, Reg.strict_likelihood, add_val]

theorem Tracks.nextRaw (tol : ℝ) (s : Irls ℝ (ncols b p)) (hr : s.reg.RhoNe) :
    s.strict.nextRaw env.strict g d.strict (val tol) = (s.nextRaw env g' d tol).strict := by
  have hU : ∀ (v : Vec ℝ (ncols b p)) i, d.linearPredictorStd v i ∈ Set.univ := fun _ _ => trivial
  have hll : ∀ v : Vec ℝ (ncols b p), g.logLike d.strict (Vec.strict v) = val (g'.logLike d v) :=
    fun v => ht.logLike' d (hU v)
  have he : env.strict.eps = val env.eps := rfl
  have hf : env.strict.fuel = env.fuel := rfl
  obtain ⟨gu, reg, ni, ll, dn, hist⟩ := s
  cases dn with
  | true => rfl
  | false =>
    have hng := Reg.strict_nextGuess env reg hr gu (Irls.irlsMatVec env.eps g' d gu).2
      (Irls.irlsMatVec env.eps g' d gu).1
    simp only [Irls.nextRaw, Irls.strict, Bool.false_eq_true, if_false, he, hf,
      ht.irlsMatVec d env.eps (hU gu), hng]
    generalize reg.nextGuess env gu (Irls.irlsMatVec env.eps g' d gu).2
      (Irls.irlsMatVec env.eps g' d gu).1 = ng
    obtain ⟨r, e⟩ := ng
    cases e with
    | error e => rfl
    | ok v =>
      simp only [Except.map, hll, Reg.strict_irlsLike, add_val, ofNat_val, mul_val, gt_val,
        Reg.strict_terminateOk, vecEq_strict, smallDelta_val, smallDeltaVec_strict]
      cases r.terminateOk tol
      · rfl
      · simp only [Bool.not_true, Bool.false_eq_true, if_false]
        cases vecEq v gu
        · simp only [Bool.false_eq_true, if_false]
          have hs1 : ∀ c : Bool, (if c = true then
                (⟨Vec.strict gu, r.strict, ni, val ll, true, hist.map IrlsStep.strict⟩ : Irls NReal _)
              else ⟨Vec.strict gu, r.strict, ni, val ll, false, hist.map IrlsStep.strict⟩)
              = Irls.strict (if c = true then
                (⟨gu, r, ni, ll, true, hist⟩ : Irls ℝ _) else ⟨gu, r, ni, ll, false, hist⟩) := by
            intro c; cases c <;> rfl
          rw [hs1]
          generalize (if (smallDelta (g'.logLike d v + r.irlsLike v)
              (ll + r.irlsLike gu) (tol * ofNat n)
              && smallDeltaVec v gu tol) = true then _
            else _ : Irls ℝ (ncols b p)) = s1
          cases gt (g'.logLike d v + r.irlsLike v) (ll + r.irlsLike gu)
          · simp only [Bool.false_eq_true, if_false]
            have hfs : ∀ x, Irls.fStep g d.strict s1.strict.reg s1.strict.guess (Vec.strict v) (val x)
                = val (Irls.fStep g' d s1.reg s1.guess v x) := ht.fStep d s1.reg s1.guess v
            have hsq : sqrt (vsum fun j => 1 + s1.strict.guess j * s1.strict.guess j)
                = val (sqrt (vsum fun j => 1 + s1.guess j * s1.guess j)) := by
              have h0 : (0 : ℝ) ≤ vsum fun j => 1 + s1.guess j * s1.guess j := by
                rw [vsum_real]
                exact Finset.sum_nonneg fun j _ => add_nonneg zero_le_one (mul_self_nonneg _)
              rw [← sqrt_val h0, ← vsum_val]
              rfl
            rw [hsq, mul_val, stepScale_val hfs]
            cases stepScale env.fuel (Irls.fStep g' d s1.reg s1.guess v)
                (sqrt (vsum fun j => 1 + s1.guess j * s1.guess j) * tol) with
            | none => rfl
            | some m =>
              have hv' : (fun j => Vec.strict v j * val m + s1.strict.guess j * (1 - val m))
                = Vec.strict fun j => v j * m + s1.guess j * (1 - m) := rfl
              simp only [Option.map_some, hv', hll]
              rw [zero_eq, eq_val]
              cases eq m 0 <;> rfl
          · rfl
        · rfl

theorem Tracks.next (s : Irls ℝ (ncols b p)) (hr : s.reg.RhoNe) :
    s.strict.next env.strict g d.strict o.strict
      = ((s.next env g' d o).1.strict, (s.next env g' d o).2.strict) := by
  have h : o.strict.tol = val o.tol := rfl
  have h' : o.strict.maxIter = o.maxIter := rfl
  rw [Irls.next_eq, Irls.next_eq, h, h', ht.nextRaw d env o.tol s hr, Irls.strict_budget]

omit ht in
theorem maxByLike_strict {k : ℕ} (best? : Option (IrlsStep ℝ k)) (st : IrlsStep ℝ k) :
    maxByLike (best?.map IrlsStep.strict) st.strict = (maxByLike best? st).strict := by
  cases best? with
  | none => rfl
  | some best =>
    simp only [maxByLike, Option.map_some, IrlsStep.strict, totalCmp_val]
    cases totalCmp best.like st.like <;> rfl

omit ht in
theorem RhoNe.frame {k : ℕ} {s s' : Irls ℝ k} (h : s.reg.RhoNe) (hf : Irls.Frame s s') :
    s'.reg.RhoNe := by
  rcases hf.reg with hr | hr <;> rw [hr]
  · exact h
  · exact h.prepare _

theorem Tracks.fitLoop (s : Irls ℝ (ncols b p)) (best? : Option (IrlsStep ℝ (ncols b p)))
    (hr : s.reg.RhoNe) :
    fitLoop env.strict g d.strict o.strict s.strict (best?.map IrlsStep.strict)
      = (fitLoop env g' d o s best?).mapBoth FitError.strict
          fun r => (r.1.map IrlsStep.strict, r.2.strict) := by
  refine fitLoop_ind env g' d o (motive := fun s best? => s.reg.RhoNe →
    GLM.fitLoop env.strict g d.strict o.strict s.strict (best?.map IrlsStep.strict)
      = (GLM.fitLoop env g' d o s best?).mapBoth FitError.strict
          fun r => (r.1.map IrlsStep.strict, r.2.strict)) ?_ s best? hr
  intro s best? ih hr
  have h : o.strict.tol = val o.tol := rfl
  have h' : o.strict.maxIter = o.maxIter := rfl
  have hf := s.nextRaw_frame env g' d o.tol
  rw [fitLoop_eq, fitLoop_eq, h, h', ht.nextRaw d env o.tol s hr]
  cases hn : s.nextRaw env g' d o.tol with
  | stop s' => rfl
  | linalg s' => rfl
  | diverge s' => rfl
  | cand s' v l =>
    rw [hn] at hf
    have hi : s'.strict.nIter = s'.nIter := rfl
    have hh : s'.strict.history = s'.history.map IrlsStep.strict := rfl
    simp only [RawNext.strict, Irls.strict_candStep, Irls.strict_candState, hi, hh]
    by_cases hm : s'.nIter + 1 > o.maxIter
    · rw [if_pos hm, if_pos hm]
      simp [Outcome.mapBoth, FitError.strict]
    · rw [if_neg hm, if_neg hm, maxByLike_strict]
      have hr' : s'.reg.RhoNe := RhoNe.frame hr hf.1
      exact ih s' v l hn (not_lt.mp hm) hr'

theorem Tracks.irlsNew (v : Vec ℝ (ncols b p)) :
    Irls.new g d.strict (Vec.strict v) o.strict = (Irls.new g' d v o).strict := by
  simp only [Irls.new, ht.logLike' d fun _ => Set.mem_univ _, getReg_strict, Irls.strict,
    List.map_nil]

/-- The starting point of the fit is defined: given by the caller, or computed from response means
at which the link is defined. -/
def StartDefined (g : Glm NReal) (g' : Glm ℝ) (d : Dataset ℝ n p b) (o : FitOptions ℝ (ncols b p)) :
    Prop :=
  o.initGuess = none → ∀ i, g.link.func (val (half * (d.y i + vsum d.y / ofNat n)))
      = val (g'.link.func (half * (d.y i + vsum d.y / ofNat n)))

omit ht in
theorem initialGuess_strict (hs : StartDefined g g' d o) :
    initialGuess env.strict g d.strict o.strict = Vec.strict (initialGuess env g' d o) := by
  have h : o.strict.initGuess = o.initGuess.map Vec.strict := rfl
  unfold initialGuess
  rw [h]
  cases ho : o.initGuess with
  | none => exact strict_initGuess d env fun _ => hs ho
  | some β => exact d.strict_transformBeta β

theorem Tracks.regressionCore (hs : StartDefined g g' d o) :
    regressionCore env.strict g d.strict o.strict
      = (regressionCore env g' d o).mapBoth FitError.strict fun r => (r.1.strict, r.2.strict) := by
  unfold GLM.regressionCore
  dsimp only
  rw [initialGuess_strict d env o hs, ht.irlsNew d o]
  have h := ht.fitLoop d env o (Irls.new g' d (initialGuess env g' d o) o) none (getReg_rhoNe o)
  rw [Option.map_none] at h
  rw [h]
  cases GLM.fitLoop env g' d o (Irls.new g' d (initialGuess env g' d o) o) none with
  | ok r =>
    obtain ⟨b?, s⟩ := r
    have hl : s.strict.makeLastStep = s.makeLastStep.strict := by
      have h : s.strict.reg = s.reg.strict := rfl
      have h1 : s.strict.guess = Vec.strict s.guess := rfl
      have h2 : s.strict.lastLikeData = val s.lastLikeData := rfl
      simp only [Irls.makeLastStep, h, h1, h2, Reg.strict_likelihood, add_val, IrlsStep.strict]
    simp only [Outcome.mapBoth, Outcome.map, Outcome.bind]
    cases b? with
    | none => simp only [Option.map_none, Option.getD_none, hl]
    | some b => rfl
  | err e => rfl
  | panic => rfl
  | diverge => rfl

/-- A whole fit, in the arithmetic with not-a-number, is the fit in `ℝ`. -/
theorem Tracks.regression (hs : StartDefined g g' d o)
    (hsc : ∀ s, d.standardizer = some s → ∀ j, s.scales j ≠ 0) :
    regression env.strict g d.strict o.strict
      = (regression env g' d o).mapBoth FitError.strict (Fit.strict g) := by
  unfold GLM.regression
  rw [ht.regressionCore d env o hs]
  cases GLM.regressionCore env g' d o with
  | ok r =>
    obtain ⟨st, s⟩ := r
    have h1 : st.strict.guess = Vec.strict st.guess := rfl
    have h2 : s.strict.history = s.history.map IrlsStep.strict := rfl
    simp only [Outcome.mapBoth, Outcome.map, Outcome.bind, Fit.new, Fit.strict, h1, h2,
      Dataset.strict_linearPredictorStd, ht.mean fun _ => Set.mem_univ _,
      Dataset.strict_inverseTransformBeta d hsc, List.map_map, Outcome.ok.injEq]
    congr 1
    · refine List.map_congr_left fun st _ => ?_
      have h1 : st.strict.guess = Vec.strict st.guess := rfl
      simp only [Function.comp, h1, Dataset.strict_inverseTransformBeta d hsc]
      rfl
  | err e => rfl
  | panic => rfl
  | diverge => rfl

end irls

end GLM
