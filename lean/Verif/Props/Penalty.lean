/-
  C32-C35, C58: the penalties and their ADMM treatment.
-/
import Verif.Lemmas.Admm
import Verif.Props.Optimum
import Mathlib.Analysis.Calculus.Deriv.Pow
import Mathlib.Analysis.Calculus.Deriv.Abs
import Mathlib.Analysis.Calculus.Deriv.Mul

namespace GLM
open Spec Matrix

/-! ### C32 -/

section
variable {k : ℕ}

/-- A sum of functions of one coordinate each. -/
theorem isGradientAt_sum {f : Fin k → ℝ → ℝ} {f' : Fin k → ℝ} {β : Fin k → ℝ}
    (h : ∀ j, HasDerivAt (f j) (f' j) (β j)) :
    IsGradientAt (fun β => ∑ j, f j (β j)) f' β := by
  unfold IsGradientAt
  refine HasFDerivAt.fun_sum fun j _ => ?_
  exact (h j).comp_hasFDerivAt β (hasFDerivAt_apply j β)

theorem hasDerivAt_mul_abs {l x : ℝ} (h : l = 0 ∨ x ≠ 0) :
    HasDerivAt (fun x => l * |x|) (l * (SignType.sign x : ℝ)) x := by
  rcases h with rfl | h
  · simpa using hasDerivAt_const x (0 : ℝ)
  · exact (hasDerivAt_abs h).const_mul l

theorem hasDerivAt_mul_sq (l x : ℝ) : HasDerivAt (fun x => l * (x * x)) (2 * (l * x)) x := by
  exact (((hasDerivAt_id' x).fun_mul (hasDerivAt_id' x)).const_mul l).congr_deriv (by ring)

/-- The coefficients at which the L1 part of a regularizer is differentiable: unpenalized or
non-zero. -/
def Spec.Smooth : Reg ℝ k → Vec ℝ k → Prop
  | .null, _ => True
  | .ridge _, _ => True
  | .lasso l1 _, β => ∀ j, l1 j = 0 ∨ β j ≠ 0
  | .elastic l1 _ _, β => ∀ j, l1 j = 0 ∨ β j ≠ 0

/-- C32.  `gradient(jac, β)` is `jac` plus the gradient at `β` of the penalty term `likelihood`,
wherever that is differentiable. -/
theorem C32_gradient (r : Reg ℝ k) (jac β : Vec ℝ k) (h : Smooth r β) :
    IsGradientAt r.likelihood (r.gradient jac β - jac) β := by
  cases r with
  | null =>
    have := isGradientAt_sum (f := fun _ _ => (0 : ℝ)) (f' := 0) (β := β)
      fun j => hasDerivAt_const _ _
    convert this using 1
    · funext γ; simp [Reg.likelihood]
    · funext j; simp [Reg.gradient]
  | ridge l2 =>
    have := isGradientAt_sum (f := fun j x => -(1 / 2) * (l2 j * (x * x)))
      (f' := fun j => -(1 / 2) * (2 * (l2 j * β j))) (β := β)
      fun j => (hasDerivAt_mul_sq (l2 j) (β j)).const_mul _
    convert this using 1
    · funext γ
      simp only [Reg.likelihood, sumL2, vsum_real, half_real, Finset.mul_sum]
    · funext j
      simp only [Reg.gradient, Pi.sub_apply]
      ring
  | lasso l1 st =>
    have := isGradientAt_sum (f := fun j x => -(l1 j * |x|))
      (f' := fun j => -(l1 j * (SignType.sign (β j) : ℝ))) (β := β)
      fun j => (hasDerivAt_mul_abs (h j)).neg
    convert this using 1
    · funext γ
      simp only [Reg.likelihood, sumL1, vsum_real, abs_real, Finset.sum_neg_distrib]
    · funext j
      simp only [Reg.gradient, Pi.sub_apply, sign_real]
      ring
  | elastic l1 l2 st =>
    have := isGradientAt_sum (f := fun j x => -(l1 j * |x|) - 1 / 2 * (l2 j * (x * x)))
      (f' := fun j => -(l1 j * (SignType.sign (β j) : ℝ)) - 1 / 2 * (2 * (l2 j * β j))) (β := β)
      fun j => (hasDerivAt_mul_abs (h j)).neg.sub ((hasDerivAt_mul_sq (l2 j) (β j)).const_mul _)
    convert this using 1
    · funext γ
      simp only [Reg.likelihood, sumL1, sumL2, vsum_real, abs_real, half_real,
        Finset.sum_sub_distrib, Finset.sum_neg_distrib, Finset.mul_sum]
    · funext j
      simp only [Reg.gradient, Pi.sub_apply, sign_real]
      ring

/-- C32 (everywhere): the gradient is a supergradient of the penalty term, also at zero
coefficients. -/
theorem C32_supergradient (r : Reg ℝ k) (jac β : Vec ℝ k)
    (h : ∀ l1 l2 st, (r = .lasso l1 st ∨ r = .elastic l1 l2 st) → ∀ j, 0 ≤ l1 j)
    (h' : ∀ l1 l2 st, (r = .ridge l2 ∨ r = .elastic l1 l2 st) → ∀ j, 0 ≤ l2 j) (β' : Vec ℝ k) :
    r.likelihood β' ≤ r.likelihood β + (r.gradient jac β - jac) ⬝ᵥ (β' - β) := by
  have habs : ∀ l x z : ℝ, 0 ≤ l →
      l * |x| + l * (SignType.sign x : ℝ) * (z - x) ≤ l * |z| := by
    intro l x z hl
    refine IsSubgrad.le (l := l) (x := x) ⟨?_, ?_⟩ z
    · rw [abs_mul, abs_of_nonneg hl]
      refine mul_le_of_le_one_right hl ?_
      rcases lt_trichotomy x 0 with h | h | h <;> simp [h, sign_neg, sign_pos]
    · rw [mul_assoc, mul_comm (SignType.sign x : ℝ), self_mul_sign]
  have hsq : ∀ l x z : ℝ, 0 ≤ l → l * (x * x) + 2 * (l * x) * (z - x) ≤ l * (z * z) := by
    intro l x z hl
    nlinarith [mul_nonneg hl (sq_nonneg (z - x))]
  cases r with
  | null => simp [Reg.likelihood, Reg.gradient]
  | ridge l2 =>
    have := Finset.sum_le_sum fun j (_ : j ∈ Finset.univ) =>
      hsq (l2 j) (β j) (β' j) (h' 0 l2 Admm.init (Or.inl rfl) j)
    simp only [Reg.likelihood, Reg.gradient, sumL2, vsum_real, half_real, dotProduct, Pi.sub_apply]
    rw [Finset.sum_add_distrib] at this
    have e : ∑ j, (jac j - l2 j * β j - jac j) * (β' j - β j)
        = -(1 / 2) * ∑ j, 2 * (l2 j * β j) * (β' j - β j) := by
      rw [Finset.mul_sum]; exact Finset.sum_congr rfl fun j _ => by ring
    rw [e]
    linarith
  | lasso l1 st =>
    have := Finset.sum_le_sum fun j (_ : j ∈ Finset.univ) =>
      habs (l1 j) (β j) (β' j) (h l1 0 st (Or.inl rfl) j)
    simp only [Reg.likelihood, Reg.gradient, sumL1, vsum_real, dotProduct, Pi.sub_apply, abs_real,
      sign_real]
    rw [Finset.sum_add_distrib] at this
    have e : ∑ j, (jac j - l1 j * (SignType.sign (β j) : ℝ) - jac j) * (β' j - β j)
        = -∑ j, l1 j * (SignType.sign (β j) : ℝ) * (β' j - β j) := by
      rw [← Finset.sum_neg_distrib]; exact Finset.sum_congr rfl fun j _ => by ring
    rw [e]
    linarith
  | elastic l1 l2 st =>
    have h1 := Finset.sum_le_sum fun j (_ : j ∈ Finset.univ) =>
      hsq (l2 j) (β j) (β' j) (h' l1 l2 st (Or.inr rfl) j)
    have h2 := Finset.sum_le_sum fun j (_ : j ∈ Finset.univ) =>
      habs (l1 j) (β j) (β' j) (h l1 l2 st (Or.inr rfl) j)
    simp only [Reg.likelihood, Reg.gradient, sumL1, sumL2, vsum_real, dotProduct, Pi.sub_apply,
      abs_real, sign_real, half_real]
    rw [Finset.sum_add_distrib] at h1 h2
    have e : ∑ j, (jac j - l1 j * (SignType.sign (β j) : ℝ) - l2 j * β j - jac j) * (β' j - β j)
        = -∑ j, l1 j * (SignType.sign (β j) : ℝ) * (β' j - β j)
          - 1 / 2 * ∑ j, 2 * (l2 j * β j) * (β' j - β j) := by
      rw [Finset.mul_sum, ← Finset.sum_neg_distrib, ← Finset.sum_sub_distrib]
      exact Finset.sum_congr rfl fun j _ => by ring
    rw [e]
    linarith

/-- C32 (ridge): the term added to the IRLS matrix is minus the derivative of the gradient, and with
it the IRLS equation `M β' = v` is the Newton equation for the penalized problem: if `M₀ β + s = v`
for the data alone, the ridge system's solution satisfies `M (β' - β) = gradient(s, β)`. -/
theorem C32_ridge_newton (l2 : Vec ℝ k) (m : Mat ℝ k k) (s β β' v : Vec ℝ k)
    (hv : Matrix.of m *ᵥ β + s = v) :
    (∀ j, HasFDerivAt (fun β => (Reg.ridge l2).gradient 0 β j)
      (-∑ i, (Reg.ridge l2).irlsMat (fun _ _ => 0) β j i •
        ContinuousLinearMap.proj (R := ℝ) (φ := fun _ : Fin k => ℝ) i) β) ∧
    (Matrix.of ((Reg.ridge l2).irlsMat m β) *ᵥ β' = (Reg.ridge l2).irlsVec v β ↔
      Matrix.of ((Reg.ridge l2).irlsMat m β) *ᵥ (β' - β) = (Reg.ridge l2).gradient s β) := by
  constructor
  · intro j
    have h : HasFDerivAt (fun β : Vec ℝ k => -(l2 j * β j))
        (-(l2 j • ContinuousLinearMap.proj (R := ℝ) (φ := fun _ : Fin k => ℝ) j)) β :=
      ((hasFDerivAt_apply j β).const_mul (l2 j)).neg
    convert h using 1
    · funext γ; simp [Reg.gradient]
    · congr 1
      simp [Reg.irlsMat, Mat.addDiag, ite_smul]
  · have hM : Matrix.of ((Reg.ridge l2).irlsMat m β) = Matrix.of m + diagonal l2 := by
      ext i j
      simp only [Reg.irlsMat, Mat.addDiag, of_apply, Matrix.add_apply, diagonal_apply]
      split <;> simp
    have e : Matrix.of ((Reg.ridge l2).irlsMat m β) *ᵥ β = v - (Reg.ridge l2).gradient s β := by
      rw [hM, Matrix.add_mulVec, ← hv]
      funext j
      simp only [Pi.add_apply, Pi.sub_apply, Reg.gradient, mulVec_diagonal]
      ring
    rw [mulVec_sub, e]
    change _ = v ↔ _
    constructor
    · intro h; rw [h]; abel
    · intro h; rw [sub_eq_iff_eq_add] at h; rw [h]; abel

/-- The gradient of a concrete elastic net: penalized coordinate 3 and unpenalized coordinate 0. -/
example : IsGradientAt (Reg.elastic ![0, 2] ![0, 4] Admm.init).likelihood ![0, -14] ![0, 3] := by
  have := C32_gradient (.elastic ![0, 2] ![0, 4] Admm.init) 0 ![0, 3] (by
    intro j; fin_cases j
    · exact Or.inl rfl
    · exact Or.inr (by norm_num))
  convert this using 1
  funext j
  fin_cases j
  · simp [Reg.gradient]
  · have : (0 : ℝ) < 3 := by norm_num
    simp [Reg.gradient, sign_real, sign_pos this]
    norm_num

end

/-! ### C33 -/

/-- C33.  Soft thresholding minimizes `(z - x)²/2 + λ|z|`, and is its only minimizer. -/
theorem C33_prox {x l : ℝ} (hl : 0 ≤ l) (z : ℝ) :
    (softThresh x l - x) ^ 2 / 2 + l * |softThresh x l| ≤ (z - x) ^ 2 / 2 + l * |z| ∧
    ((z - x) ^ 2 / 2 + l * |z| ≤ (softThresh x l - x) ^ 2 / 2 + l * |softThresh x l| →
      z = softThresh x l) := by
  have h := (softThresh_subgrad (x := x) hl).le z
  set s := softThresh x l
  have hsq := sq_nonneg (z - s)
  refine ⟨by nlinarith, fun hle => ?_⟩
  have : (z - s) ^ 2 ≤ 0 := by nlinarith
  have := pow_eq_zero_iff (two_ne_zero) |>.mp (le_antisymm this hsq)
  linarith

/-- C33 for the ADMM update: each entry of the new dual is the unique minimizer of
`ρ (z - β_j - c_j)²/2 + l1_j |z|`, where `ρ`, `c` are the step size and scaled residual in force. -/
theorem C33_dual {k : ℕ} {l1 : Vec ℝ k} {st : Admm ℝ k} (hl : ∀ j, 0 ≤ l1 j)
    (hρ : 0 < (st.prepare l1 0).rho) (β : Vec ℝ k) (j : Fin k) (z : ℝ) :
    let new := st.prepare l1 β
    let c := new.cumRes j - (β j - new.dual j)
    let φ := fun z : ℝ => new.rho * (z - (β j + c)) ^ 2 / 2 + l1 j * |z|
    φ (new.dual j) ≤ φ z ∧ (φ z ≤ φ (new.dual j) → z = new.dual j) := by
  intro new c φ
  have hρ' : 0 < new.rho := hρ
  have hc : c = st.updateRho.cumRes j := by
    simp only [c, new, Admm.prepare]; ring
  have hdual : new.dual j = softThresh (β j + c) (l1 j / new.rho) := by rw [hc]; rfl
  have h := C33_prox (x := β j + c) (div_nonneg (hl j) hρ'.le) z
  rw [← hdual] at h
  have e : ∀ y, φ y = new.rho * ((y - (β j + c)) ^ 2 / 2 + l1 j / new.rho * |y|) := by
    intro y; simp only [φ]; field_simp
  rw [e, e]
  exact ⟨mul_le_mul_of_nonneg_left h.1 hρ'.le, fun hle => h.2 (le_of_mul_le_mul_left hle hρ')⟩

example : softThresh (3 : ℝ) 1 = 2 ∧ softThresh (-3 : ℝ) 1 = -2 ∧ softThresh (1 / 2 : ℝ) 1 = 0 := by
  rw [softThresh_real zero_le_one, softThresh_real zero_le_one, softThresh_real zero_le_one]
  norm_num

/-! ### C34 -/

section
variable {k : ℕ}

/-- The ADMM state after preparing for the given coefficient vectors, in order. -/
noncomputable def Spec.admmRun (l1 : Vec ℝ k) (βs : List (Vec ℝ k)) : Admm ℝ k :=
  βs.foldl (fun st β => st.prepare l1 β) Admm.init

theorem admmRun_inv {l1 : Vec ℝ k} (hl : ∀ j, 0 ≤ l1 j) (βs : List (Vec ℝ k)) :
    AdmmInv l1 (admmRun l1 βs) := by
  unfold admmRun
  suffices h : ∀ st, AdmmInv l1 st → AdmmInv l1 (βs.foldl (fun st β => st.prepare l1 β) st) from
    h _ (AdmmInv.init hl)
  induction βs with
  | nil => exact fun st h => h
  | cons β βs ih => exact fun st h => ih _ (AdmmInv.prepare hl h.rho β)

/-- C34.  After any sequence of updates `ρ` is a power of two (so positive), and `ρ` times the
scaled residual is a subgradient of the L1 penalty at the dual variable; in particular it is bounded
by the penalty strength. -/
theorem C34_invariant {l1 : Vec ℝ k} (hl : ∀ j, 0 ≤ l1 j) (βs : List (Vec ℝ k)) :
    (∃ z : ℤ, (admmRun l1 βs).rho = 2 ^ z) ∧ 0 < (admmRun l1 βs).rho ∧
    (∀ j, |(admmRun l1 βs).rho * (admmRun l1 βs).cumRes j| ≤ l1 j) ∧
    ∀ j, (admmRun l1 βs).rho * (admmRun l1 βs).cumRes j * (admmRun l1 βs).dual j
      = l1 j * |(admmRun l1 βs).dual j| := by
  have h := admmRun_inv hl βs
  exact ⟨h.rho, h.rho_pos, fun j => (h.sub j).1, fun j => (h.sub j).2⟩

/-- C34 (unpenalized coordinates): the residual is zero and, after at least one update, the dual is
the coefficient. -/
theorem C34_unpenalized {l1 : Vec ℝ k} (hl : ∀ j, 0 ≤ l1 j) (βs : List (Vec ℝ k)) (β : Vec ℝ k)
    {j : Fin k} (hj : l1 j = 0) :
    (admmRun l1 βs).cumRes j = 0 ∧ (admmRun l1 (βs ++ [β])).dual j = β j := by
  have hz : ∀ βs, (admmRun l1 βs).cumRes j = 0 := by
    intro βs
    have h := admmRun_inv hl βs
    have := h.sub j
    rw [hj] at this
    exact (mul_eq_zero.mp this.zero).resolve_left h.rho_pos.ne'
  refine ⟨hz βs, ?_⟩
  have h1 := hz βs
  have h2 := (AdmmInv.updateRho (admmRun_inv hl βs).rho).2.2 j
  have hρ : 0 < (admmRun l1 βs).updateRho.rho := by
    obtain ⟨z, hz⟩ := (AdmmInv.updateRho (admmRun_inv hl βs).rho).1
    rw [hz]; positivity
  rw [h1, mul_zero] at h2
  have h3 : (admmRun l1 βs).updateRho.cumRes j = 0 := (mul_eq_zero.mp h2).resolve_left hρ.ne'
  unfold admmRun
  rw [List.foldl_append]
  simp only [List.foldl_cons, List.foldl_nil, Admm.prepare]
  change softThresh (β j + (admmRun l1 βs).updateRho.cumRes j) _ = β j
  rw [h3, hj, zero_div, softThresh_real le_rfl, add_zero]
  split
  · ring
  · split
    · ring
    · rename_i h1 h2
      linarith

end

section
variable {n p : ℕ} {b : Bool} {env : Env ℝ} {g : Glm ℝ} {raw : Dataset ℝ n p false} {std : Bool}
  {d : Dataset ℝ n p b} {options : FitOptions ℝ (ncols b p)}

/-- Every iterator state of an L1 fit satisfies the ADMM invariants (internal helper). -/
def L1Inv (options : FitOptions ℝ (ncols b p)) (s : Irls ℝ (ncols b p)) : Prop :=
  ∃ st, RegL1 options s.reg st ∧ AdmmInv (onSlopes b fun _ : Fin p => options.l1) st ∧
    (s.done = true → st.terminateOk options.tol = true)

theorem onSlopes_nonneg {c : ℝ} (h : 0 ≤ c) (j : Fin (ncols b p)) :
    0 ≤ onSlopes b (fun _ : Fin p => c) j := by
  cases b
  · exact h
  · refine Fin.cases ?_ (fun j => ?_) (j : Fin (p + 1)) <;> simp [onSlopes, h]

theorem L1Inv.new (hl1 : 0 < options.l1) (v : Vec ℝ (ncols b p)) :
    L1Inv options (Irls.new g d v options) :=
  ⟨_, getReg_regL1 hl1, AdmmInv.init fun j => onSlopes_nonneg hl1.le j, by simp [Irls.new]⟩

theorem L1Inv.cand (hl1 : 0 < options.l1) {s s' : Irls ℝ (ncols b p)} {v : Vec ℝ (ncols b p)}
    {l : ℝ} (hs : L1Inv options s) (h : s.nextRaw env g d options.tol = .cand s' v l) :
    L1Inv options (s'.candState v l) := by
  obtain ⟨st, h1, h2, -⟩ := hs
  have h1' := h1.prepare s.guess
  have h2' := AdmmInv.prepare (fun j => onSlopes_nonneg hl1.le j) h2.rho s.guess
  have hc := s.nextRaw_case env g d options.tol
  rw [h] at hc
  generalize hr : (RawNext.cand s' v l : RawNext ℝ (ncols b p)) = r at hc
  cases hc <;> simp only [RawNext.cand.injEq, reduceCtorEq] at hr
  case admm hdone _ hs ht =>
    obtain ⟨rfl, -, -⟩ := hr
    exact ⟨_, h1', h2', fun hd => absurd (hdone.symm.trans hd) (by simp)⟩
  case full hdone _ hs ht he hg =>
    obtain ⟨rfl, -, -⟩ := hr
    exact ⟨_, h1', h2', fun _ => by rw [← h1'.terminateOk]; exact ht⟩
  case scaled hdone _ hs ht he hg m hm h0 =>
    obtain ⟨rfl, -, -⟩ := hr
    exact ⟨_, h1', h2', fun _ => by rw [← h1'.terminateOk]; exact ht⟩

/-- C34 (whole fits): the regularizer of a successful L1 fit satisfies the invariants, and its
primal and dual residual norms are within the fit's tolerance. -/
theorem C34_fit (hl1 : 0 < options.l1) {f : Fit ℝ n p b}
    (h : regression env g d options = .ok f) :
    ∃ st r s, (f.reg = .lasso (onSlopes b fun _ : Fin p => options.l1) st ∨
      f.reg = .elastic (onSlopes b fun _ : Fin p => options.l1) (onSlopes b fun _ => options.l2) st) ∧
      (∃ z : ℤ, st.rho = 2 ^ z) ∧
      (∀ j, IsSubgrad (onSlopes b (fun _ : Fin p => options.l1) j) (st.dual j)
        (st.rho * st.cumRes j)) ∧
      st.rSq = some r ∧ st.sSq = some s ∧
      r < Real.sqrt (ncols b p : ℕ) * options.tol ∧ s < Real.sqrt (ncols b p : ℕ) * options.tol := by
  obtain ⟨best, s, hl, rfl⟩ := regression_ok h
  obtain ⟨s0, hi, hp, hn⟩ := (fitLoop_inv (P := L1Inv options)
    (fun s s' v l _ hs hn => hs.cand hl1 hn) _ none Irls.Inv.new (L1Inv.new hl1 _)).1 best s hl
  have key : ∃ st, RegL1 options s.reg st ∧
      AdmmInv (onSlopes b fun _ : Fin p => options.l1) st ∧ st.terminateOk options.tol = true := by
    obtain ⟨st, h1, h2, h3⟩ := hp
    have h1' := h1.prepare s0.guess
    have h2' := AdmmInv.prepare (fun j => onSlopes_nonneg hl1.le j) h2.rho s0.guess
    have hc := s0.nextRaw_case env g d options.tol
    rw [hn] at hc
    generalize hr : (RawNext.stop s : RawNext ℝ (ncols b p)) = r at hc
    cases hc <;> simp only [RawNext.stop.injEq, reduceCtorEq] at hr
    case done hd => subst hr; exact ⟨st, h1, h2, h3 hd⟩
    case equal ht _ => subst hr; exact ⟨_, h1', h2', by rw [← h1'.terminateOk]; exact ht⟩
    case zero ht _ _ _ _ _ => subst hr; exact ⟨_, h1', h2', by rw [← h1'.terminateOk]; exact ht⟩
  obtain ⟨st, h1, h2, h3⟩ := key
  unfold Admm.terminateOk at h3
  dsimp only at h3
  split at h3
  · rename_i r' s' hr hs
    simp only [Bool.and_eq_true, lt_real, sqrt_real, ofNat_real] at h3
    refine ⟨st, r', s', h1.imp And.right And.right, h2.rho, h2.sub, hr, hs, h3.1, h3.2⟩
  · simp at h3

end

end GLM
