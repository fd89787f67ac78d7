/-
  With a large enough tolerance a fit succeeds after at most one step.  Used to show that the
  hypotheses of theorems about successful fits are met by every family.
-/
import Verif.Props.Newton

namespace GLM
open Spec
variable {n p : ℕ} {b : Bool} {env : Env ℝ} {g : Glm ℝ} {d : Dataset ℝ n p b}
  {options : FitOptions ℝ (ncols b p)}

theorem exists_tolerance_ok (hl1 : options.l1 ≤ 0) (hn : 0 < n) (hk : 0 < ncols b p)
    (hfuel : 0 < env.fuel) (hbud : 1 ≤ options.maxIter)
    (hlin : ∀ tol, regression env g d { options with tol := tol } ≠ .err .linalg) :
    ∃ tol, 0 < tol ∧ ∃ f, regression env g d { options with tol := tol } = .ok f := by
  set s := Irls.new g d (initialGuess env g d options) options with hs
  have hlin' : ∀ tol, ∀ s', s.nextRaw env g d tol ≠ .linalg s' := by
    intro tol s' h
    refine hlin tol ?_
    have e : Irls.new g d (initialGuess env g d { options with tol := tol })
      { options with tol := tol } = s := rfl
    rw [regression_eq, e, fitLoop_eq, h]
  obtain ⟨v, hv⟩ : ∃ v, s.sol env g d = .ok v := by
    cases hsol : s.sol env g d with
    | ok v => exact ⟨v, rfl⟩
    | error e =>
      exfalso
      have hc := s.nextRaw_case env g d 0
      generalize hr : s.nextRaw env g d 0 = r at hc
      cases hc <;> simp_all [Irls.new]
  set D : ℝ := ∑ j, (v j - s.guess j) ^ 2 with hD
  have hD0 : 0 ≤ D := Finset.sum_nonneg fun j _ => sq_nonneg _
  set tol : ℝ := 1 + |s.nextObj g d v - s.lastObj| + D with htol
  have ht1 : 1 ≤ tol := by have := abs_nonneg (s.nextObj g d v - s.lastObj); linarith
  have hk1 : (1 : ℝ) ≤ (ncols b p : ℕ) := by exact_mod_cast hk
  have hn1 : (1 : ℝ) ≤ n := by exact_mod_cast hn
  have hsmall : s.small g d tol v = true := by
    rw [Irls.small, Bool.and_eq_true, smallDelta, le_real, smallDeltaVec, le_real]
    constructor
    · simp only [abs_real, ofNat_real]
      have h1 : tol * 1 ≤ tol * n := mul_le_mul_of_nonneg_left hn1 (by linarith)
      linarith
    · simp only [vsum_real, ofNat_real, vsub, ← sq]
      have h1 : (0 : ℝ) ≤ ∑ j, v j ^ 2 := Finset.sum_nonneg fun j _ => sq_nonneg _
      have h2 : (1 : ℝ) ≤ (ncols b p : ℕ) + ∑ j, v j ^ 2 := by linarith
      have h3 : tol ≤ ((ncols b p : ℕ) + ∑ j, v j ^ 2) * tol := by nlinarith
      have h4 : D ≤ tol := by have := abs_nonneg (s.nextObj g d v - s.lastObj); linarith
      nlinarith
  have hscale : s.scale env g d tol v ≠ none := by
    obtain ⟨k, hk'⟩ := Nat.exists_eq_succ_of_ne_zero hfuel.ne'
    have h1 : (1 : ℝ) ≤ √(∑ j, (1 + s.guess j * s.guess j)) * tol := by
      have : (1 : ℝ) ≤ ∑ j, (1 + s.guess j * s.guess j) := by
        rw [Finset.sum_add_distrib]
        have : 0 ≤ ∑ j, s.guess j * s.guess j :=
          Finset.sum_nonneg fun j _ => mul_self_nonneg _
        simp only [Finset.sum_const, Finset.card_univ, Fintype.card_fin, nsmul_eq_mul, mul_one]
        linarith
      have := Real.one_le_sqrt.mpr this
      nlinarith
    unfold Irls.scale stepScale
    rw [hk']
    simp only [stepScaleLoop, sqrt_real, vsum_real, abs_real]
    rw [if_neg (by rw [gt_real, not_lt]; exact h1.trans (le_abs_self _))]
    dsimp only
    split <;> simp
  obtain ⟨t1, t2, t3⟩ := (Reg.Same.refl (getReg options)).noL1 (getReg_noL1 hl1) s.guess
  refine ⟨tol, by linarith, regression_total (options := { options with tol := tol })
    (P := fun s' => s' = s ∨ s'.done = true) (Or.inl rfl) ?_ ?_ ?_ ?_⟩
  · rintro s0 s' w l hi (rfl | hdone) hcand
    · right
      have hc := s.nextRaw_case env g d tol
      rw [hcand] at hc
      generalize hr : (RawNext.cand s' w l : RawNext ℝ (ncols b p)) = r at hc
      cases hc <;> simp only [RawNext.cand.injEq, reduceCtorEq] at hr
      case admm ht =>
        change ((getReg options).prepare s.guess).terminateOk tol = false at ht
        rw [t1, t3] at ht; simp at ht
      case full v' hsol _ _ _ =>
        rw [hv] at hsol
        cases hsol
        obtain ⟨rfl, -, -⟩ := hr
        exact hsmall
      case scaled v' hsol _ _ _ _ _ _ =>
        rw [hv] at hsol
        cases hsol
        obtain ⟨rfl, -, -⟩ := hr
        exact hsmall
    · rw [Irls.nextRaw_done hdone] at hcand; simp at hcand
  · rintro s0 s' hi (rfl | hdone)
    · exact hlin' tol s'
    · rw [Irls.nextRaw_done hdone]; simp
  · rintro s0 s' hi (rfl | hdone)
    · intro hdiv
      have hc := s.nextRaw_case env g d tol
      rw [show s.nextRaw env g d tol = _ from hdiv] at hc
      generalize hr : (RawNext.diverge s' : RawNext ℝ (ncols b p)) = r at hc
      cases hc <;> simp only [reduceCtorEq] at hr
      case diverge v' hsol _ _ _ hm =>
        rw [hv] at hsol
        cases hsol
        exact hscale hm
    · rw [Irls.nextRaw_done hdone]; simp
  · rintro s0 s' w l hi (rfl | hdone) hcand
    · change (0 : ℕ) ≠ options.maxIter
      omega
    · rw [Irls.nextRaw_done hdone] at hcand; simp at hcand

end GLM
