/-
  C91: the iterations of an L1-penalized fit of the Linear family.
-/
import Verif.Lemmas.AdmmLinear
import Verif.Lemmas.Trace
import Verif.Props.ExistenceL1
import Verif.Props.Selection

namespace GLM
open Spec Matrix
variable {n p : ℕ} {b : Bool} {env : Env ℝ} {raw : Dataset ℝ n p false} {std : Bool}
  {d : Dataset ℝ n p b} {options : FitOptions ℝ (ncols b p)}

section
variable {γ : Vec ℝ (ncols b p)}

/-- The iterator follows the trajectory from `γ`. -/
structure Follows (eps : ℝ) (raw : Dataset ℝ n p false) (d : Dataset ℝ n p b)
    (options : FitOptions ℝ (ncols b p)) (γ : Vec ℝ (ncols b p)) (s : Irls ℝ (ncols b p)) : Prop where
  at_traj : AtTraj eps d options γ s.nIter s
  guesses : s.history.map IrlsStep.guess
    = (List.range s.nIter).map fun i => trajX eps d options γ (i + 1)
  going : s.done = false → ∀ t < s.nIter, ¬ TrajSettled eps raw d options γ t
  finished : s.done = true → ∃ T, s.nIter = T + 1 ∧ TrajSettled eps raw d options γ T ∧
    (∀ t < T, ¬ TrajSettled eps raw d options γ t) ∧
    trajX eps d options γ (T + 1) ≠ trajX eps d options γ T

variable (he : env.Exact) (hd : raw.finalize std b = some d) (hl1 : 0 < options.l1)
  (hw : ∀ i, 0 ≤ totalWt d i)

include hl1 in
theorem follows_new :
    Follows env.eps raw d options γ (Irls.new linG d γ options) where
  at_traj := ⟨rfl, getReg_regL1 hl1⟩
  guesses := rfl
  going _ t ht := absurd ht (Nat.not_lt_zero t)
  finished h := absurd h (by simp [Irls.new])

variable {s s' : Irls ℝ (ncols b p)}

include he hd hl1 hw in
theorem Follows.cand (hi : Irls.Inv linG d options γ s) (h : Follows env.eps raw d options γ s)
    {v : Vec ℝ (ncols b p)} {l : ℝ} (hn : s.nextRaw env linG d options.tol = .cand s' v l) :
    s.done = false ∧ s'.history = s.history ∧ v = trajX env.eps d options γ (s.nIter + 1) ∧
      ¬ (TrajSettled env.eps raw d options γ s.nIter ∧
        trajX env.eps d options γ (s.nIter + 1) = trajX env.eps d options γ s.nIter) ∧
      Follows env.eps raw d options γ (s'.candState v l) := by
  have hdone : s.done = false := by
    by_contra hh
    rw [Irls.nextRaw_done (by simpa using hh)] at hn
    exact absurd hn (by simp)
  rcases h.at_traj.next he hd hl1 hw hdone hi.last with ⟨-, -, h1⟩ | ⟨h1, c, h2, h3⟩
  · rw [h1] at hn; exact absurd hn (by simp)
  rw [h3, RawNext.cand.injEq] at hn
  obtain ⟨rfl, rfl, rfl⟩ := hn
  refine ⟨hdone, rfl, rfl, h1, ⟨rfl, h.at_traj.prep⟩, ?_, ?_, ?_⟩
  · change (s.history ++ [_]).map IrlsStep.guess = (List.range (s.nIter + 1)).map _
    rw [List.map_append, h.guesses, List.range_succ, List.map_append]
    rfl
  · intro hc t ht
    rcases Nat.lt_succ_iff_lt_or_eq.mp ht with ht | rfl
    · exact h.going hdone t ht
    · intro hh
      have : c = true := h2.mpr hh
      rw [show c = false from hc] at this
      exact absurd this (by simp)
  · intro hc
    have h4 := h2.mp hc
    exact ⟨s.nIter, rfl, h4, h.going hdone, fun hh => h1 ⟨h4, hh⟩⟩

include he hd hl1 hw in
theorem Follows.stop (hi : Irls.Inv linG d options γ s) (h : Follows env.eps raw d options γ s)
    (hn : s.nextRaw env linG d options.tol = .stop s') :
    ∃ T, TrajSettled env.eps raw d options γ T ∧
      (∀ t < T, ¬ TrajSettled env.eps raw d options γ t) ∧
      s.nIter = stepsAt (trajX env.eps d options γ) T := by
  cases hdone : s.done
  · rcases h.at_traj.next he hd hl1 hw hdone hi.last with ⟨h1, h2, -⟩ | ⟨-, c, -, h3⟩
    · exact ⟨s.nIter, h1, h.going hdone, by rw [stepsAt, if_pos h2]⟩
    · rw [h3] at hn; exact absurd hn (by simp)
  · obtain ⟨T, h1, h2, h3, h4⟩ := h.finished hdone
    exact ⟨T, h2, h3, by rw [stepsAt, if_neg h4, h1]⟩

end

/-- Two first iterations at which the rule holds are the same. -/
theorem Spec.FirstSettled.unique {k N : ℕ} {ℓ : (Fin k → ℝ) → ℝ} {tol : ℝ} {x z y : ℕ → Fin k → ℝ}
    {ρ : ℕ → ℝ} {T T' : ℕ} (h : FirstSettled ℓ N tol x z y ρ T)
    (h' : FirstSettled ℓ N tol x z y ρ T') : T = T' := by
  rcases lt_trichotomy T T' with hlt | heq | hgt
  · exact absurd h.1 (h'.2 T hlt)
  · exact heq
  · exact absurd h'.1 (h.2 T' hgt)

section run
variable (he : env.Exact) (hd : raw.finalize std b = some d) (hl1 : 0 < options.l1)
  (hw : ∀ i, 0 ≤ totalWt raw i)
include he hd hl1 hw

/-- C91: from every start there is exactly one run of ADMM with residual balancing for the
penalized log-likelihood (as a function of the standardized coefficients). -/
theorem C91_exists_unique (γ : Vec ℝ (ncols b p)) :
    ∃! r : (ℕ → Vec ℝ (ncols b p)) × (ℕ → Vec ℝ (ncols b p)) × (ℕ → Vec ℝ (ncols b p)) × (ℕ → ℝ),
      r.1 0 = γ ∧ AdmmRun (smoothLik Family.linear.glm raw d options.l2) (moveCost env.eps raw d)
        (l1Vec b p options.l1) r.1 r.2.1 r.2.2.1 r.2.2.2 := by
  have hw' : ∀ i, 0 ≤ totalWt d i := fun i => by rw [Dataset.finalize_totalWt hd]; exact hw i
  refine ⟨(trajX env.eps d options γ, trajZ env.eps d options γ, trajY env.eps d options γ,
    trajR env.eps d options γ), ⟨rfl, traj_run hd hl1 he.eps_nonneg hw' γ⟩, ?_⟩
  rintro ⟨x, z, y, ρ⟩ ⟨h0, h⟩
  obtain ⟨h1, h2, h3, h4⟩ := run_unique hd hl1 he.eps_nonneg hw' γ h h0
  dsimp only at h1 h2 h3 h4
  rw [h1, h2, h3, h4]

/-- C91: an L1-penalized fit of the Linear family performs that run from its starting point.  It
succeeds exactly if the stopping rule holds within the budget of iterations, with the coefficients of
the run up to there as its history; otherwise the error reports the run up to the budget (on the
standardized scale). -/
theorem C91_run {x z y : ℕ → Vec ℝ (ncols b p)} {ρ : ℕ → ℝ}
    (h : AdmmRun (smoothLik Family.linear.glm raw d options.l2) (moveCost env.eps raw d) (l1Vec b p options.l1) x z y ρ)
    (h0 : x 0 = initialGuess env Family.linear.glm d options) :
    (∀ T, FirstSettled (smoothLik Family.linear.glm raw d options.l2) n options.tol x z y ρ T →
      stepsAt x T ≤ options.maxIter →
      ∃ f, regression env Family.linear.glm d options = .ok f ∧ f.nIter = stepsAt x T ∧
        f.history.map IrlsStep.guess
          = (List.range f.nIter).map fun i => d.inverseTransformBeta (x (i + 1))) ∧
    ((∀ T, FirstSettled (smoothLik Family.linear.glm raw d options.l2) n options.tol x z y ρ T →
      options.maxIter < stepsAt x T) →
      ∃ hist, regression env Family.linear.glm d options = .err (.maxIter options.maxIter hist) ∧
        hist.map IrlsStep.guess = (List.range (options.maxIter + 1)).map fun i => x (i + 1)) := by
  have hw' : ∀ i, 0 ≤ totalWt d i := fun i => by rw [Dataset.finalize_totalWt hd]; exact hw i
  obtain ⟨rfl, rfl, rfl, rfl⟩ := run_unique hd hl1 he.eps_nonneg hw' _ h h0
  clear h0 h
  set γ := initialGuess env Family.linear.glm d options with hγ
  have hP0 : Follows env.eps raw d options γ (Irls.new linG d γ options) := follows_new hl1
  have hPs : ∀ s s' v l, Irls.Inv linG d options γ s → Follows env.eps raw d options γ s →
      s.nextRaw env linG d options.tol = .cand s' v l →
      Follows env.eps raw d options γ (s'.candState v l) := fun s s' v l hi hs hn =>
    (hs.cand he hd hl1 hw' hi hn).2.2.2.2
  obtain ⟨i1, i2, i3, i4, i5⟩ := fitLoop_inv hPs _ none Irls.Inv.new hP0
  have hok : ∀ f, regression env linG d options = .ok f →
      ∃ T, FirstSettled (smoothLik Family.linear.glm raw d options.l2) n options.tol (trajX env.eps d options γ)
        (trajZ env.eps d options γ) (trajY env.eps d options γ) (trajR env.eps d options γ) T ∧
        stepsAt (trajX env.eps d options γ) T ≤ options.maxIter ∧
        f.nIter = stepsAt (trajX env.eps d options γ) T ∧
        f.history.map IrlsStep.guess = (List.range f.nIter).map
          fun i => d.inverseTransformBeta (trajX env.eps d options γ (i + 1)) := by
    intro f hf
    obtain ⟨best, s1, hl, rfl⟩ := regression_ok hf
    obtain ⟨-, hm, -⟩ := fitLoop_ok Irls.Inv.new (Nat.zero_le _) hl
    obtain ⟨s0, hi, hp, hn⟩ := i1 best s1 hl
    have hfr := s0.nextRaw_frame env linG d options.tol
    rw [hn] at hfr
    obtain ⟨T, h1, h2, h3⟩ := hp.stop he hd hl1 hw' hi hn
    refine ⟨T, ⟨h1, h2⟩, by rw [← h3, ← hfr.nIter]; exact hm, ?_, ?_⟩
    · rw [← h3, ← hfr.nIter]; rfl
    · change (s1.history.map _).map IrlsStep.guess = (List.range s1.nIter).map _
      rw [hfr.history, hfr.nIter, List.map_map]
      have := congrArg (List.map d.inverseTransformBeta) hp.guesses
      rw [List.map_map, List.map_map] at this
      exact this
  have herr : ∀ m hist, regression env linG d options = .err (.maxIter m hist) →
      m = options.maxIter ∧
      (∀ T, FirstSettled (smoothLik Family.linear.glm raw d options.l2) n options.tol (trajX env.eps d options γ)
        (trajZ env.eps d options γ) (trajY env.eps d options γ) (trajR env.eps d options γ) T →
        options.maxIter < stepsAt (trajX env.eps d options γ) T) ∧
      hist.map IrlsStep.guess = (List.range (options.maxIter + 1)).map
        fun i => trajX env.eps d options γ (i + 1) := by
    intro m hist hf
    have hl : fitLoop env linG d options (Irls.new linG d γ options) none
        = .err (.maxIter m hist) := by
      rw [regression_eq] at hf
      split at hf <;> simp_all
    obtain ⟨rfl, hlen, -⟩ := fitLoop_maxIter Irls.Inv.new (Nat.zero_le _) hl
    obtain ⟨s0, s', v, l, hi, hp, hn, hh⟩ := i2 _ hist hl
    obtain ⟨h1, h2, h3, h4, h5⟩ := hp.cand he hd hl1 hw' hi hn
    have hnI : s0.nIter = options.maxIter := by
      rw [hh, h2, List.length_append, List.length_singleton, ← hi.nIter] at hlen
      omega
    refine ⟨rfl, fun T hT => ?_, ?_⟩
    · rw [← hnI]
      have hle : s0.nIter ≤ T := not_lt.mp fun hlt => hp.going h1 T hlt hT.1
      unfold stepsAt
      split
      · rename_i heq
        rcases hle.lt_or_eq with h6 | h6
        · exact h6
        · subst h6; exact absurd ⟨hT.1, heq⟩ h4
      · omega
    · rw [hh, h2, List.map_append, hp.guesses, hnI, List.range_succ, List.map_append, List.map_singleton,
        List.map_singleton]
      congr 2
      rw [← hnI]
      exact h3
  have htot : (∃ f, regression env linG d options = .ok f) ∨
      ∃ m hist, regression env linG d options = .err (.maxIter m hist) := by
    rw [regression_eq]
    split
    · exact Or.inl ⟨_, rfl⟩
    · rename_i e hr
      cases e with
      | linalg =>
        exfalso
        obtain ⟨s0, s', hi, hp, hn⟩ := i3 hr
        cases hdone : s0.done
        · rcases hp.at_traj.next he hd hl1 hw' hdone hi.last with ⟨-, -, h1⟩ | ⟨-, c, -, h1⟩ <;>
            rw [h1] at hn <;> exact absurd hn (by simp)
        · rw [Irls.nextRaw_done hdone] at hn; exact absurd hn (by simp)
      | maxIter m hist => exact Or.inr ⟨m, hist, rfl⟩
    · rename_i hr; exact absurd hr i5
    · rename_i hr
      exfalso
      obtain ⟨s0, s', hi, hp, hn⟩ := i4 hr
      cases hdone : s0.done
      · rcases hp.at_traj.next he hd hl1 hw' hdone hi.last with ⟨-, -, h1⟩ | ⟨-, c, -, h1⟩ <;>
          rw [h1] at hn <;> exact absurd hn (by simp)
      · rw [Irls.nextRaw_done hdone] at hn; exact absurd hn (by simp)
  constructor
  · intro T hT hle
    rcases htot with ⟨f, hf⟩ | ⟨m, hist, hf⟩
    · obtain ⟨T', hT', -, h2, h3⟩ := hok f hf
      rw [hT.unique hT']
      exact ⟨f, hf, h2, h3⟩
    · exact absurd hle (not_le.mpr ((herr m hist hf).2.1 T hT))
  · intro hno
    rcases htot with ⟨f, hf⟩ | ⟨m, hist, hf⟩
    · obtain ⟨T, hT, h1, -⟩ := hok f hf
      exact absurd h1 (not_le.mpr (hno T hT))
    · obtain ⟨rfl, -, h3⟩ := herr m hist hf
      exact ⟨hist, hf, h3⟩

omit he hl1 hw in
/-- The curvature is positive definite when the coefficients are identified. -/
theorem curvInt_identified (hw : ∀ i, 0 ≤ totalWt raw i) {l2 : ℝ}
    (hid : IsUnit (gram raw b).det ∨ (0 < l2 ∧ (b = true → ∃ i, 0 < totalWt raw i))) :
    ∃ C, ∀ v, sqn v ≤ C * (v ⬝ᵥ (curvInt d l2 *ᵥ v)) := by
  have hg : LawfulAdj linG := Family.lawfulAdj .linear
  have hw' : ∀ i, 0 ≤ totalWt d i := fun i => by rw [Dataset.finalize_totalWt hd]; exact hw i
  have hu : IsUnit (curvInt d l2).det := by
    have h1 := (newtonMat_det (eps := 0) hd hg l2 0).mp (by
      rw [newtonMat, lin_fisher, zero_smul, add_zero]
      exact isUnit_of_pos fun x hx => ridgeCurv_pos hw (Dataset.scale_pos hd) hid hx)
    rwa [lhsInt_lin, zero_smul, add_zero] at h1
  choose c hc0 hc using fun j => sq_le_quad (G := curvInt d l2)
    (gramInt_symm.add (isSymm_diagonal _)) (curvInt_nonneg hw' l2) hu j
  refine ⟨∑ j, c j, fun v => ?_⟩
  rw [Finset.sum_mul]
  refine (le_of_eq ?_).trans (Finset.sum_le_sum fun j _ => hc j v)
  unfold sqn dotProduct
  exact Finset.sum_congr rfl fun j _ => (sq (v j)).symm

omit he in
/-- There are optimal coefficients and multipliers. -/
theorem kkt_int : ∃ xs ys : Vec ℝ (ncols b p), curvInt d options.l2 *ᵥ xs + ys = grad0 d ∧
    ∀ j, IsSubgrad (l1Vec b p options.l1 j) (xs j) (ys j) := by
  have hev : Everywhere .linear raw := ⟨trivial, trivial, rfl, fun _ => trivial, hw⟩
  have hσ := Dataset.scale_pos hd
  have hwf := Dataset.finalize_wf hd
  obtain ⟨β, hβ⟩ := penLogLik_exists_max_l1 (b := b) (l2 := options.l2) hev hl1 hσ (by
    rintro ⟨δ, h1, h2, ⟨i, hi, hm⟩, -⟩
    rcases hm.lt_or_gt with hm | hm
    · exact h2 i hi hm
    · exact h1 i hi hm)
  obtain ⟨u, hu, hk⟩ := kkt_of_max hev.valid hσ (hev.adm β) fun β' _ => hβ β'
  rw [max_eq_left hl1.le] at hu
  set γ := d.transformBeta β with hγ
  let c : Fin p → ℝ := fun j => u j / scale d j
  have hc : ∀ j, IsSubgrad options.l1 (slopes b γ j) (c j) := by
    intro j
    have hj := hσ j
    refine ⟨?_, ?_⟩
    · rw [abs_div, abs_of_pos hj, div_le_iff₀ hj]; exact (hu j).1
    · rw [hγ, Dataset.slopes_transformBeta, abs_mul, abs_of_pos hj, div_mul_eq_mul_div,
        mul_comm (scale d j), ← mul_assoc, (hu j).2]
      field_simp
  have hs : d.scoreInt linG γ = onSlopes b fun j => c j + max options.l2 0 * slopes b γ j := by
    have hT : IsUnit d.tmatᵀ.det := by
      rw [det_transpose]; exact isUnit_iff_ne_zero.mpr hwf.det_tmat
    have h1 := Dataset.finalize_score (Family.lawfulAdj .linear) hd β
    rw [hk] at h1
    have h2 : d.tmatᵀ *ᵥ (onSlopes b fun j => c j + max options.l2 0 * slopes b γ j)
        = onSlopes b fun j => u j + max options.l2 0 * (scale d j ^ 2 * slopes b β j) := by
      rw [Dataset.tmat_transpose_onSlopes]
      congr 1
      funext j
      have := (hσ j).ne'
      simp only [c]
      rw [hγ, Dataset.slopes_transformBeta]
      field_simp
    have := congrArg (fun z => (d.tmatᵀ)⁻¹ *ᵥ z) (h1.trans h2.symm)
    simpa only [mulVec_mulVec, nonsing_inv_mul _ hT, one_mulVec] using this
  refine ⟨γ, onSlopes b c, ?_, fun j => ?_⟩
  · rw [score_eq, sub_eq_iff_eq_add] at hs
    rw [hs, curvInt, Matrix.add_mulVec, diag_mul]
    funext j
    simp only [Pi.add_apply]
    rw [← onSlopes_add]
    ring
  · unfold l1Vec
    cases b
    · exact hc j
    · refine Fin.cases ?_ (fun j => ?_) (j : Fin (p + 1))
      · simp [onSlopes, IsSubgrad]
      · simpa [onSlopes, slopes] using hc j

/-- If the run comes arbitrarily close to rest, then the fit succeeds once the budget of iterations is
large enough. -/
theorem succeeds_of_near (htol : 0 < options.tol) (hn : 0 < n) (hk : 0 < ncols b p)
    {x z y : ℕ → Vec ℝ (ncols b p)} {ρ : ℕ → ℝ}
    (h : AdmmRun (smoothLik Family.linear.glm raw d options.l2) (moveCost env.eps raw d) (l1Vec b p options.l1) x z y ρ)
    (h0 : x 0 = initialGuess env Family.linear.glm d options)
    (hnear : ∀ ε, 0 < ε → ∃ t, Near (curvInt d options.l2) (grad0 d) x z y ρ ε t) :
    ∃ M, ∀ m, M ≤ m →
      ∃ f, regression env Family.linear.glm d { options with maxIter := m } = .ok f := by
  have hw' : ∀ i, 0 ≤ totalWt d i := fun i => by rw [Dataset.finalize_totalWt hd]; exact hw i
  obtain ⟨hx, hz, hy, hr⟩ := run_unique hd hl1 he.eps_nonneg hw' _ h h0
  set ε : ℝ := min (√(ncols b p : ℕ) * options.tol) (min (options.tol * n)
    ((ncols b p : ℕ) * options.tol ^ 2)) with hε
  have hk' : (0 : ℝ) < (ncols b p : ℕ) := Nat.cast_pos.mpr hk
  have hε0 : 0 < ε := lt_min (mul_pos (Real.sqrt_pos.mpr hk') htol)
    (lt_min (mul_pos htol (Nat.cast_pos.mpr hn)) (mul_pos hk' (pow_pos htol 2)))
  have hset : ∃ t, Settled (smoothLik Family.linear.glm raw d options.l2) n options.tol x z y ρ t := by
    obtain ⟨t, n1, n2, n3, n4⟩ := hnear ε hε0
    have hasc := traj_ascent (raw := raw) hd hl1 hw' he.eps_nonneg
      (initialGuess env Family.linear.glm d options) t
    rw [← hx, ← hz, ← hy, ← hr] at hasc
    have hadd := lagrangian_add hd options.l2 (ρ t) (z (t + 1)) (y (t + 1)) (x t) (x (t + 1) - x t)
    rw [add_sub_cancel] at hadd
    have hρt : 0 < ρ t := by rw [hr]; exact trajR_pos _ hl1 t
    refine ⟨t, ?_, ?_, ?_, ?_⟩
    · rw [sum_sq_sqn]; exact n1.trans_le (min_le_left _ _)
    · rw [sum_sq_smul]; exact n2.trans_le (min_le_left _ _)
    · have e1 := mul_nonneg (half_pos hρt).le (sqn_nonneg (x t - x (t + 1)))
      have e2 := mul_nonneg (half_pos hρt).le (sqn_nonneg (x (t + 1) - x t))
      have e3 := curvInt_nonneg hw' options.l2 (x (t + 1) - x t)
      have e4 : ε ≤ options.tol * n := (min_le_right _ _).trans (min_le_left _ _)
      rw [abs_of_nonneg (by linarith)]
      linarith
    · rw [sum_sq_sqn]
      refine n3.le.trans (((min_le_right _ _).trans (min_le_right _ _)).trans ?_)
      exact mul_le_mul_of_nonneg_right (le_add_of_nonneg_right
        (Finset.sum_nonneg fun j _ => sq_nonneg _)) (sq_nonneg _)
  classical
  refine ⟨stepsAt x (Nat.find hset), fun m hm => ?_⟩
  obtain ⟨h1, -⟩ := C91_run (options := { options with maxIter := m }) he hd hl1 hw h h0
  obtain ⟨f, hf, -⟩ := h1 (Nat.find hset) ⟨Nat.find_spec hset, fun t ht => Nat.find_min hset ht⟩ hm
  exact ⟨f, hf⟩

/-- C91: if the penalty parameter of the run is eventually only raised, or the coefficients are
identified and it is eventually only lowered, then the fit succeeds, whatever its tolerance, once the
budget of iterations is large enough. -/
theorem C91_converges (htol : 0 < options.tol) (hn : 0 < n) (hk : 0 < ncols b p)
    {x z y : ℕ → Vec ℝ (ncols b p)} {ρ : ℕ → ℝ}
    (h : AdmmRun (smoothLik Family.linear.glm raw d options.l2) (moveCost env.eps raw d) (l1Vec b p options.l1) x z y ρ)
    (h0 : x 0 = initialGuess env Family.linear.glm d options)
    (hρ : (∃ T, ∀ t, T ≤ t → ρ t ≤ ρ (t + 1)) ∨
      ((IsUnit (gram raw b).det ∨ (0 < options.l2 ∧ (b = true → ∃ i, 0 < totalWt raw i))) ∧
        ∃ T, ∀ t, T ≤ t → ρ (t + 1) ≤ ρ t)) :
    ∃ M, ∀ m, M ≤ m →
      ∃ f, regression env Family.linear.glm d { options with maxIter := m } = .ok f := by
  have hw' : ∀ i, 0 ≤ totalWt d i := fun i => by rw [Dataset.finalize_totalWt hd]; exact hw i
  obtain ⟨hx, hz, hy, hr⟩ := run_unique hd hl1 he.eps_nonneg hw' _ h h0
  have hseq := traj_seq (d := d) (initialGuess env Family.linear.glm d options) hl1 he.eps_nonneg hw'
  obtain ⟨xs, ys, hopt, hsub⟩ := kkt_int (options := options) hd hl1 hw
  refine succeeds_of_near he hd hl1 hw htol hn hk h h0 fun ε hε0 => ?_
  rw [hx, hz, hy, hr]
  rcases hρ with ⟨T, hT⟩ | ⟨hid, T, hT⟩
  · rw [hr] at hT
    exact hseq.settles_up hopt hsub hT hε0
  · rw [hr] at hT
    obtain ⟨C, hC⟩ := curvInt_identified hd hw hid
    exact hseq.settles_down hopt hsub hC (gramInt_le options.l2) hT hε0

omit he hd hl1 hw in
/-- C91: a model without any column (no feature, no intercept) cannot be fitted with an L1 penalty,
whatever the family: the residuals, which are zero, are never smaller than zero. -/
theorem C91_no_columns {g : Glm ℝ} (hl1 : 0 < options.l1) (hk : ncols b p = 0) (f : Fit ℝ n p b) :
    regression env g d options ≠ .ok f := by
  intro hf
  have hterm : ∀ s : Irls ℝ (ncols b p), (∃ st, RegL1 options s.reg st) →
      (s.reg.prepare s.guess).terminateOk options.tol = false := by
    rintro s ⟨st, hr⟩
    rw [(hr.prepare s.guess).terminateOk]
    rw [← Bool.not_eq_true]
    intro hh
    unfold Admm.terminateOk at hh
    simp only [Admm.prepare, Bool.and_eq_true, lt_real, sqrt_real, ofNat_real, vsum_real] at hh
    have : IsEmpty (Fin (ncols b p)) := by rw [hk]; infer_instance
    have h1 := hh.1
    rw [Finset.univ_eq_empty, Finset.sum_empty, show ((ncols b p : ℕ) : ℝ) = 0 by rw [hk]; simp] at h1
    simp at h1
  obtain ⟨s0, s', hi, ⟨h1, h2⟩, h3, -⟩ := regression_inv hf
    (P := fun s => s.done = false ∧ ∃ st, RegL1 options s.reg st) ⟨rfl, _, getReg_regL1 hl1⟩
    (by
      rintro s s' v l - ⟨h1, st, h2⟩ hn
      have hc := Irls.nextRaw_case env g d options.tol s
      rw [hn] at hc
      cases hc with
      | admm _ v h3 h4 => exact ⟨h1, _, h2.prepare s.guess⟩
      | full _ v _ h4 => rw [hterm s ⟨st, h2⟩] at h4; exact absurd h4 (by simp)
      | scaled _ v _ h4 => rw [hterm s ⟨st, h2⟩] at h4; exact absurd h4 (by simp))
  have hc := Irls.nextRaw_case env g d options.tol s0
  rw [h3] at hc
  cases hc with
  | done h => rw [h1] at h; exact absurd h (by simp)
  | equal _ v _ h4 | zero _ v _ h4 => rw [hterm s0 h2] at h4; exact absurd h4 (by simp)

end run

/-- A penalized minimizer that is zero. -/
theorem zero_of_subgrad {lam z y : ℝ} {r : ℝ} (hr : 0 < r) (h : IsSubgrad lam z (y - r * z))
    (hy : |y| ≤ lam) : z = 0 := by
  have h1 := h.2
  have h2 : y * z ≤ lam * |z| := by
    calc y * z ≤ |y * z| := le_abs_self _
      _ = |y| * |z| := abs_mul _ _
      _ ≤ _ := mul_le_mul_of_nonneg_right hy (abs_nonneg _)
  have h3 : r * z ^ 2 ≤ 0 := by nlinarith
  have h4 : z ^ 2 ≤ 0 := by
    by_contra hc
    push Not at hc
    have := mul_pos hr hc
    linarith
  exact pow_eq_zero_iff (two_ne_zero) |>.mp (le_antisymm h4 (sq_nonneg z))

/-- While the split variable stays zero, the multipliers stay near the gradient. -/
theorem AdmmSeq.null_step {k : ℕ} {G H : Matrix (Fin k) (Fin k) ℝ} {e : ℝ} {c lam : Fin k → ℝ}
    {x z y : ℕ → Fin k → ℝ} {ρ : ℕ → ℝ} (h : AdmmSeq G H e c lam x z y ρ)
    (hGH : ∀ v, v ⬝ᵥ (G *ᵥ v) ≤ v ⬝ᵥ (H *ᵥ v)) (he2 : e ≤ 2) {t : ℕ} (hz : z t = 0)
    (hz' : z (t + 1) = 0) {K : ℝ}
    (hK : sqn (c - y (t + 1)) + 2 * ρ t * e * (x t ⬝ᵥ (G *ᵥ x t)) ≤ K) :
    ρ t ≤ ρ (t + 1) ∧ sqn (c - (y (t + 1) + ρ (t + 1) • x (t + 1)))
      + 2 * ρ (t + 1) * e * (x (t + 1) ⬝ᵥ (G *ᵥ x (t + 1))) ≤ K := by
  have hρ := h.rho_pos t
  set x' := x (t + 1) with hx'
  have hD : c - y (t + 1) = H *ᵥ x' + e • (G *ᵥ (x' - x t)) + ρ t • x' := by
    rw [← h.step t, hz', sub_zero]; abel
  set D := c - y (t + 1) with hDdef
  have e1 : x' ⬝ᵥ D = x' ⬝ᵥ (H *ᵥ x') + e * (x' ⬝ᵥ (G *ᵥ x') - x' ⬝ᵥ (G *ᵥ x t)) + ρ t * sqn x' := by
    rw [hD]
    simp only [dotProduct_add, dotProduct_smul, smul_eq_mul, mulVec_sub, dotProduct_sub, sqn]
  have e2 : ∀ r : ℝ, sqn (c - (y (t + 1) + r • x')) = sqn D - 2 * r * (x' ⬝ᵥ D) + r ^ 2 * sqn x' := by
    intro r
    rw [← sub_sub, ← hDdef]
    unfold sqn
    simp only [sub_dotProduct, dotProduct_sub, smul_dotProduct, dotProduct_smul, smul_eq_mul]
    rw [dotProduct_comm D x']
    ring
  have e3 : 0 ≤ x' ⬝ᵥ (G *ᵥ x') - 2 * (x' ⬝ᵥ (G *ᵥ x t)) + x t ⬝ᵥ (G *ᵥ x t) := by
    have := h.gpos (x' - x t)
    simp only [mulVec_sub, dotProduct_sub, sub_dotProduct] at this
    rw [dot_mulVec_comm h.gsymm (x t) x'] at this
    linarith
  have e4 := hGH x'
  have e5 := h.gpos x'
  have e0 := h.e_nonneg
  have hb := h.balance t
  rw [hz, hz', sub_zero, sub_zero, show sqn (0 : Fin k → ℝ) = 0 by simp [sqn], mul_zero, mul_zero] at hb
  by_cases hx0 : 0 < sqn (x t)
  · rw [if_pos hx0] at hb
    refine ⟨by rw [hb]; linarith, ?_⟩
    rw [e2, e1, hb]
    have f1 := mul_nonneg (mul_nonneg hρ.le e0) e3
    have f2 := mul_nonneg hρ.le (mul_nonneg (sub_nonneg.mpr he2) e5)
    have f3 := mul_nonneg hρ.le (sub_nonneg.mpr e4)
    nlinarith
  · rw [if_neg hx0, if_neg (by push Not at hx0 ⊢; linarith [sqn_nonneg (x t)])] at hb
    have hxt : x t = 0 := sqn_eq_zero (not_lt.mp hx0)
    refine ⟨hb.ge, ?_⟩
    rw [e2, e1, hb, hxt, mulVec_zero, dotProduct_zero]
    rw [hxt, mulVec_zero, dotProduct_zero] at hK
    have f1 := mul_nonneg hρ.le (e5.trans e4)
    have f2 := mul_nonneg (sq_nonneg (ρ t)) (sqn_nonneg x')
    nlinarith

/-- C91 (an unconditional case): a model without intercept, fitted from zero, whose L1 strength is
at least twice the norm of the standardized score at zero, is fitted with success once the budget of
iterations is large enough. -/
theorem C91_null {d : Dataset ℝ n p false} {options : FitOptions ℝ (ncols false p)} (he : env.Exact)
    (he2 : env.eps ≤ 2) (hd : raw.finalize std false = some d) (hl1 : 0 < options.l1)
    (hw : ∀ i, 0 ≤ totalWt raw i) (htol : 0 < options.tol) (hn : 0 < n) (hp : 0 < p)
    (hinit : options.initGuess = some 0)
    (hs : 4 * ∑ j : Fin p, (scoreVec Family.linear.glm raw false 0 j / scale d j) ^ 2
      ≤ options.l1 ^ 2) :
    ∃ M, ∀ m, M ≤ m →
      ∃ f, regression env Family.linear.glm d { options with maxIter := m } = .ok f := by
  have hw' : ∀ i, 0 ≤ totalWt d i := fun i => by rw [Dataset.finalize_totalWt hd]; exact hw i
  have hstart : initialGuess env Family.linear.glm d options = 0 := by
    unfold initialGuess
    rw [hinit]
    change d.transformBeta 0 = 0
    rw [Dataset.transformBeta_eq, mulVec_zero]
  have hc : 4 * sqn (grad0 d) ≤ options.l1 ^ 2 := by
    refine (le_of_eq ?_).trans hs
    congr 1
    have h1 := Dataset.finalize_score (Family.lawfulAdj .linear) hd 0
    rw [Dataset.transformBeta_eq, mulVec_zero] at h1
    unfold sqn dotProduct
    refine Finset.sum_congr rfl fun j _ => ?_
    have h2 : d.tmatᵀ *ᵥ onSlopes false (grad0 d) = _ := d.tmat_transpose_onSlopes (grad0 d)
    have h3 : scoreVec Family.linear.glm raw false 0 j = scale d j * grad0 d j := by
      rw [← h1]
      exact congrFun h2 j
    have := (Dataset.scale_pos hd j).ne'
    rw [h3]
    field_simp
  have hseq := traj_seq (d := d) (0 : Vec ℝ (ncols false p)) hl1 he.eps_nonneg hw'
  set X := trajX env.eps d options 0 with hX
  set Z := trajZ env.eps d options 0 with hZ
  set Y := trajY env.eps d options 0 with hY
  set R := trajR env.eps d options 0 with hR
  have hrun := traj_run (options := options) hd hl1 he.eps_nonneg hw' 0
  have hz0 : Z 0 = 0 := hrun.z_zero
  have hy0 : Y 0 = 0 := hrun.y_zero
  -- multipliers that stay near the gradient keep the split variable at zero
  have hshrink : ∀ t, sqn (grad0 d - (Y t + R t • X t)) ≤ sqn (grad0 d) → Z (t + 1) = 0 := by
    intro t ht
    have hbound : sqn (Y t + R t • X t) ≤ options.l1 ^ 2 := by
      have := sqn_sub_le (grad0 d) (grad0 d - (Y t + R t • X t))
      rw [sub_sub_cancel] at this
      linarith
    funext j
    have h1 := hseq.sub (t + 1) j
    rw [hseq.dual t] at h1
    refine zero_of_subgrad (lam := l1Vec false p options.l1 j) (y := (Y t + R t • X t) j) (hseq.rho_pos t) ?_ ?_
    · convert h1 using 1
      simp only [Pi.add_apply, Pi.smul_apply, Pi.sub_apply, smul_eq_mul]
      ring
    · change |(Y t + R t • X t) j| ≤ options.l1
      refine abs_le_of_sq_le_sq ?_ hl1.le
      refine le_trans ?_ hbound
      rw [sq]
      exact Finset.single_le_sum (f := fun j => (Y t + R t • X t) j * (Y t + R t • X t) j)
        (fun j _ => mul_self_nonneg _) (Finset.mem_univ j)
  have key : ∀ t, Z t = 0 ∧ Z (t + 1) = 0 ∧
      sqn (grad0 d - Y (t + 1)) + 2 * R t * env.eps * (X t ⬝ᵥ (d.gramInt *ᵥ X t)) ≤ sqn (grad0 d) := by
    intro t
    have hdual := hseq.dual
    induction t with
    | zero =>
      have hx0 : X 0 = 0 := rfl
      have h1 : Z 1 = 0 := hshrink 0 (by rw [hx0, hy0, smul_zero, add_zero, sub_zero])
      refine ⟨hz0, h1, ?_⟩
      rw [hdual, hy0, h1, hx0]
      simp
    | succ t ih =>
      obtain ⟨i1, i2, i3⟩ := ih
      obtain ⟨-, h2⟩ := hseq.null_step (gramInt_le options.l2) he2 i1 i2 i3
      have h3 := mul_nonneg (mul_nonneg (mul_nonneg two_pos.le (hseq.rho_pos (t + 1)).le)
        he.eps_nonneg) (hseq.gpos (X (t + 1)))
      have h4 : Z (t + 2) = 0 := hshrink (t + 1) (by linarith)
      refine ⟨i2, h4, ?_⟩
      rw [hdual (t + 1), h4, sub_zero]
      exact h2
  refine C91_converges he hd hl1 hw htol hn hp hrun (by rw [hstart]; rfl) (Or.inl ⟨0, fun t _ => ?_⟩)
  obtain ⟨i1, i2, i3⟩ := key t
  exact (hseq.null_step (gramInt_le options.l2) he2 i1 i2 i3).1

/-- C91 (an unconditional case): a model with only an intercept, for which the L1 penalty is void,
is fitted with success once the budget of iterations is large enough; from every start. -/
theorem C91_intercept_only {raw : Dataset ℝ n 0 false} {d : Dataset ℝ n 0 true}
    {options : FitOptions ℝ (ncols true 0)} (he : env.Exact) (hd : raw.finalize std true = some d)
    (hl1 : 0 < options.l1) (hw : ∀ i, 0 ≤ totalWt raw i) (hpos : ∃ i, 0 < totalWt raw i)
    (htol : 0 < options.tol) :
    ∃ M, ∀ m, M ≤ m →
      ∃ f, regression env Family.linear.glm d { options with maxIter := m } = .ok f := by
  have hw' : ∀ i, 0 ≤ totalWt d i := fun i => by rw [Dataset.finalize_totalWt hd]; exact hw i
  have hn : 0 < n := by obtain ⟨i, -⟩ := hpos; exact i.pos
  have hseq := traj_seq (d := d) (initialGuess env Family.linear.glm d options) hl1 he.eps_nonneg hw'
  have hrun := traj_run (options := options) hd hl1 he.eps_nonneg hw'
    (initialGuess env Family.linear.glm d options)
  have hy : ∀ t, trajY env.eps d options (initialGuess env Family.linear.glm d options) t = 0 := by
    intro t
    funext j
    have h1 := (hseq.sub t j).1
    have h2 : l1Vec true 0 options.l1 j = 0 := by
      refine Fin.cases rfl (fun j => j.elim0) (j : Fin (0 + 1))
    rw [h2] at h1
    exact abs_eq_zero.mp (le_antisymm h1 (abs_nonneg _))
  refine C91_converges he hd hl1 hw htol hn Nat.one_pos hrun rfl
    (Or.inr ⟨Or.inl ?_, 0, fun t _ => ?_⟩)
  · have h1 : (gram raw true).det = gram raw true (0 : Fin 1) (0 : Fin 1) := det_fin_one (gram raw true)
    rw [h1, isUnit_iff_ne_zero]
    have h2 : gram raw true (0 : Fin 1) (0 : Fin 1) = ∑ i, totalWt raw i :=
      Finset.sum_congr rfl fun i _ => by
        change totalWt raw i * 1 * 1 = _
        ring
    rw [h2]
    obtain ⟨i, hi⟩ := hpos
    exact (Finset.sum_pos' (fun i _ => hw i) ⟨i, Finset.mem_univ i, hi⟩).ne'
  · have h1 := hseq.dual t
    rw [hy, hy, zero_add, eq_comm, smul_eq_zero] at h1
    have h2 := h1.resolve_left (hseq.rho_pos t).ne'
    have h3 := hseq.balance t
    have h4 := mul_nonneg (sq_nonneg (trajR env.eps d options
      (initialGuess env Family.linear.glm d options) t)) (sqn_nonneg (trajZ env.eps d options
      (initialGuess env Family.linear.glm d options) (t + 1) - trajZ env.eps d options
      (initialGuess env Family.linear.glm d options) t))
    rw [h2, show sqn (0 : Vec ℝ (ncols true 0)) = 0 by simp [sqn], if_neg (by linarith)] at h3
    rw [h3]
    have h5 := hseq.rho_pos t
    split <;> linarith

/-! ### The hypotheses are met -/

/-- The linear regression of `y = (0, 1, 1)` on `x = (0, 1, 2)` without intercept, with `l1 = 10`; the
score at zero is 4. -/
theorem exNull_fits : ∃ M, ∀ m, M ≤ m → ∃ f, regression (exactEnv (1 / 1000) 7) Family.linear.glm
    (exRaw ![0, 1, 1]) (exOpts 10 0 (some 0) m) = .ok f := by
  refine C91_null (raw := exRaw ![0, 1, 1]) (std := false) (options := exOpts 10 0 (some 0) 0)
    (exactEnv_exact (by norm_num : (0 : ℝ) ≤ 1 / 1000) 7) (by norm_num [exactEnv]) rfl
    (by norm_num [exOpts]) (fun i => (exRaw_totalWt_pos _ i).le) (by norm_num [exOpts]) (by norm_num)
    (by norm_num) rfl ?_
  have hs : scoreVec Family.linear.glm (exRaw ![0, 1, 1]) false 0 = fun _ => 4 := by
    funext j
    have hlin : ∀ i, linPred (exRaw ![0, 1, 1]) false 0 i = 0 := fun i => by
      simp [linPred, exRaw, Spec.offset]
    simp only [scoreVec, meanAt, hlin, exRaw_totalWt, Fin.sum_univ_three]
    simp [funcInv_real, dNatParam_real, design, exRaw]
    norm_num
  have hsc : scale (exRaw ![0, 1, 1]) = fun _ => 1 := rfl
  rw [hs, hsc]
  norm_num [exOpts]

/-- With an intercept and one feature: the run exists, and the fit follows it. -/
example (m : ℕ) (std : Bool) : ∃ d, (exRaw ![0, 1, 1]).finalize std true = some d ∧
    ∃ x z y ρ, AdmmRun (smoothLik Family.linear.glm (exRaw ![0, 1, 1]) d 0)
      (moveCost (1 / 1000) (exRaw ![0, 1, 1]) d) (l1Vec true 1 2) x z y ρ ∧
    ((∃ f, regression (exactEnv (1 / 1000) 7) Family.linear.glm d (exOpts 2 0 none m) = .ok f ∧
        f.history.map IrlsStep.guess
          = (List.range f.nIter).map fun i => d.inverseTransformBeta (x (i + 1))) ∨
      ∃ hist, regression (exactEnv (1 / 1000) 7) Family.linear.glm d (exOpts 2 0 none m)
          = .err (.maxIter m hist) ∧
        hist.map IrlsStep.guess = (List.range (m + 1)).map fun i => x (i + 1)) := by
  obtain ⟨d, hd⟩ := exRaw_finalize ![0, 1, 1] std true
  have he := exactEnv_exact (by norm_num : (0 : ℝ) ≤ 1 / 1000) 7
  have hl : (0 : ℝ) < (exOpts (k := ncols true 1) 2 0 none m).l1 := by norm_num [exOpts]
  have hw := fun i => (exRaw_totalWt_pos ![0, 1, 1] i).le
  obtain ⟨⟨x, z, y, ρ⟩, ⟨h0, hr⟩, -⟩ := C91_exists_unique he hd hl hw
    (initialGuess (exactEnv (1 / 1000) 7) Family.linear.glm d (exOpts 2 0 none m))
  refine ⟨d, hd, x, z, y, ρ, hr, ?_⟩
  obtain ⟨h1, h2⟩ := C91_run he hd hl hw hr h0
  by_cases hT : ∃ T, FirstSettled (smoothLik Family.linear.glm (exRaw ![0, 1, 1]) d
      (exOpts (k := ncols true 1) 2 0 none m).l2) 3 (exOpts (k := ncols true 1) 2 0 none m).tol
      x z y ρ T ∧ stepsAt x T ≤ m
  · obtain ⟨T, hT, hle⟩ := hT
    obtain ⟨f, hf, -, hh⟩ := h1 T hT hle
    exact Or.inl ⟨f, hf, hh⟩
  · push Not at hT
    exact Or.inr (h2 hT)

/-- Two observations and no column. -/
noncomputable def exNoCols : Dataset ℝ 2 0 false where
  y := ![1, 2]
  x := fun _ j => j.elim0
  linearOffset := none
  weights := none
  freqs := none
  standardizer := none

example (m : ℕ) (f : Fit ℝ 2 0 false) : exNoCols.finalize false false = some exNoCols ∧
    regression (exactEnv (1 / 1000) 7) Family.linear.glm exNoCols (exOpts 1 0 none m) ≠ .ok f :=
  ⟨rfl, C91_no_columns (by norm_num [exOpts]) rfl f⟩

/-- The same observations with an intercept. -/
example : ∃ M, ∀ m, M ≤ m → ∃ d f, exNoCols.finalize false true = some d ∧
    regression (exactEnv (1 / 1000) 7) Family.linear.glm d (exOpts 1 0 none m) = .ok f := by
  have hw : ∀ i, totalWt exNoCols i = 1 := fun i => by simp [totalWt, freq, varWt, exNoCols]
  obtain ⟨d, hd⟩ : ∃ d, exNoCols.finalize false true = some d := ⟨_, rfl⟩
  obtain ⟨M, hM⟩ := C91_intercept_only (options := exOpts 1 0 none 0)
    (exactEnv_exact (by norm_num : (0 : ℝ) ≤ 1 / 1000) 7) hd (by norm_num [exOpts])
    (fun i => by rw [hw]; norm_num) ⟨0, by rw [hw]; norm_num⟩ (by norm_num [exOpts])
  refine ⟨M, fun m hm => ?_⟩
  obtain ⟨f, hf⟩ := hM m hm
  exact ⟨d, f, hd, hf⟩

end GLM
