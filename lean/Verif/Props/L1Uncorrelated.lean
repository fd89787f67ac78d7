/-
  C104: L1-penalized fits of uncorrelated features succeed.
-/
import Verif.Lemmas.AdmmOrth
import Verif.Props.AdmmLinear
import Verif.Props.Standardize
import Verif.Props.L1Cycle

namespace GLM
open Spec Matrix
variable {n p : ℕ} {b : Bool} {env : Env ℝ} {raw : Dataset ℝ n p false} {std : Bool}
  {d : Dataset ℝ n p b} {options : FitOptions ℝ (ncols b p)}

/-- The first column that is fitted is the intercept's. -/
theorem finalize_ones {d : Dataset ℝ n p true} (hd : raw.finalize std true = some d) (i : Fin n) :
    d.x i (0 : Fin (p + 1)) = 1 := by
  obtain ⟨-, -, -, -, h⟩ := Dataset.finalize_cases hd
  rcases h with ⟨-, hx, -⟩ | ⟨-, s, hs0, hs1, hx⟩
  · rw [hx]; rfl
  · rw [hx]; rfl

/-- C104: if the columns of the matrix that is fitted are orthogonal (with respect to the weights), an
L1-penalized fit of the Linear family succeeds from every start and at every tolerance, once the budget
of iterations is large enough. -/
theorem C104_orthogonal (he : env.Exact) (heps : env.eps ≤ 1 / 4) (hd : raw.finalize std b = some d)
    (hl1 : 0 < options.l1) (hw : ∀ i, 0 ≤ totalWt raw i) (htol : 0 < options.tol) (hn : 0 < n)
    (hk : 0 < ncols b p)
    (hpos : (∀ j, 0 < ∑ i, totalWt raw i * d.x i j ^ 2) ∨
      (0 < options.l2 ∧ (b = true → ∃ i, 0 < totalWt raw i)))
    (horth : ∀ j k, j ≠ k → ∑ i, totalWt raw i * d.x i j * d.x i k = 0) :
    ∃ M, ∀ m, M ≤ m →
      ∃ f, regression env Family.linear.glm d { options with maxIter := m } = .ok f := by
  have hw' : ∀ i, 0 ≤ totalWt d i := fun i => by rw [Dataset.finalize_totalWt hd]; exact hw i
  set a : Fin (ncols b p) → ℝ := fun j => ∑ i, totalWt raw i * d.x i j ^ 2 with ha
  set s : Fin (ncols b p) → ℝ := onSlopes b fun _ : Fin p => max options.l2 0 with hs
  have hs0 : ∀ j, 0 ≤ s j := by
    intro j
    rw [hs]
    cases b
    · exact le_max_right _ _
    · refine Fin.cases le_rfl (fun j => ?_) (j : Fin (p + 1))
      exact le_max_right _ _
  have ha0 : ∀ j, 0 ≤ a j := fun j =>
    Finset.sum_nonneg fun i _ => mul_nonneg (hw i) (sq_nonneg _)
  have has : ∀ j, 0 < a j + s j := by
    rcases hpos with h | ⟨h2, hi⟩
    · exact fun j => add_pos_of_pos_of_nonneg (h j) (hs0 j)
    · intro j
      rw [hs]
      cases b
      · exact add_pos_of_nonneg_of_pos (ha0 j) (lt_max_of_lt_left h2)
      · refine Fin.cases ?_ (fun j => ?_) (j : Fin (p + 1))
        · obtain ⟨i, hi⟩ := hi rfl
          refine add_pos_of_pos_of_nonneg ?_ le_rfl
          refine Finset.sum_pos' (fun i _ => mul_nonneg (hw i) (sq_nonneg _)) ⟨i, Finset.mem_univ i, ?_⟩
          rw [finalize_ones hd]
          simpa using hi
        · exact add_pos_of_nonneg_of_pos (ha0 _) (lt_max_of_lt_left h2)
  have hG : d.gramInt = diagonal a := by
    ext j k
    by_cases hjk : j = k
    · subst hjk
      rw [diagonal_apply_eq]
      change (∑ i, totalWt d i * d.x i j * d.x i j) = ∑ i, totalWt raw i * d.x i j ^ 2
      exact Finset.sum_congr rfl fun i _ => by rw [Dataset.finalize_totalWt hd]; ring
    · rw [diagonal_apply_ne _ hjk, ← horth j k hjk]
      exact Finset.sum_congr rfl fun i _ => by rw [Dataset.finalize_totalWt hd]
  have hH : curvInt d options.l2 = diagonal fun j => a j + s j := by
    rw [curvInt, hG, diagonal_add]
  have hrun := traj_run (options := options) hd hl1 he.eps_nonneg hw'
    (initialGuess env Family.linear.glm d options)
  have hseq := traj_seq (d := d) (options := options) (initialGuess env Family.linear.glm d options) hl1
    he.eps_nonneg hw'
  refine succeeds_of_near he hd hl1 hw htol hn hk hrun rfl fun ε hε => ?_
  rw [hG, hH] at hseq
  rw [hH]
  exact hseq.settles_diagonal has ha0
    (fun j => le_add_of_nonneg_right (hs0 j)) heps hε

/-- C104: without standardization: no two columns of the design matrix (with the column of ones, if
there is an intercept) have anything in common. -/
theorem C104_plain (he : env.Exact) (heps : env.eps ≤ 1 / 4) (hd : raw.finalize false b = some d)
    (hl1 : 0 < options.l1) (hw : ∀ i, 0 ≤ totalWt raw i) (htol : 0 < options.tol) (hn : 0 < n)
    (hk : 0 < ncols b p)
    (hpos : (∀ j, 0 < gram raw b j j) ∨ (0 < options.l2 ∧ (b = true → ∃ i, 0 < totalWt raw i)))
    (horth : ∀ j k, j ≠ k → gram raw b j k = 0) :
    ∃ M, ∀ m, M ≤ m →
      ∃ f, regression env Family.linear.glm d { options with maxIter := m } = .ok f := by
  have hx : ∀ i j, d.x i j = design b raw.x i j := by
    cases hd
    intro i j
    cases b
    · rfl
    · refine Fin.cases rfl (fun j => rfl) (j : Fin (p + 1))
  refine C104_orthogonal he heps hd hl1 hw htol hn hk (hpos.imp_left fun hpos j => ?_) fun j k hjk => ?_
  · refine (hpos j).trans_eq (Finset.sum_congr rfl fun i _ => ?_)
    rw [hx, sq, mul_assoc]
  · rw [← horth j k hjk]
    exact Finset.sum_congr rfl fun i _ => by rw [hx, hx]

/-- The soft threshold at `l` of `c`, divided by `h`. -/
noncomputable def softRatio (c l h : ℝ) : ℝ :=
  if l < c then (c - l) / h else if c < -l then (c + l) / h else 0

theorem softRatio_best {c l h v : ℝ} (hl : 0 ≤ l) (hh : 0 < h) (hv : v ≠ softRatio c l h) :
    c * v - h * v ^ 2 / 2 - l * |v| < c * softRatio c l h - h * softRatio c l h ^ 2 / 2
      - l * |softRatio c l h| := by
  have hsq : 0 < h * (v - softRatio c l h) ^ 2 := mul_pos hh (by positivity [sub_ne_zero.mpr hv])
  have h1 := mul_le_mul_of_nonneg_left (le_abs_self v) hl
  have h2 := mul_le_mul_of_nonneg_left (neg_abs_le v) hl
  unfold softRatio at hsq ⊢
  split_ifs at hsq ⊢ with g1 g2
  · rw [abs_of_pos (div_pos (sub_pos.mpr g1) hh)]
    have e : h * ((c - l) / h) = c - l := by field_simp
    set s := (c - l) / h
    have e2 : c = h * s + l := by linarith
    rw [e2]
    linarith [show h * (v - s) ^ 2 = h * v ^ 2 - 2 * (h * s * v) + h * s ^ 2 by ring,
      show (h * s + l) * v = h * s * v + l * v by ring, show (h * s + l) * s = h * s ^ 2 + l * s by ring]
  · rw [abs_of_neg (div_neg_of_neg_of_pos (by linarith) hh)]
    have e : h * ((c + l) / h) = c + l := by field_simp
    set s := (c + l) / h
    have e2 : c = h * s - l := by linarith
    rw [e2]
    linarith [show h * (v - s) ^ 2 = h * v ^ 2 - 2 * (h * s * v) + h * s ^ 2 by ring,
      show (h * s - l) * v = h * s * v - l * v by ring, show (h * s - l) * s = h * s ^ 2 - l * s by ring]
  · have h3 : c * v ≤ l * |v| := by
      calc c * v ≤ |c * v| := le_abs_self _
        _ = |c| * |v| := abs_mul _ _
        _ ≤ l * |v| := mul_le_mul_of_nonneg_right (abs_le.mpr ⟨not_lt.mp g2, not_lt.mp g1⟩) (abs_nonneg v)
    rw [sub_zero] at hsq
    rw [abs_zero]
    linarith

/-- C104: these fits have a closed form to compare with.  Each coefficient of the only maximizer of
the penalized log-likelihood is the covariance of its column with the responses, moved towards zero by
the L1 strength, divided by the sum of the squares of the column plus the L2 strength. -/
theorem C104_optimum (hd : raw.finalize false b = some d) (hl1 : 0 ≤ options.l1) (hl2 : 0 ≤ options.l2)
    (hpos : ∀ j, 0 < gram raw b j j) (horth : ∀ j k, j ≠ k → gram raw b j k = 0)
    {β βs : Vec ℝ (ncols b p)}
    (hs : ∀ j, βs j = softRatio (scoreVec Family.linear.glm raw b 0 j)
      (onSlopes b (fun _ : Fin p => options.l1) j)
      (gram raw b j j + onSlopes b (fun _ : Fin p => options.l2) j))
    (hβ : β ≠ βs) :
    penLogLik Family.linear.glm raw b options.l1 options.l2 (scale d) β
      < penLogLik Family.linear.glm raw b options.l1 options.l2 (scale d) βs := by
  have hx : ∀ i j, d.x i j = design b raw.x i j := by
    cases hd
    intro i j
    cases b
    · rfl
    · refine Fin.cases rfl (fun j => rfl) (j : Fin (p + 1))
  have hid : ∀ γ, d.inverseTransformBeta γ = γ := by cases hd; cases b <;> exact fun γ => rfl
  have hid' : ∀ γ, d.transformBeta γ = γ := by cases hd; cases b <;> exact fun γ => rfl
  have hsc : ∀ j, scale d j = 1 := by cases hd; exact fun j => rfl
  have hG : d.gramInt = diagonal fun j => gram raw b j j := by
    ext j k
    have e : d.gramInt j k = gram raw b j k :=
      Finset.sum_congr rfl fun i _ => by rw [Dataset.finalize_totalWt hd, hx, hx]
    by_cases hjk : j = k
    · subst hjk; rw [diagonal_apply_eq, e]
    · rw [diagonal_apply_ne _ hjk, e, horth j k hjk]
  have hc : grad0 d = scoreVec Family.linear.glm raw b 0 := by
    have h := Dataset.finalize_score (Family.lawfulAdj .linear) hd 0
    have ht : d.tmat = 1 := by
      ext j k
      have := congrFun (Dataset.transformBeta_eq d (Pi.single k 1)) j
      rw [hid', mulVec_single_one] at this
      rw [one_apply, ← show d.tmat.col k j = d.tmat j k from rfl, ← this, Pi.single_apply]
    rw [ht, transpose_one, one_mulVec, hid'] at h
    exact h
  set hh : Fin (ncols b p) → ℝ := fun j => gram raw b j j + onSlopes b (fun _ : Fin p => options.l2) j
  set ll : Fin (ncols b p) → ℝ := onSlopes b (fun _ : Fin p => options.l1)
  have hH : curvInt d options.l2 = diagonal hh := by
    rw [curvInt, hG, diagonal_add, max_eq_left hl2]
  have hpen : ∀ γ, penLogLik Family.linear.glm raw b options.l1 options.l2 (scale d) γ
      = smoothLik Family.linear.glm raw d options.l2 0
        + ∑ j, (scoreVec Family.linear.glm raw b 0 j * γ j - hh j * γ j ^ 2 / 2 - ll j * |γ j|) := by
    intro γ
    have h1 := smoothLik_add hd options.l2 0 γ
    rw [zero_add, hH, mulVec_zero, sub_zero, hc] at h1
    have h2 : ∑ j, ll j * |γ j| = options.l1 * ∑ j, |slopes b γ j| := by
      rw [Finset.mul_sum]
      exact onSlopes_dot (fun _ => options.l1) (fun j => |slopes b γ j|) (fun j => |γ j|) (by cases b <;> rfl)
    have h3 : penLogLik Family.linear.glm raw b options.l1 options.l2 (scale d) γ
        = smoothLik Family.linear.glm raw d options.l2 γ - options.l1 * ∑ j, |slopes b γ j| := by
      unfold smoothLik
      rw [hid]
      simp only [penLogLik, penalty, hsc, one_mul, max_eq_left hl1, max_self, zero_mul]
      ring
    rw [h3, h1, ← h2, Finset.sum_sub_distrib, Finset.sum_sub_distrib]
    have h4 : γ ⬝ᵥ (diagonal hh *ᵥ γ) / 2 = ∑ j, hh j * γ j ^ 2 / 2 := by
      rw [dotProduct, Finset.sum_div]
      exact Finset.sum_congr rfl fun j _ => by rw [mulVec_diagonal]; ring
    rw [h4]
    simp only [dotProduct]
    ring
  rw [hpen, hpen]
  have hh0 : ∀ j, 0 < hh j := fun j => add_pos_of_pos_of_nonneg (hpos j) (onSlopes_nonneg hl2 j)
  have hl0 : ∀ j, 0 ≤ ll j := fun j => onSlopes_nonneg hl1 j
  refine add_lt_add_right (Finset.sum_lt_sum (fun j _ => ?_) ?_) _
  · by_cases h : β j = βs j
    · rw [h]
    · rw [hs j] at h ⊢
      exact (softRatio_best (hl0 j) (hh0 j) h).le
  · obtain ⟨j, hj⟩ := Function.ne_iff.mp hβ
    refine ⟨j, Finset.mem_univ j, ?_⟩
    rw [hs j] at hj ⊢
    exact softRatio_best (hl0 j) (hh0 j) hj

section standardized
variable {d : Dataset ℝ n p true} {options : FitOptions ℝ (ncols true p)}

/-- C104: with an intercept and standardization: features that are pairwise uncorrelated, and vary (or
there is an L2 penalty as well). -/
theorem C104_uncorrelated (he : env.Exact) (heps : env.eps ≤ 1 / 4) (hd : raw.finalize true true = some d)
    (hl1 : 0 < options.l1) (hw : ∀ i, 0 ≤ totalWt raw i) (htol : 0 < options.tol)
    (hsum : 0 < ∑ i, totalWt raw i)
    (hvary : 0 < options.l2 ∨ ∀ j, ¬ ∃ c, ∀ i, 0 < totalWt raw i → raw.x i j = c)
    (hcov : ∀ j k, j ≠ k → (∑ i, totalWt raw i) * ∑ i, totalWt raw i * (raw.x i j * raw.x i k)
      = (∑ i, totalWt raw i * raw.x i j) * ∑ i, totalWt raw i * raw.x i k) :
    ∃ M, ∀ m, M ≤ m →
      ∃ f, regression env Family.linear.glm d { options with maxIter := m } = .ok f := by
  have hc5 := C05_standardized_columns hd hw hsum
  obtain ⟨sh, sc, hval⟩ : ∃ sh sc : Fin p → ℝ, ∀ i j,
      d.x i (Fin.succ j : Fin (p + 1)) = (raw.x i j - sh j) / sc j := by
    obtain ⟨-, -, -, -, h⟩ := Dataset.finalize_cases hd
    rcases h with ⟨h, -⟩ | ⟨-, s, hs0, hs1, hx⟩
    · cases h
    · exact ⟨s.shifts, s.scales, fun i j => by rw [hx]; rfl⟩
  have hone := finalize_ones hd
  have hn : 0 < n := by
    rcases Nat.eq_zero_or_pos n with rfl | h
    · exact absurd hsum (by simp)
    · exact h
  have hpos1 : ∀ j : Fin p, (¬ ∃ c, ∀ i, 0 < totalWt raw i → raw.x i j = c) →
      0 < ∑ i, totalWt raw i * d.x i (Fin.succ j : Fin (p + 1)) ^ 2 := fun j hvary => by
    refine lt_of_le_of_ne (Finset.sum_nonneg fun i _ => mul_nonneg (hw i) (sq_nonneg _)) fun h0 => ?_
    have := (hc5 j).2.2 hvary
    rw [← h0, zero_div, zero_mul] at this
    exact zero_ne_one this
  have hcross : ∀ j k : Fin p, j ≠ k →
      ∑ i, totalWt raw i * d.x i (Fin.succ j : Fin (p + 1)) * d.x i (Fin.succ k : Fin (p + 1)) = 0 := by
    intro j k hjk
    have hj := (hc5 j).1
    have hk := (hc5 k).1
    set W := ∑ i, totalWt raw i with hW
    rcases eq_or_ne (sc j) 0 with h0 | hsj
    · exact Finset.sum_eq_zero fun i _ => by rw [hval i j, h0, div_zero, mul_zero, zero_mul]
    rcases eq_or_ne (sc k) 0 with h0 | hsk
    · exact Finset.sum_eq_zero fun i _ => by rw [hval i k, h0, div_zero, mul_zero]
    have hmean : ∀ j, sc j ≠ 0 → ∑ i, totalWt raw i * d.x i (Fin.succ j : Fin (p + 1)) = 0 →
        ∑ i, totalWt raw i * raw.x i j = W * sh j := fun j hsc h => by
      have h2 : ∑ i, totalWt raw i * d.x i (Fin.succ j : Fin (p + 1))
          = (∑ i, totalWt raw i * raw.x i j - W * sh j) / sc j := by
        rw [hW, Finset.sum_mul, ← Finset.sum_sub_distrib, Finset.sum_div]
        exact Finset.sum_congr rfl fun i _ => by rw [hval]; ring
      rw [h2, div_eq_zero_iff] at h
      linarith [h.resolve_right hsc]
    have mj := hmean j hsj hj
    have mk := hmean k hsk hk
    have hc := hcov j k hjk
    rw [mj, mk] at hc
    have hc' : ∑ i, totalWt raw i * (raw.x i j * raw.x i k) = W * sh j * sh k := by
      refine mul_left_cancel₀ hsum.ne' ?_
      linarith
    have h2 : ∑ i, totalWt raw i * d.x i (Fin.succ j : Fin (p + 1)) * d.x i (Fin.succ k : Fin (p + 1))
        = (∑ i, totalWt raw i * (raw.x i j * raw.x i k) - sh k * ∑ i, totalWt raw i * raw.x i j
          - sh j * ∑ i, totalWt raw i * raw.x i k + W * sh j * sh k) / (sc j * sc k) := by
      rw [hW, Finset.mul_sum, Finset.mul_sum, Finset.sum_mul, Finset.sum_mul, ← Finset.sum_sub_distrib,
        ← Finset.sum_sub_distrib, ← Finset.sum_add_distrib, Finset.sum_div]
      refine Finset.sum_congr rfl fun i _ => ?_
      rw [hval, hval]
      field_simp
      ring
    rw [h2, mj, mk, hc', div_eq_zero_iff]
    left
    ring
  refine C104_orthogonal he heps hd hl1 hw htol hn (Nat.succ_pos p) ?_ fun j k hjk => ?_
  · rcases hvary with h2 | hvary
    · refine Or.inr ⟨h2, fun _ => ?_⟩
      by_contra hh
      push Not at hh
      exact absurd hsum (not_lt.mpr (Finset.sum_nonpos fun i _ => hh i))
    · refine Or.inl fun j => ?_
      refine Fin.cases ?_ (fun j => hpos1 j (hvary j)) (j : Fin (p + 1))
      simpa only [hone, one_pow, mul_one] using hsum
  · revert hjk
    refine Fin.cases ?_ (fun j => ?_) (j : Fin (p + 1)) <;> refine Fin.cases ?_ (fun k => ?_) (k : Fin (p + 1))
    · intro h; exact absurd rfl h
    · intro _
      simpa only [hone, mul_one] using (hc5 k).1
    · intro _
      simpa only [hone, mul_one] using (hc5 j).1
    · intro h
      exact hcross j k fun h' => h (by rw [h'])

end standardized

/-- C104: in particular, with the default settings (an intercept, standardization), an L1-penalized fit
of a single feature that varies succeeds from every start and at every tolerance, once the budget of
iterations is large enough. -/
theorem C104_one_feature {raw : Dataset ℝ n 1 false} {d : Dataset ℝ n 1 true}
    {options : FitOptions ℝ (ncols true 1)} (he : env.Exact) (heps : env.eps ≤ 1 / 4)
    (hd : raw.finalize true true = some d) (hl1 : 0 < options.l1) (hw : ∀ i, 0 ≤ totalWt raw i)
    (htol : 0 < options.tol) (hvary : ¬ ∃ c, ∀ i, 0 < totalWt raw i → raw.x i 0 = c) :
    ∃ M, ∀ m, M ≤ m →
      ∃ f, regression env Family.linear.glm d { options with maxIter := m } = .ok f := by
  have hsum : 0 < ∑ i, totalWt raw i := by
    refine lt_of_le_of_ne (Finset.sum_nonneg fun i _ => hw i) fun h0 => hvary ⟨0, fun i hi => ?_⟩
    have := (Finset.sum_eq_zero_iff_of_nonneg fun i _ => hw i).mp h0.symm i (Finset.mem_univ i)
    exact absurd this hi.ne'
  refine C104_uncorrelated he heps hd hl1 hw htol hsum (Or.inr fun j => ?_) fun j k hjk => ?_
  · rw [Subsingleton.elim j 0]; exact hvary
  · exact absurd (Subsingleton.elim j k) hjk

/-- Four observations of two features, without weights. -/
noncomputable def fourRaw (u v y : Vec ℝ 4) : Dataset ℝ 4 2 false where
  y := y
  x := fun i => ![u i, v i]
  linearOffset := none
  weights := none
  freqs := none
  standardizer := none

theorem four_two {α : Type} (a b c e : α) : (![a, b, c, e] : Fin 4 → α) 2 = c := rfl

theorem four_three {α : Type} (a b c e : α) : (![a, b, c, e] : Fin 4 → α) 3 = e := rfl

theorem four_totalWt (u v y : Vec ℝ 4) (i : Fin 4) : totalWt (fourRaw u v y) i = 1 := by
  simp [totalWt, freq, varWt, fourRaw]

theorem unweighted_finalize {raw : Dataset ℝ n p false} (hw : raw.weights = none) (hf : raw.freqs = none)
    (hn : 1 < n) : ∃ d, raw.finalize true b = some d := by
  have h : Scalar.gt raw.nEff 1 = true := by
    have : raw.nEff = n := by simp [Dataset.nEff, Dataset.nObs, hw, hf]
    rw [this, gt_real]
    exact_mod_cast hn
  have h2 : ¬ n ≤ 1 := by omega
  exact ⟨_, by simp only [Dataset.finalize, Standardizer.fromDataset, if_true, h, h2, if_false]; rfl⟩

/-- The data of C103, which cannot be fitted without standardization, can be fitted with it: at every
tolerance, from every start and for every L1 strength. -/
example (fuel : ℕ) {tol l1 : ℝ} (htol : 0 < tol) (hl1 : 0 < l1) (γ : Option (Vec ℝ (ncols true 1))) :
    ∃ d, (cycleRaw ![1, 3, 2]).finalize true true = some d ∧ ∃ M, ∀ m, M ≤ m → ∃ f,
      regression (exactEnv (1 / 2 ^ 52) fuel) Family.linear.glm d
        { maxIter := m, tol := tol, l2 := 0, l1 := l1, initGuess := γ } = .ok f := by
  obtain ⟨d, hd⟩ : ∃ d, (cycleRaw ![1, 3, 2]).finalize true true = some d :=
    unweighted_finalize rfl rfl (by norm_num)
  have hw : ∀ i, totalWt (cycleRaw ![1, 3, 2]) i = 1 := cycle_totalWt _
  refine ⟨d, hd, C104_one_feature (exactEnv_exact (by positivity) fuel) (by norm_num [exactEnv]) hd
    (options := { maxIter := 0, tol := tol, l2 := 0, l1 := l1, initGuess := γ }) hl1
    (fun i => by rw [hw]; exact zero_le_one) htol ?_⟩
  rintro ⟨c, hc⟩
  have h0 := hc 0 (by rw [hw]; exact zero_lt_one)
  have h1 := hc 1 (by rw [hw]; exact zero_lt_one)
  norm_num [cycleRaw] at h0 h1
  linarith

/-- A balanced design with two factors, standardized. -/
example (fuel : ℕ) (y : Vec ℝ 4) {tol l1 : ℝ} (htol : 0 < tol) (hl1 : 0 < l1)
    (γ : Option (Vec ℝ (ncols true 2))) :
    ∃ d, (fourRaw ![3, 3, 4, 4] ![5, 9, 5, 9] y).finalize true true = some d ∧
      ∃ M, ∀ m, M ≤ m → ∃ f, regression (exactEnv (1 / 2 ^ 52) fuel) Family.linear.glm d
        { maxIter := m, tol := tol, l2 := 0, l1 := l1, initGuess := γ } = .ok f := by
  set raw := fourRaw ![3, 3, 4, 4] ![5, 9, 5, 9] y with hraw
  obtain ⟨d, hd⟩ : ∃ d, raw.finalize true true = some d := unweighted_finalize rfl rfl (by norm_num)
  have hw : ∀ i, totalWt raw i = 1 := four_totalWt _ _ _
  refine ⟨d, hd, C104_uncorrelated (exactEnv_exact (by positivity) fuel) (by norm_num [exactEnv]) hd
    (options := { maxIter := 0, tol := tol, l2 := 0, l1 := l1, initGuess := γ }) hl1
    (fun i => by rw [hw]; exact zero_le_one) htol (by simp [hw]) (Or.inr ?_) ?_⟩
  · rintro j ⟨c, hc⟩
    have h0 := hc 0 (by rw [hw]; exact zero_lt_one)
    have h3 := hc 3 (by rw [hw]; exact zero_lt_one)
    fin_cases j <;> norm_num [hraw, fourRaw, four_two, four_three] at h0 h3 <;> linarith
  · intro j k hjk
    simp only [hw, Fin.sum_univ_four]
    fin_cases j <;> fin_cases k <;> first | exact absurd rfl hjk | norm_num [hraw, fourRaw, four_two, four_three]

/-- A balanced design with two factors, coded by signs. -/
theorem signs_gram (y : Vec ℝ 4) (j k : Fin (ncols true 2)) :
    gram (fourRaw ![1, 1, -1, -1] ![1, -1, 1, -1] y) true j k = if j = k then 4 else 0 := by
  unfold gram
  simp only [four_totalWt, Fin.sum_univ_four]
  change Fin 3 at j k
  fin_cases j <;> fin_cases k <;> norm_num [design, fourRaw, four_two, four_three]

/-- It can be fitted without standardization. -/
example (fuel : ℕ) (y : Vec ℝ 4) {tol l1 : ℝ} (htol : 0 < tol) (hl1 : 0 < l1)
    (γ : Option (Vec ℝ (ncols true 2))) :
    ∃ d, (fourRaw ![1, 1, -1, -1] ![1, -1, 1, -1] y).finalize false true = some d ∧
      ∃ M, ∀ m, M ≤ m → ∃ f, regression (exactEnv (1 / 2 ^ 52) fuel) Family.linear.glm d
        { maxIter := m, tol := tol, l2 := 0, l1 := l1, initGuess := γ } = .ok f :=
  ⟨_, rfl, C104_plain (exactEnv_exact (by positivity) fuel) (by norm_num [exactEnv]) rfl
    (options := { maxIter := 0, tol := tol, l2 := 0, l1 := l1, initGuess := γ }) hl1
    (fun i => by rw [four_totalWt]; exact zero_le_one) htol (by norm_num) (by norm_num [ncols])
    (Or.inl fun j => by rw [signs_gram, if_pos rfl]; norm_num)
    fun j k hjk => by rw [signs_gram, if_neg hjk]⟩

/-- Its lasso coefficients for the responses 5, 3, 2, 2 and the L1 strength 2: the intercept is the
mean 3, the covariances 4 and 2 of the features become (4 - 2) / 4 and 0. -/
example {β : Vec ℝ (ncols true 2)} (hβ : β ≠ ![3, 1 / 2, 0]) :
    ∃ d, (fourRaw ![1, 1, -1, -1] ![1, -1, 1, -1] ![5, 3, 2, 2]).finalize false true = some d ∧
      penLogLik Family.linear.glm (fourRaw ![1, 1, -1, -1] ![1, -1, 1, -1] ![5, 3, 2, 2]) true
          2 0 (scale d) β
        < penLogLik Family.linear.glm (fourRaw ![1, 1, -1, -1] ![1, -1, 1, -1] ![5, 3, 2, 2]) true
          2 0 (scale d) ![3, 1 / 2, 0] := by
  refine ⟨_, rfl, C104_optimum (options := { maxIter := 0, tol := 0, l2 := 0, l1 := 2, initGuess := none })
    rfl zero_le_two le_rfl (fun j => by rw [signs_gram, if_pos rfl]; norm_num)
    (fun j k hjk => by rw [signs_gram, if_neg hjk]) (fun j => ?_) hβ⟩
  rw [signs_gram, if_pos rfl]
  simp only [scoreVec, four_totalWt, Fin.sum_univ_four, meanAt, linG_dNat, linG_mean]
  change Fin 3 at j
  fin_cases j
  · norm_num [design, fourRaw, four_two, four_three, linPred, softRatio, onSlopes, Spec.offset]
  · norm_num [design, fourRaw, four_two, four_three, linPred, softRatio, onSlopes, Spec.offset]
  · change (0 : ℝ) = softRatio _ 2 (4 + 0)
    norm_num [design, fourRaw, four_two, four_three, linPred, softRatio, Spec.offset]

end GLM
