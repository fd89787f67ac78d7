/-
  C103: an L1-penalized fit may go round in circles for ever.
-/
import Verif.Lemmas.AdmmForever
import Verif.Lemmas.Strict
import Verif.Props.AdmmLinear

namespace GLM
open Spec Matrix
variable {env : Env ℝ}

/-- Three observations of one feature with the values 6, 7, 8. -/
noncomputable def cycleRaw (y : Vec ℝ 3) : Dataset ℝ 3 1 false where
  y := y
  x := fun i _ => ![6, 7, 8] i
  linearOffset := none
  weights := none
  freqs := none
  standardizer := none

/-- The mean of three numbers. -/
noncomputable def mean3 (y : Vec ℝ 3) : ℝ := (y 0 + y 1 + y 2) / 3

theorem cycle_totalWt (y : Vec ℝ 3) (i : Fin 3) : totalWt (cycleRaw y) i = 1 := by
  simp [totalWt, freq, varWt, cycleRaw]

theorem cycle_linPred (y : Vec ℝ 3) (β : Vec ℝ 2) (i : Fin 3) :
    linPred (cycleRaw y) true β i = β (0 : Fin 2) + ![6, 7, 8] i * β (1 : Fin 2) := by
  rw [linPred]
  refine (congrArg (· + _) (Fin.sum_univ_two _)).trans ?_
  simp [design, cycleRaw, offset]

section
variable {y : Vec ℝ 3} {d : Dataset ℝ 3 1 true}

theorem cycle_x (hd : (cycleRaw y).finalize false true = some d) (i : Fin 3) :
    d.x i = ![1, ![6, 7, 8] i] := by
  cases hd
  funext j
  fin_cases j <;> rfl

theorem cycle_gramInt (hd : (cycleRaw y).finalize false true = some d) (v : Fin 2 → ℝ) :
    d.gramInt *ᵥ v = ![3 * v 0 + 21 * v 1, 21 * v 0 + 149 * v 1] := by
  have hw : ∀ i, totalWt d i = 1 := fun i => by
    rw [Dataset.finalize_totalWt hd]; exact cycle_totalWt y i
  have hg : d.gramInt = !![3, 21; 21, 149] := by
    ext j k
    change (∑ i, totalWt d i * d.x i j * d.x i k) = _
    simp only [hw, cycle_x hd, Fin.sum_univ_three]
    fin_cases j <;> fin_cases k <;> simp <;> norm_num
  rw [hg]
  funext j
  fin_cases j
  · exact Fin.sum_univ_two fun k => ![(3 : ℝ), 21] k * v k
  · exact Fin.sum_univ_two fun k => ![(21 : ℝ), 149] k * v k

theorem cycle_grad0 (hd : (cycleRaw y).finalize false true = some d) (hy : y 2 = y 0 + 1) :
    grad0 d = ![3 * mean3 y, 21 * mean3 y + 1] := by
  have hw : ∀ i, totalWt d i = 1 := fun i => by
    rw [Dataset.finalize_totalWt hd]; exact cycle_totalWt y i
  have hyd : d.y = y := by cases hd; rfl
  have h0 : ∀ i, d.linearPredictorStd 0 i = 0 := fun i => by
    rw [Dataset.linearPredictorStd_real]
    have : offset d i = 0 := by cases hd; rfl
    simp [this]
  funext j
  rw [grad0, Dataset.scoreInt_apply (Family.lawfulAdj .linear)]
  simp only [linG_dNat, linG_mean, h0, hw, hyd, cycle_x hd, Fin.sum_univ_three, mean3]
  fin_cases j <;> simp <;> linarith

theorem sqn_two (v : Fin 2 → ℝ) : sqn v = v 0 ^ 2 + v 1 ^ 2 := by
  rw [sqn, dotProduct, Fin.sum_univ_two]; ring

/-- The iterates, with the intercept counted from the mean response. -/
theorem cycle_orb (hd : (cycleRaw y).finalize false true = some d) (hy : y 2 = y 0 + 1)
    {options : FitOptions ℝ (ncols true 1)} (hl1 : options.l1 = 3 / 2) (hl2 : options.l2 ≤ 0) {eps : ℝ}
    {x z u : ℕ → Fin 2 → ℝ} {ρ : ℕ → ℝ}
    (h : AdmmSeq (k := 2) d.gramInt (curvInt d options.l2) eps (grad0 d) (l1Vec true 1 options.l1) x z u ρ) :
    Orb eps (fun t => x t 0 - mean3 y) (fun t => x t 1) (fun t => z t 0 - mean3 y) (fun t => z t 1)
      (fun t => u t 1) ρ := by
  have hcurv : curvInt d options.l2 = d.gramInt := by
    unfold curvInt
    rw [max_eq_right hl2]
    ext j k
    simp only [Matrix.add_apply]
    have : diagonal (onSlopes true fun _ : Fin 1 => (0 : ℝ)) j k = 0 := by
      have h0 : (onSlopes true fun _ : Fin 1 => (0 : ℝ)) = 0 := by
        funext j; refine Fin.cases rfl (fun _ => rfl) (j : Fin (1 + 1))
      rw [h0]; exact congrFun (congrFun diagonal_zero j) k
    rw [this, add_zero]
  have hlam : (l1Vec true 1 options.l1 : Fin 2 → ℝ) = ![0, 3 / 2] := by
    funext j
    fin_cases j
    · rfl
    · exact hl1
  have hu0 : ∀ t, u t 0 = 0 := fun t => by
    have := (h.sub t 0).1
    rw [hlam] at this
    exact abs_eq_zero.mp (le_antisymm this (abs_nonneg _))
  have hz0 : ∀ t, z (t + 1) 0 = x t 0 := fun t => by
    have := congrFun (h.dual t) 0
    simp only [Pi.add_apply, Pi.smul_apply, Pi.sub_apply, smul_eq_mul, hu0, zero_add] at this
    have := (mul_eq_zero.mp this.symm).resolve_left (h.rho_pos t).ne'
    linarith
  have hstep := fun t => h.step t
  simp only [hcurv, cycle_gramInt hd, cycle_grad0 hd hy] at hstep
  refine ⟨h.e_nonneg, h.rho_pos, fun t => by rw [hz0], fun t => ?_, fun t => ?_, fun t => ?_, fun t => ?_,
    fun t => ?_, fun t _ => ?_⟩
  · have := (h.sub t 1).1; rwa [hlam] at this
  · have := (h.sub t 1).2; rwa [hlam] at this
  · exact congrFun (h.dual t) 1
  · have := congrFun (hstep t) 0
    simp only [Pi.add_apply, Pi.smul_apply, Pi.sub_apply, smul_eq_mul, hu0, cons_val_zero] at this
    linarith
  · have := congrFun (hstep t) 1
    simp only [Pi.add_apply, Pi.smul_apply, Pi.sub_apply, smul_eq_mul, cons_val_one, cons_val_fin_one] at this
    linarith
  · have := h.balance t
    simp only [sqn_two, Pi.sub_apply] at this
    simp only [sub_sub_sub_cancel_right]
    exact this

/-- Where a fit starts by default. -/
theorem cycle_start (he : env.Exact) (hd : (cycleRaw y).finalize false true = some d) (hy : y 2 = y 0 + 1)
    {options : FitOptions ℝ (ncols true 1)} (hi : options.initGuess = none) :
    (initialGuess env Family.linear.glm d options : Fin 2 → ℝ) = ![mean3 y - 7 / 4, 1 / 4] := by
  have hM : (Matrix.of (d.xConj.dotM d.x) : Matrix (Fin 2) (Fin 2) ℝ) = !![3, 21; 21, 149] := by
    have hc : ∀ j i, d.xConj j i = d.x i j := by cases hd; intro j i; rfl
    ext j k
    change vsum (fun i => d.xConj j i * d.x i k) = _
    simp only [vsum_real, hc, cycle_x hd, Fin.sum_univ_three]
    fin_cases j <;> fin_cases k <;> simp <;> norm_num
  have hV : (d.xConj.dotV (d.lessOffset fun i => Family.linear.glm.link.func
      (Scalar.half * (d.y i + (vmean? d.y).getD 0))) : Fin 2 → ℝ) = ![3 * mean3 y, 21 * mean3 y + 1 / 2] := by
    have hc : ∀ j i, d.xConj j i = d.x i j := by cases hd; intro j i; rfl
    have ho : d.lessOffset = fun v => v := by cases hd; rfl
    have hyd : d.y = y := by cases hd; rfl
    have hmean : (vmean? y).getD 0 = mean3 y := by
      simp [vmean?, vsum_real, Fin.sum_univ_three, mean3, ofNat_real]
    funext j
    change vsum (fun i => d.xConj j i * d.lessOffset (fun i => Scalar.half * (d.y i + (vmean? d.y).getD 0)) i) = _
    simp only [vsum_real, hc, ho, hyd, hmean, cycle_x hd, Fin.sum_univ_three, half_real, mean3]
    fin_cases j <;> simp <;> linarith
  have hdet : IsUnit (!![3, 21; 21, 149] : Matrix (Fin 2) (Fin 2) ℝ).det := by
    rw [isUnit_iff_ne_zero, det_fin_two_of]; norm_num
  have hsymm : (Matrix.of (d.xConj.dotM d.x)).IsSymm := by
    change (Matrix.of (d.xConj.dotM d.x) : Matrix (Fin 2) (Fin 2) ℝ).IsSymm
    rw [hM]; ext j k; fin_cases j <;> fin_cases k <;> rfl
  obtain ⟨sol, hs⟩ := he.solveh_complete (m := d.xConj.dotM d.x) (d.xConj.dotV (d.lessOffset
    fun i => Family.linear.glm.link.func (Scalar.half * (d.y i + (vmean? d.y).getD 0)))) hsymm
    (by
      change IsUnit (Matrix.of (d.xConj.dotM d.x) : Matrix (Fin 2) (Fin 2) ℝ).det
      rw [hM]; exact hdet)
  have h1 := he.solveh_sound hsymm hs
  have h2 : (!![3, 21; 21, 149] : Matrix (Fin 2) (Fin 2) ℝ) *ᵥ sol = ![3 * mean3 y, 21 * mean3 y + 1 / 2] := by
    rw [← hM, ← hV]; exact h1
  have hg : initialGuess env Family.linear.glm d options = sol := by
    unfold initialGuess
    rw [hi]
    dsimp only
    rw [initGuess_eq, hs]
  rw [hg]
  have h3 : (3 : ℝ) * sol (0 : Fin 2) + 21 * sol (1 : Fin 2) = 3 * mean3 y := by
    exact (Fin.sum_univ_two fun k => ![(3 : ℝ), 21] k * sol (k : Fin 2)).symm.trans (congrFun h2 0)
  have h4 : (21 : ℝ) * sol (0 : Fin 2) + 149 * sol (1 : Fin 2) = 21 * mean3 y + 1 / 2 := by
    exact (Fin.sum_univ_two fun k => ![(21 : ℝ), 149] k * sol (k : Fin 2)).symm.trans (congrFun h2 1)
  funext j
  fin_cases j
  · change sol (0 : Fin 2) = mean3 y - 7 / 4
    linarith
  · change sol (1 : Fin 2) = 1 / 4
    linarith

theorem tol_small {q tol : ℝ} (h0 : 0 ≤ q) (h2 : q ≤ 2) (h : tol ≤ 1 / 2000) : q * tol ≤ 1 / 1000 := by
  nlinarith

theorem sqrt_two_le : √((2 : ℕ) : ℝ) ≤ 2 := by
  rw [show (2 : ℝ) = √(2 ^ 2) by rw [Real.sqrt_sq (by norm_num)]]
  exact Real.sqrt_le_sqrt (by norm_num)

variable (he : env.Exact) (heps : env.eps ≤ 1e-15)
  (hd : (cycleRaw y).finalize false true = some d) (hy : y 2 = y 0 + 1)
  (hm : 1 / 32 ≤ |mean3 y - 7 / 4| ∧ |mean3 y - 7 / 4| ≤ 2)
  {options : FitOptions ℝ (ncols true 1)} (hl1 : options.l1 = 3 / 2) (hl2 : options.l2 ≤ 0)
  (hi : options.initGuess = none)

include he hd hy hm hl1 hl2 hi in
/-- The start of the cycling orbit. -/
theorem cycle_begin : ∃ x z u : ℕ → Fin 2 → ℝ, ∃ ρ : ℕ → ℝ,
    AdmmRun (k := 2) (smoothLik Family.linear.glm (cycleRaw y) d options.l2)
      (moveCost env.eps (cycleRaw y) d) (l1Vec true 1 options.l1) x z u ρ ∧
    x 0 = initialGuess env Family.linear.glm d options ∧
    Orb env.eps (fun t => x t 0 - mean3 y) (fun t => x t 1) (fun t => z t 0 - mean3 y) (fun t => z t 1)
      (fun t => u t 1) ρ ∧
    Orb.Start (fun t => x t 0 - mean3 y) (fun t => x t 1) (fun t => u t 1) ρ := by
  have hw : ∀ i, 0 ≤ totalWt d i := fun i => by
    rw [Dataset.finalize_totalWt hd, cycle_totalWt]; exact zero_le_one
  have hpos : 0 < options.l1 := by rw [hl1]; norm_num
  have hrun := traj_run (options := options) hd hpos he.eps_nonneg hw
    (initialGuess env Family.linear.glm d options)
  have hseq := traj_seq (d := d) (options := options) (initialGuess env Family.linear.glm d options) hpos
    he.eps_nonneg hw
  generalize hX : trajX env.eps d options (initialGuess env Family.linear.glm d options) = x at *
  generalize hZ : trajZ env.eps d options (initialGuess env Family.linear.glm d options) = z at *
  generalize hU : trajY env.eps d options (initialGuess env Family.linear.glm d options) = u at *
  generalize hR : trajR env.eps d options (initialGuess env Family.linear.glm d options) = ρ at *
  have o := cycle_orb hd hy hl1 hl2 (x := x) (z := z) (u := u) hseq
  have h0 : x 0 = initialGuess env Family.linear.glm d options := by rw [← hX]; rfl
  have hs := cycle_start he hd hy hi
  have x0 : x 0 (0 : Fin 2) = mean3 y - 7 / 4 := by rw [h0]; exact congrFun hs 0
  have x1 : x 0 (1 : Fin 2) = 1 / 4 := by rw [h0]; exact congrFun hs 1
  have u0 : u 0 (1 : Fin 2) = 0 := congrFun hrun.y_zero (1 : Fin 2)
  have r0 : ρ 0 = 1 := hrun.rho_zero
  refine ⟨x, z, u, ρ, hrun, h0, o, ?_, x1, u0, r0, ?_⟩
  · rw [x0]; ring
  · have e1 := o.dual 0
    have e2 := o.sub_eq 1
    have e3 := o.split₀ 0
    have e4 := hseq.balance 0
    rw [zero_add, u0, r0, x1] at e1
    have hz : z 1 (1 : Fin 2) = 0 := Orb.split_zero (r := 1) (a := 1 / 4) one_pos e2 (by linarith)
      (by rw [abs_of_pos] <;> norm_num)
    have hz0 : z 1 (0 : Fin 2) = mean3 y - 7 / 4 := by rw [zero_add] at e3; linarith
    have f0 : z 0 (0 : Fin 2) = 0 := congrFun hrun.z_zero (0 : Fin 2)
    have f1 : z 0 (1 : Fin 2) = 0 := congrFun hrun.z_zero (1 : Fin 2)
    have q1 : sqn (k := 2) (x 0 - z (0 + 1)) = 1 / 16 := by
      rw [sqn_two]
      change (x 0 (0 : Fin 2) - z 1 (0 : Fin 2)) ^ 2 + (x 0 (1 : Fin 2) - z 1 (1 : Fin 2)) ^ 2 = _
      rw [x0, x1, hz, hz0]; ring
    have q2 : sqn (k := 2) (z (0 + 1) - z 0) = |mean3 y - 7 / 4| ^ 2 := by
      rw [sqn_two, sq_abs]
      change (z 1 (0 : Fin 2) - z 0 (0 : Fin 2)) ^ 2 + (z 1 (1 : Fin 2) - z 0 (1 : Fin 2)) ^ 2 = _
      rw [hz, hz0, f0, f1]; ring
    rw [zero_add] at e4
    rw [e4, r0]
    change (if 64 * ((1 : ℝ) ^ 2 * sqn (k := 2) (z (0 + 1) - z 0)) < sqn (k := 2) (x 0 - z (0 + 1)) then _
      else if 64 * sqn (k := 2) (x 0 - z (0 + 1)) < (1 : ℝ) ^ 2 * sqn (k := 2) (z (0 + 1) - z 0) then _
      else _) = _
    rw [q1, q2]
    obtain ⟨m1, m2⟩ := hm
    rw [if_neg (by nlinarith), if_neg (by nlinarith)]

include he heps hd hy hm hl1 hl2 hi in
/-- C103: features 6, 7, 8 with an intercept and without standardization, responses whose third value
exceeds the first by one (with a mean in a certain range), L1 strength 3/2, the default start: the fit
fails for every budget of iterations, and for every tolerance up to 1/2000.  The reason is not that the
estimates creep: the slope keeps swinging between values below -1/5 and above 1/4. -/
theorem C103_never (htol : options.tol ≤ 1 / 2000) :
    ∃ hist, regression env Family.linear.glm d options = .err (.maxIter options.maxIter hist) ∧
      hist.length = options.maxIter + 1 ∧
      ∀ t : Fin hist.length,
        ((t : ℕ) % 35 = 12 → hist[t].guess (1 : Fin 2) ≤ -1 / 5) ∧
        ((t : ℕ) % 35 = 34 → 1 / 4 ≤ hist[t].guess (1 : Fin 2)) := by
  obtain ⟨x, z, u, ρ, hrun, h0, o, s⟩ := cycle_begin he hd hy hm hl1 hl2 hi
  have hpos : 0 < options.l1 := by rw [hl1]; norm_num
  have hw : ∀ i, 0 ≤ totalWt (cycleRaw y) i := fun i => by rw [cycle_totalWt]; exact zero_le_one
  obtain ⟨-, h2⟩ := C91_run he hd hpos hw hrun h0
  have hnot : ∀ T, ¬ Settled (k := 2) (smoothLik Family.linear.glm (cycleRaw y) d options.l2) 3
      options.tol x z u ρ T := by
    rintro T ⟨g1, g2, -⟩
    have hb := s.forever o heps T
    have hlim := tol_small (Real.sqrt_nonneg ((2 : ℕ) : ℝ)) sqrt_two_le htol
    rw [Fin.sum_univ_two] at g1 g2
    replace g1 := g1.trans_le hlim
    replace g2 := g2.trans_le hlim
    rcases hb with hb | hb
    · rw [sub_sub_sub_cancel_right] at hb
      exact absurd hb (not_le.mpr g1)
    · rw [sub_sub_sub_cancel_right, mul_add, ← mul_pow, ← mul_pow] at hb
      exact absurd hb (not_le.mpr g2)
  obtain ⟨hist, e1, e2⟩ := h2 fun T hT => absurd hT.1 (hnot T)
  have hlen : hist.length = options.maxIter + 1 := by
    have := congrArg List.length e2
    simpa using this
  refine ⟨hist, e1, hlen, fun t => ?_⟩
  have hg : hist[t].guess = x (t + 1) := by
    have h3 : (hist.map IrlsStep.guess)[(t : ℕ)]'(by rw [List.length_map]; exact t.2) = x (t + 1) := by
      simp only [e2, List.getElem_map, List.getElem_range]
    rwa [List.getElem_map] at h3
  rw [hg]
  refine ⟨fun h => ?_, fun h => ?_⟩
  · have := (s.swings o heps ((t : ℕ) / 35)).1
    rwa [show 13 + 35 * ((t : ℕ) / 35) = t + 1 by omega] at this
  · have := (s.swings o heps ((t : ℕ) / 35)).2
    rwa [show 35 + 35 * ((t : ℕ) / 35) = t + 1 by omega] at this

theorem cycle_pen (hd : (cycleRaw y).finalize false true = some d) {l1 l2 : ℝ} (hl1 : l1 = 3 / 2)
    (hl2 : l2 ≤ 0) (β : Fin 2 → ℝ) :
    penLogLik Family.linear.glm (cycleRaw y) true l1 l2 (scale d) β
      = y 0 * (β 0 + 6 * β 1) - (β 0 + 6 * β 1) ^ 2 / 2 + (y 1 * (β 0 + 7 * β 1) - (β 0 + 7 * β 1) ^ 2 / 2)
        + (y 2 * (β 0 + 8 * β 1) - (β 0 + 8 * β 1) ^ 2 / 2) - 3 / 2 * |β 1| := by
  have hs : scale d = fun _ => 1 := by cases hd; rfl
  have hL : logLik Family.linear.glm (cycleRaw y) true β = ∑ i : Fin 3,
      (y i * (β 0 + ![6, 7, 8] i * β 1) - (β 0 + ![6, 7, 8] i * β 1) ^ 2 / 2) :=
    Finset.sum_congr rfl fun i _ => by
      have h1 : logLikAt Family.linear.glm (cycleRaw y) true β i
          = y i * (β 0 + ![6, 7, 8] i * β 1) - (β 0 + ![6, 7, 8] i * β 1) ^ 2 / 2 := by
        rw [logLikAt, linG_nat, linG_like, cycle_linPred]; rfl
      rw [cycle_totalWt, h1, one_mul]
  have hP : penalty l1 l2 (scale d) true β = 3 / 2 * |β 1| := by
    unfold penalty
    rw [hs, max_eq_right hl2, hl1, max_eq_left (by norm_num)]
    simp only [one_mul, zero_div, zero_mul, add_zero, Fin.sum_univ_one]
    rfl
  rw [penLogLik, hL, hP, Fin.sum_univ_three]
  rfl

include hd hy hl1 hl2 in
/-- C103: the penalized log-likelihood that these fits are to maximize has exactly one maximizer, the
mean of the responses with slope zero. -/
theorem C103_optimum (β : Fin 2 → ℝ) (hβ : β ≠ ![mean3 y, 0]) :
    penLogLik Family.linear.glm (cycleRaw y) true options.l1 options.l2 (scale d) β
      < penLogLik Family.linear.glm (cycleRaw y) true options.l1 options.l2 (scale d) ![mean3 y, 0] := by
  rw [cycle_pen hd hl1 hl2, cycle_pen hd hl1 hl2]
  have hne : β 0 + 7 * β 1 - mean3 y ≠ 0 ∨ β 1 ≠ 0 := by
    by_contra hh
    push Not at hh
    refine hβ (funext fun j => ?_)
    fin_cases j
    · change β 0 = mean3 y
      have := hh.1
      rw [hh.2] at this
      linarith
    · exact hh.2
  have key : y 0 * (mean3 y) + y 1 * mean3 y + y 2 * mean3 y - 3 * (mean3 y ^ 2 / 2)
      - (y 0 * (β 0 + 6 * β 1) - (β 0 + 6 * β 1) ^ 2 / 2 + (y 1 * (β 0 + 7 * β 1) - (β 0 + 7 * β 1) ^ 2 / 2)
        + (y 2 * (β 0 + 8 * β 1) - (β 0 + 8 * β 1) ^ 2 / 2))
      = 3 / 2 * (β 0 + 7 * β 1 - mean3 y) ^ 2 + β 1 ^ 2 - β 1 := by
    have e : y 1 = 3 * mean3 y - 2 * y 0 - 1 := by unfold mean3; rw [hy]; ring
    rw [hy, e]; ring
  have h1 := le_abs_self (β 1)
  have h2 := abs_nonneg (β 1)
  have h3 : 0 < 3 / 2 * (β 0 + 7 * β 1 - mean3 y) ^ 2 + β 1 ^ 2 := by
    rcases hne with h | h
    · have := pow_pos (abs_pos.mpr h) 2
      rw [sq_abs] at this
      have := sq_nonneg (β 1)
      linarith
    · have := pow_pos (abs_pos.mpr h) 2
      rw [sq_abs] at this
      have := sq_nonneg (β 0 + 7 * β 1 - mean3 y)
      linarith
  simp only [cons_val_zero, cons_val_one, cons_val_fin_one, abs_zero, mul_zero, add_zero, sub_zero]
  linarith

end

/-! ### The hypotheses are met -/

/-- The responses 1, 3, 2, and the default options of the crate with double precision apart from the
L1 strength: whatever the budget of iterations, the fit fails. -/
example (m fuel : ℕ) : ∃ d, (cycleRaw ![1, 3, 2]).finalize false true = some d ∧
    ∃ hist, regression (exactEnv (1 / 2 ^ 52) fuel) Family.linear.glm d
      { maxIter := m, tol := 1 / 2 ^ 52, l2 := 0, l1 := 3 / 2, initGuess := none }
        = .err (.maxIter m hist) := by
  have hm : mean3 ![1, 3, 2] = 2 := by simp [mean3]; norm_num
  obtain ⟨d, hd⟩ : ∃ d, (cycleRaw ![1, 3, 2]).finalize false true = some d := ⟨_, rfl⟩
  obtain ⟨hist, h, -⟩ := C103_never (env := exactEnv (1 / 2 ^ 52) fuel)
    (options := { maxIter := m, tol := 1 / 2 ^ 52, l2 := 0, l1 := 3 / 2, initGuess := none })
    (exactEnv_exact (by positivity) fuel) (by norm_num [exactEnv]) hd (by simp; norm_num)
    (by rw [hm, abs_of_pos] <;> norm_num) rfl le_rfl rfl (by norm_num)
  exact ⟨d, hd, hist, h⟩

/-- The best coefficients for them. -/
example : ∃ d, (cycleRaw ![1, 3, 2]).finalize false true = some d ∧ ∀ β : Fin 2 → ℝ, β ≠ ![2, 0] →
    penLogLik Family.linear.glm (cycleRaw ![1, 3, 2]) true (3 / 2) 0 (scale d) β
      < penLogLik Family.linear.glm (cycleRaw ![1, 3, 2]) true (3 / 2) 0 (scale d) ![2, 0] := by
  have hm : mean3 ![1, 3, 2] = 2 := by simp [mean3]; norm_num
  obtain ⟨d, hd⟩ : ∃ d, (cycleRaw ![1, 3, 2]).finalize false true = some d := ⟨_, rfl⟩
  refine ⟨d, hd, fun β hβ => ?_⟩
  have := C103_optimum hd (by simp; norm_num)
    (options := { maxIter := 0, tol := 0, l2 := 0, l1 := 3 / 2, initGuess := none }) rfl le_rfl β
    (by rwa [hm])
  rwa [hm] at this

end GLM
