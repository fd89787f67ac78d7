/-
  A case that meets the hypotheses of C105.
-/
import Verif.Props.InfoModerate
import Verif.Props.RoundingLimits
import Verif.Props.DevianceExample

namespace GLM
open Spec Scalar Fl

/-- The responses `0, 1, 0, 1`. -/
noncomputable def coinRaw : Dataset (Fl binary64) 4 0 false :=
  { y := fun i => num (((i.val % 2 : ℕ) : ℝ) : EReal), x := fun _ j => j.elim0, linearOffset := none,
    weights := none, freqs := none, standardizer := none }

/-- A solver that returns 0. -/
noncomputable def nilEnv : Env (Fl binary64) where
  eps := 0
  solveh _ _ := .ok fun _ => num ((0 : ℝ) : EReal)
  invh _ := .error .failed
  inv _ := .error .failed
  fuel := 0

theorem coin_pred {a : ℝ} {β : Vec (Fl binary64) (ncols true 0)} (h : ∀ j, real (β j) = a) (i : Fin 4) :
    exactPred true coinRaw.x coinRaw.linearOffset β i = a ∧
    predSize true coinRaw.x coinRaw.linearOffset β i = |a| := by
  constructor
  · change ∑ j : Fin 1, design true (n := 4) (p := 0) _ i j * real (β j) + (0 : ℝ) = a
    rw [Fin.sum_univ_one, h]
    change (1 : ℝ) * a + 0 = a
    ring
  · change ∑ j : Fin 1, |design true (n := 4) (p := 0) _ i j * real (β j)| + |(0 : ℝ)| = |a|
    rw [Fin.sum_univ_one, h]
    change |(1 : ℝ) * a| + |0| = |a|
    simp

theorem coin_design {a : ℝ} (ha : |a| ≤ 1) {β : Vec (Fl binary64) (ncols true 0)}
    (h : ∀ j, (β j).isFinite ∧ real (β j) = a) :
    PlainDesign (fun _ => SumOrder.left) 1 1 8 coinRaw true β where
  weights := rfl
  freqs := rfl
  x _ j := j.elim0
  coef j := (h j).1
  offset o ho := by cases ho
  entries i j := by
    have : exactDesign coinRaw true i j = 1 := by
      rcases j with ⟨j, hj⟩
      obtain rfl : j = 0 := by simpa [ncols] using hj
      rfl
    rw [this, abs_one]
  size i := by rw [(coin_pred (fun j => (h j).2) i).2]; exact ha
  depth_pred i := (C86_left 1).1.trans (by norm_num)
  ops_pred i := (C86_left 1).2.le.trans (by norm_num)
  depth j k := (C86_left 4).1.trans (by norm_num)
  ops j k := (C86_left 4).2.le.trans (by norm_num)
  rows := by norm_num
  rows_le := by norm_num
  pos := by norm_num
  one_le := le_rfl
  entries_le := one_le_zpow₀ (by norm_num) (by norm_num)
  small := by norm_num

theorem coin_info {a l : ℝ} (hl : ¬ 0 < l) {β : Vec (Fl binary64) (ncols true 0)} (h : ∀ j, real (β j) = a)
    (j k : Fin (ncols true 0)) :
    exactInfo .logisticLogit coinRaw true l β j k
      = 4 * (exactMean .logisticLogit a * (1 - exactMean .logisticLogit a)) := by
  have hr : ridgeMat l (fun _ => 1) true j k = (0 : ℝ) := by
    have : ridgeMat l (fun _ : Fin 0 => 1) true = Matrix.diagonal (strength true l) := by
      unfold ridgeMat strength
      simp only [one_pow, mul_one]
    rw [this, Matrix.diagonal_apply, strength_zero (not_lt.mp hl), ite_self]
  have hx : ∀ i (j : Fin (ncols true 0)), exactDesign coinRaw true i j = 1 := by
    rintro i ⟨j, hj⟩
    obtain rfl : j = 0 := by simpa [ncols] using hj
    rfl
  have hi : ∀ i, rowInfo .logisticLogit coinRaw true β i
      = exactMean .logisticLogit a * (1 - exactMean .logisticLogit a) := fun i => by
    unfold rowInfo infoAt
    rw [(coin_pred h i).1]
    change (1 : ℝ) ^ 2 * (_ * (1 - _)) = _
    ring
  have hw : ∀ i, totalWt (exactData coinRaw) i = 1 := fun i => by
    simp [totalWt, freq, varWt, exactData, coinRaw]
  unfold exactInfo
  rw [hr, add_zero, exact_fisher]
  simp only [hx, hi, hw]
  simp

/-- C105 applies to the fit of an intercept to `0, 1, 0, 1`: the information is 1, the Wald statistic against
the intercept 1 is `4 e / (1 + e)^2`, and the last residuals are 1/2 (response), 1 (Pearson) and 2
(working), up to tiny errors. -/
theorem C105_example : ∃ (data : Dataset (Fl binary64) 4 0 true) (f : Fit (Fl binary64) 4 0 true),
    coinRaw.finalize false true = some data ∧
    regression nilEnv Family.logisticLogit.glm data
      { maxIter := 10, tol := 0, l2 := 0, l1 := 0, initGuess := some fun _ => num ((0 : ℝ) : EReal) } = .ok f ∧
    (∀ j k, |real (f.fisher f.result j k) - 1| ≤ 1 / 2 ^ 35) ∧
    |real (f.waldTestAgainst fun _ => num ((1 : ℝ) : EReal)) - 4 * Real.exp 1 / (1 + Real.exp 1) ^ 2|
      ≤ 1 / 2 ^ 35 ∧
    |real (f.residResp 3) - 1 / 2| ≤ 1 / 2 ^ 35 ∧ |real (f.residPear 3) - 1| ≤ 1 / 2 ^ 35 ∧
    |real (f.residWork 3) - 2| ≤ 1 / 2 ^ 35 := by
  obtain ⟨data, hd⟩ : ∃ data, coinRaw.finalize false true = some data := ⟨_, rfl⟩
  have hgt : ∀ x : Fl binary64, gt x x = false := by
    intro x
    rw [Bool.eq_false_iff, ne_eq, gt_iff]
    rintro ⟨-, -, h⟩
    exact lt_irrefl _ h
  obtain ⟨f, hf, hr⟩ := regression_stays (env := nilEnv) (g := Family.logisticLogit.glm) (data := data)
    (options := { maxIter := 10, tol := 0, l2 := 0, l1 := 0,
                  initGuess := some fun _ => num ((0 : ℝ) : EReal) })
    (v := fun _ => num ((0 : ℝ) : EReal))
    (by unfold getReg; simp only [hgt]; rfl) rfl
    (by
      unfold vecEq
      rw [List.all_eq_true]
      intro j _
      rw [eq_iff]
      have : initialGuess nilEnv Family.logisticLogit.glm data
          { maxIter := 10, tol := 0, l2 := 0, l1 := 0, initGuess := some fun _ => num ((0 : ℝ) : EReal) } j
            = num ((0 : ℝ) : EReal) := by
        rw [finalize_plain hd]
        rfl
      rw [this]
      exact ⟨not_false, not_false, rfl⟩)
  refine ⟨data, f, hd, hf, ?_⟩
  have hres : f.result = fun _ => num ((0 : ℝ) : EReal) := by
    obtain ⟨-, -, h3⟩ := plain_setting hd hf
    rw [← h3, hr, finalize_plain hd]
    rfl
  have hβ : ∀ j, (f.result j).isFinite ∧ real (f.result j) = 0 := fun j => by rw [hres]; exact real_num _
  have h0 : (0 : Fl binary64).isFinite ∧ real (0 : Fl binary64) = 0 := real_zero
  obtain ⟨k1, k2, k3⟩ := C105_f64 (M := 1) (X := 1) (D := 8) hd hf h0.1 (by rw [h0.2]; norm_num) h0.1
    (by rw [h0.2]; norm_num)
  have hd0 := coin_design (a := 0) (by norm_num) hβ
  have hm0 : exactMean .logisticLogit (0 : ℝ) = 1 / 2 := by
    change 1 / (1 + Real.exp (-0)) = 1 / 2
    rw [neg_zero, Real.exp_zero]; norm_num
  have hm1 : exactMean .logisticLogit (1 : ℝ) * (1 - exactMean .logisticLogit (1 : ℝ))
      = Real.exp 1 / (1 + Real.exp 1) ^ 2 := by
    change 1 / (1 + Real.exp (-1)) * (1 - 1 / (1 + Real.exp (-1))) = _
    rw [Real.exp_neg]
    have := Real.exp_pos 1
    field_simp
    ring
  have hy : (coinRaw.y 3).isFinite ∧ real (coinRaw.y 3) = 1 := by
    have := real_num (fmt := binary64) (((3 % 2 : ℕ) : ℝ))
    refine ⟨this.1, this.2.trans (by norm_num)⟩
  have hmean : rowMean .logisticLogit coinRaw true f.result 3 = 1 / 2 := by
    unfold rowMean
    rw [(coin_pred (fun j => (hβ j).2) 3).1, hm0]
  have hV : rowVar .logisticLogit coinRaw true f.result 3 = 1 / 4 := by
    unfold rowVar
    rw [hmean]
    change (1 / 2 : ℝ) * (1 - 1 / 2) = 1 / 4
    norm_num
  have hR : rowResid .logisticLogit coinRaw true f.result 3 = 1 / 2 := by
    unfold rowResid
    rw [hmean, hy.2]; norm_num
  have hsq : Real.sqrt (1 / 4) = 1 / 2 := by
    rw [show (1 / 4 : ℝ) = (1 / 2) ^ 2 by norm_num, Real.sqrt_sq (by norm_num)]
  refine ⟨fun j k => ?_, ?_, ?_⟩
  · have := (k1 _ hd0 j k).2
    rw [coin_info (by rw [h0.2]; norm_num) (fun j => (hβ j).2), hm0] at this
    rw [show (1 : ℝ) = 4 * (1 / 2 * (1 - 1 / 2)) by norm_num]
    exact this.trans (by norm_num)
  · have hα : ∀ j : Fin (ncols true 0), ((fun _ => num ((1 : ℝ) : EReal) : Vec (Fl binary64) (ncols true 0)) j).isFinite ∧
        real ((fun _ => num ((1 : ℝ) : EReal) : Vec (Fl binary64) (ncols true 0)) j) = 1 := fun j => real_num _
    have hsh : ∀ j, shiftAt f.result (fun _ => num ((1 : ℝ) : EReal)) j = -1 := fun j => by
      unfold shiftAt
      rw [(hβ j).2, (hα j).2]; norm_num
    have hs : PlainShift (fun _ => SumOrder.left) 1 8 f.result (fun _ => num ((1 : ℝ) : EReal)) :=
      { finite := fun j => ⟨(hβ j).1, (hα j).1⟩
        shift := fun j => by rw [hsh]; norm_num
        cols := by simp [ncols]
        cols_le := by simp [ncols]
        depth := fun j => (C86_left 1).1.trans (by norm_num)
        ops := fun j => (C86_left 1).2.le.trans (by norm_num)
        dotDepth := (C86_left 1).1.trans (by norm_num)
        dotOps := (C86_left 1).2.le.trans (by norm_num)
        shift_ge := zpow_le_one_of_nonpos₀ (by norm_num) (by norm_num)
        shift_le := one_le_zpow₀ (by norm_num) (by norm_num) }
    have := (k2 _ 1 (coin_design (a := 1) (by norm_num) hα) hs).2
    have hw : exactWald .logisticLogit coinRaw true (real (0 : Fl binary64)) f.result
        (fun _ => num ((1 : ℝ) : EReal)) = 4 * Real.exp 1 / (1 + Real.exp 1) ^ 2 := by
      unfold exactWald
      simp only [hsh, coin_info (a := 1) (l := real (0 : Fl binary64)) (by rw [h0.2]; norm_num)
        (fun j => (hα j).2), hm1]
      simp [ncols]
      ring
    rw [hw] at this
    refine this.trans ?_
    simp [ncols]
    norm_num
  · obtain ⟨⟨-, l1⟩, l2⟩ := k3 hd0 3 hy.1 (by rw [hy.2]; norm_num) hy.2.le
    obtain ⟨⟨-, l2⟩, -, l3⟩ := l2 (1 / 4) hV.symm (by norm_num) (by
      calc (2 : ℝ) ^ (-500 : ℤ) ≤ 2 ^ (-2 : ℤ) := zpow_le_zpow_right₀ (by norm_num) (by norm_num)
        _ = 1 / 4 := by norm_num)
    rw [hR] at l1
    have hP : exactPearson .logisticLogit coinRaw true f.result 3 = 1 := by
      unfold exactPearson
      rw [hR, hV, hsq]
      have : varWt (exactData coinRaw) 3 = 1 := by simp [varWt, exactData, coinRaw]
      rw [this]; norm_num
    have hW : exactWorking .logisticLogit coinRaw true f.result 3 = 2 := by
      unfold exactWorking
      rw [hR, hV]
      change (1 / 2 : ℝ) / (1 * (1 / 4)) = 2
      norm_num
    rw [hP, hsq] at l2
    rw [hW] at l3
    exact ⟨l1.trans (by norm_num), l2.trans (by norm_num), l3.trans (by norm_num)⟩

end GLM
