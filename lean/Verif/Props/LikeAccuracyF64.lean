/-
  C95 for logistic regression in `f64`, with the error bound written out.
-/
import Verif.Props.LikeAccuracy

namespace GLM
open Spec Scalar Fl

/-- The parts of the log-likelihood of a logistic regression. -/
theorem logit_size {y η : ℝ} (h0 : 0 ≤ y) (h1 : y ≤ 1) :
    |y * η - Real.log (1 + Real.exp η)| ≤ |η| + 1 := by
  have hz : Real.log (1 + Real.exp 0) ≤ 1 := by
    rw [Real.exp_zero]
    have := Real.log_le_sub_one_of_pos (show (0 : ℝ) < 1 + 1 by norm_num)
    linarith
  have hz0 : 0 ≤ Real.log (1 + Real.exp 0) := Real.log_nonneg (by linarith [Real.exp_pos 0])
  rcases le_total 0 η with h | h
  · obtain ⟨a, c⟩ := softplus_move h
    rw [abs_of_nonneg h]
    have e1 : 0 ≤ y * η := mul_nonneg h0 h
    have e2 : y * η ≤ η := mul_le_of_le_one_left h h1
    exact abs_le.mpr ⟨by linarith, by linarith⟩
  · obtain ⟨a, c⟩ := softplus_move h
    have hp : 0 ≤ Real.log (1 + Real.exp η) := Real.log_nonneg (by linarith [Real.exp_pos η])
    rw [abs_of_nonpos h]
    have e1 : y * η ≤ 0 := mul_nonpos_of_nonneg_of_nonpos h0 h
    have e2 : η ≤ y * η := by nlinarith
    exact abs_le.mpr ⟨by linarith, by linarith⟩

/-- The numbers behind `C95_logistic_f64`: `u` is the relative error, `ε` twice as much. -/
theorem logit_row_error {u ε t B η d L : ℝ} (hu0 : 0 ≤ u) (hu : 2 * u = ε) (hε : ε ≤ 1 / 2 ^ 50)
    (ht0 : 0 ≤ t) (ht : t ≤ ε / 100) (hB0 : 0 ≤ B) (hB : B ≤ d * ε * (L - 1) + ε / 100) (hd0 : 0 ≤ d)
    (hd : d * ε ≤ 1 / 2 ^ 10) (hL : |η| + 1 ≤ L) :
    B ≤ L ∧ B + ((1 + u) ^ 5 - 1) * (|η| + 1 + B) + (6 + 2 * (|η| + B)) * t ≤ (d + 7) * ε * L := by
  have hη := abs_nonneg η
  have hε0 : 0 ≤ ε := by linarith
  have hd1 : d * ε * (L - 1) ≤ 1 / 2 ^ 10 * (L - 1) := mul_le_mul_of_nonneg_right hd (by linarith)
  have hBL : B ≤ L := by
    have : ε / 100 ≤ 1 := by norm_num at hε ⊢; linarith
    norm_num at hd1
    linarith
  refine ⟨hBL, ?_⟩
  have hp1 : 1 ≤ (1 + u) ^ 5 := one_le_pow₀ (by linarith)
  have hp5 : (1 + u) ^ 5 - 1 ≤ 3 * ε := by
    have e1 : (1 + u) ^ 5 = 1 + 5 * u + u * (10 * u + 10 * u ^ 2 + 5 * u ^ 3 + u ^ 4) := by ring
    have hu1 : u ≤ 1 / 1000 := by norm_num at hε; linarith
    have h2 : u ^ 2 ≤ u := by nlinarith
    have h3 : u ^ 3 ≤ u := by nlinarith [mul_nonneg hu0 hu0]
    have h4 : u ^ 4 ≤ u := by nlinarith [mul_nonneg hu0 hu0, mul_nonneg (mul_nonneg hu0 hu0) hu0]
    have : 10 * u + 10 * u ^ 2 + 5 * u ^ 3 + u ^ 4 ≤ 1 := by linarith
    have := mul_le_mul_of_nonneg_left this hu0
    linarith
  have g1 : ((1 + u) ^ 5 - 1) * (|η| + 1 + B) ≤ 3 * ε * (2 * L) :=
    mul_le_mul hp5 (by linarith) (by linarith) (by linarith)
  have g2 : (6 + 2 * (|η| + B)) * t ≤ (10 * L) * (ε / 100) :=
    mul_le_mul (by linarith) ht ht0 (by linarith)
  have g3 : 0 ≤ d * ε := mul_nonneg hd0 hε0
  have g4 : ε ≤ ε * L := le_mul_of_one_le_right hε0 (by linarith)
  nlinarith

theorem weight_row_error {u ε t l E d L : ℝ} (hu0 : 0 ≤ u) (hu : 2 * u = ε) (hε : ε ≤ 1 / 2 ^ 50)
    (ht0 : 0 ≤ t) (ht : t ≤ ε / 100) (hl : |l| ≤ L) (hE0 : 0 ≤ E) (hE : E ≤ (d + 7) * ε * L)
    (hd : d * ε ≤ 1 / 2 ^ 10) (hL : 1 ≤ L) :
    ((1 + u) ^ 2 - 1) * |l| + (1 + u) ^ 2 * E + ((1 + u) + 1) * t ≤ (d + 9) * ε * L := by
  have hε0 : 0 ≤ ε := by linarith
  have hl0 := abs_nonneg l
  have hu1 : u ≤ 1 / 1000 := by norm_num at hε; linarith
  have huu : u * u ≤ u / 1000 := by nlinarith
  have g1 : ((1 + u) ^ 2 - 1) * |l| ≤ 11 / 10 * ε * L := by
    refine mul_le_mul ?_ hl hl0 (by linarith)
    nlinarith
  have g2 : (1 + u) ^ 2 * E ≤ E + 2 * ε * E := by
    have : (1 + u) ^ 2 ≤ 1 + 2 * ε := by nlinarith
    nlinarith
  have hE1 : E ≤ L / 100 := by
    have e1 : (d + 7) * ε ≤ 1 / 100 := by norm_num at hε hd ⊢; nlinarith
    have := mul_le_mul_of_nonneg_right e1 (show 0 ≤ L by linarith)
    linarith
  have g3 : 2 * ε * E ≤ 2 * ε * (L / 100) := mul_le_mul_of_nonneg_left hE1 (by linarith)
  have g4 : ((1 + u) + 1) * t ≤ 3 * (ε / 100) := mul_le_mul (by linarith) ht ht0 (by norm_num)
  have g5 : ε ≤ ε * L := le_mul_of_one_le_right hε0 hL
  nlinarith

section
variable {fmt : FloatFormat} {n p : ℕ} {b : Bool}

theorem predSize_nonneg' {x : Mat (Fl fmt) n p} {off : Option (Vec (Fl fmt) n)}
    {β : Vec (Fl fmt) (ncols b p)} {i : Fin n} : 0 ≤ predSize b x off β i :=
  add_nonneg (Finset.sum_nonneg fun _ _ => abs_nonneg _) (abs_nonneg _)

/-- The error bound of `C95_logistic_f64` for any format. -/
theorem logistic_bound {u t big ε τ M : ℝ} (acc : AccurateLogs fmt u t big) (h2u : 2 * u = ε)
    (hε50 : ε ≤ 1 / 2 ^ 50) (htε : t ≤ ε / 100) (hτε : τ ≤ ε / 100) (hM : 1 ≤ M) (hbig' : 100 * M ≤ big)
    (hsumE : ∀ {d k : ℕ} {S : ℝ}, d ≤ 2 ^ 50 → k ≤ 2 ^ 50 → 0 ≤ S → sumError u t d k S ≤ d * ε * S + τ)
    {raw : Dataset (Fl fmt) n p false} {data : Dataset (Fl fmt) n p b}
    (hd : raw.finalize false b = some data) (hw : raw.weights = none) (hf : raw.freqs = none)
    {β : Vec (Fl fmt) (ncols b p)}
    (hy : ∀ i, (raw.y i).isFinite ∧ 0 ≤ real (raw.y i) ∧ real (raw.y i) ≤ 1)
    (hx : ∀ i j, (raw.x i j).isFinite) (hβ : ∀ j, (β j).isFinite)
    (ho : ∀ o, raw.linearOffset = some o → ∀ i, (o i).isFinite) {S : ℝ} {d k : ℕ}
    (hS : ∀ i, predSize b raw.x raw.linearOffset β i ≤ S)
    (hdd : ∀ i, predDepth fmt b n p raw.linearOffset i ≤ d)
    (hops : ∀ i, predOps fmt b n p raw.linearOffset i ≤ 2 ^ 50)
    (hkk : (fmt.order .sum n).tree.depth 0 ≤ k) (hkops : (fmt.order .sum n).tree.ops 0 ≤ 2 ^ 50)
    (hdε : (d : ℝ) * ε ≤ 1 / 2 ^ 10) (hkε : (k : ℝ) * ε ≤ 1 / 2 ^ 10) (hbig : (n + 1) * (S + 1) ≤ M) :
    (Family.logisticLogit.glm.logLike data β).isFinite ∧
      |real (Family.logisticLogit.glm.logLike data β)
          - logLik Family.logisticLogit.glm (exactData raw) b (fun j => real (β j))| ≤
        n * (S + 1) * (d + 2 * k + 10) * ε + τ := by
  have hu0 := acc.u_nonneg
  have ht0 := acc.tiny_nonneg
  have hε0 : 0 ≤ ε := by linarith
  have hε3 : ε ≤ 1 / 1000 := hε50.trans (by norm_num)
  have hdε3 : (d : ℝ) * ε ≤ 1 / 1000 := hdε.trans (by norm_num)
  have hkε3 : (k : ℝ) * ε ≤ 1 / 1000 := hkε.trans (by norm_num)
  have hd0 : (0 : ℝ) ≤ d := Nat.cast_nonneg d
  have hk0 : (0 : ℝ) ≤ k := Nat.cast_nonneg k
  have hn0 : (0 : ℝ) ≤ n := Nat.cast_nonneg n
  -- one row
  have hrow : ∀ i, 0 ≤ S ∧ |exactPred b raw.x raw.linearOffset β i| + 1 ≤ S + 1 ∧
      0 ≤ predError u t b raw.x raw.linearOffset β i ∧
      predError u t b raw.x raw.linearOffset β i ≤ d * ε * (S + 1 - 1) + ε / 100 := by
    intro i
    have hs0 := predSize_nonneg' (b := b) (x := raw.x) (off := raw.linearOffset) (β := β) (i := i)
    have hS0 := hs0.trans (hS i)
    refine ⟨hS0, ?_, sumError_nonneg hu0 ht0 hs0, ?_⟩
    · have : |exactPred b raw.x raw.linearOffset β i| ≤ predSize b raw.x raw.linearOffset β i :=
        (abs_add_le _ _).trans (add_le_add_left (Finset.abs_sum_le_sum_abs _ _) _)
      linarith [hS i]
    · have h1 := hsumE (predDepth_le.trans (hops i)) (hops i) hs0
      have h2 : (predDepth fmt b n p raw.linearOffset i : ℝ) ≤ d := by
        exact_mod_cast hdd i
      have h3 : (predDepth fmt b n p raw.linearOffset i : ℝ) * ε
          * predSize b raw.x raw.linearOffset β i ≤ d * ε * S :=
        mul_le_mul (mul_le_mul_of_nonneg_right h2 hε0) (hS i) hs0 (by positivity)
      rw [add_sub_cancel_right]
      exact le_trans (show predError u t b raw.x raw.linearOffset β i ≤ _ from h1) (add_le_add h3 hτε)
  set L := S + 1 with hL
  have hT : ∀ i, predError u t b raw.x raw.linearOffset β i ≤ L ∧
      rowTermError u t .logisticLogit raw b β i ≤ (d + 7) * ε * L ∧
      0 ≤ rowTermError u t .logisticLogit raw b β i := by
    intro i
    obtain ⟨-, r1, r2, r3⟩ := hrow i
    obtain ⟨a1, a2⟩ := logit_row_error hu0 h2u hε50 ht0 htε r2 r3 hd0 hdε r1
    refine ⟨a1, a2, ?_⟩
    change 0 ≤ predError u t b raw.x raw.linearOffset β i + ((1 + u) ^ 5 - 1)
      * (|exactPred b raw.x raw.linearOffset β i| + 1 + predError u t b raw.x raw.linearOffset β i)
      + (6 + 2 * (|exactPred b raw.x raw.linearOffset β i|
        + predError u t b raw.x raw.linearOffset β i)) * t
    have : 0 ≤ (1 + u) ^ 5 - 1 := by
      have : 1 ≤ (1 + u) ^ 5 := one_le_pow₀ (by linarith)
      linarith
    positivity
  have hwt : ∀ i, varWt (exactData raw) i = 1 := fun i => by
    simp only [varWt, exactData, hw, Option.map_none]
  have hfq : ∀ i, freq (exactData raw) i = 1 := fun i => by
    simp only [freq, exactData, hf, Option.map_none]
  have htw : ∀ i, totalWt (exactData raw) i = 1 := fun i => by rw [totalWt, hwt, hfq, one_mul]
  have hlik : ∀ i, |rowLik .logisticLogit raw b β i| ≤ L := fun i =>
    (logit_size (hy i).2.1 (hy i).2.2).trans (hrow i).2.1
  have hE : ∀ i, rowError u t .logisticLogit raw b β i ≤ (d + 9) * ε * L ∧
      0 ≤ rowError u t .logisticLogit raw b β i := by
    intro i
    have hL1 : 1 ≤ L := by linarith [(hrow i).1]
    unfold rowError
    rw [htw, hfq, abs_one, mul_one, mul_one, one_mul]
    refine ⟨weight_row_error hu0 h2u hε50 ht0 htε (hlik i) (hT i).2.2 (hT i).2.1 hdε hL1, ?_⟩
    have := (hT i).2.2
    have : 0 ≤ (1 + u) ^ 2 - 1 := by nlinarith
    positivity
  -- all rows
  have hsum : ∑ i, rowError u t .logisticLogit raw b β i ≤ n * ((d + 9) * ε * L) := by
    refine (Finset.sum_le_card_nsmul _ _ _ fun i _ => (hE i).1).trans (le_of_eq ?_)
    rw [Finset.card_univ, Fintype.card_fin, nsmul_eq_mul]
  have hsum0 : 0 ≤ ∑ i, rowError u t .logisticLogit raw b β i := Finset.sum_nonneg fun i _ => (hE i).2
  have hsz : dataLikSize .logisticLogit raw b β ≤ n * L := by
    unfold dataLikSize
    refine (Finset.sum_le_card_nsmul _ _ L fun i _ => ?_).trans (le_of_eq ?_)
    · rw [htw, one_mul]; exact hlik i
    · rw [Finset.card_univ, Fintype.card_fin, nsmul_eq_mul]
  have hsz0 : 0 ≤ dataLikSize .logisticLogit raw b β := Finset.sum_nonneg fun i _ => abs_nonneg _
  have hnL : 0 ≤ n * L := hsz0.trans hsz
  have hsumL : ∑ i, rowError u t .logisticLogit raw b β i ≤ n * L := by
    have : (d + 9) * ε ≤ 1 := by rw [add_mul]; linarith
    calc _ ≤ n * ((d + 9) * ε * L) := hsum
      _ = ((d + 9) * ε) * (n * L) := by ring
      _ ≤ 1 * (n * L) := mul_le_mul_of_nonneg_right this hnL
      _ = n * L := one_mul _
  have htot : dataLikError u t .logisticLogit raw b β ≤ n * L * (d + 2 * k + 10) * ε + τ := by
    unfold dataLikError totalError
    have h1 := hsumE ((SumTree.depth_le_ops 0 _).trans hkops) hkops
      (add_nonneg hsz0 hsum0)
    have h2 : ((fmt.order .sum n).tree.depth 0 : ℝ) ≤ k := by exact_mod_cast hkk
    have h3 : ((fmt.order .sum n).tree.depth 0 : ℝ) * ε * (dataLikSize .logisticLogit raw b β
        + ∑ i, rowError u t .logisticLogit raw b β i) ≤ k * ε * (2 * (n * L)) :=
      mul_le_mul (mul_le_mul_of_nonneg_right h2 hε0) (by linarith) (by positivity) (by positivity)
    have h4 : 0 ≤ n * L * ε := mul_nonneg hnL hε0
    change _ + sumError u t ((fmt.order .sum n).tree.depth 0) ((fmt.order .sum n).tree.ops 0) _ ≤ _
    nlinarith
  have hfit : LikFits u t big .logisticLogit raw b β := by
    refine ⟨fun i => (hy i).1, fun w hw' => ?_, fun f hf' => ?_, fun i => ?_, fun _ => trivial, fun i => ?_,
      fun i => ?_, ?_⟩
    · rw [hw] at hw'; cases hw'
    · rw [hf] at hf'; cases hf'
    all_goals
      first
        | (obtain ⟨r0, r1, r2, r3⟩ := hrow i
           have hL1 : 1 ≤ L := by linarith
           have hLb : L ≤ M := by nlinarith
           obtain ⟨t1, t2, t3⟩ := hT i
           have hTL : rowTermError u t .logisticLogit raw b β i ≤ L := by
             have : (d + 7) * ε ≤ 1 := by rw [add_mul]; linarith
             have := mul_le_mul_of_nonneg_right this (show 0 ≤ L by linarith)
             linarith)
        | skip
    · refine ⟨hx i, hβ, fun o h => ho o h i, ?_⟩
      linarith [hS i]
    · refine ⟨?_, ?_, (hy i).2⟩
      · change |exactPred b raw.x raw.linearOffset β i| + predError u t b raw.x raw.linearOffset β i < big
        linarith
      · change (|exactPred b raw.x raw.linearOffset β i| + 1) + rowTermError u t .logisticLogit raw b β i < big
        linarith
    · rw [hwt, abs_one, one_mul]
      linarith [hlik i]
    · have hnb : n * L ≤ M := by
        rcases Nat.eq_zero_or_pos n with h | h
        · rw [h, Nat.cast_zero, zero_mul]; linarith
        · linarith [(hrow ⟨0, h⟩).1]
      have h2 : (d + 2 * k + 10) * ε ≤ 1 := by rw [add_mul, add_mul, mul_assoc]; linarith
      have h3 := mul_le_mul_of_nonneg_left h2 hnL
      have h4 : τ ≤ 1 := by linarith
      rw [mul_one, ← mul_assoc] at h3
      linarith
  obtain ⟨c1, c2⟩ := C95_likelihood acc .logisticLogit hd hfit
  exact ⟨c1, c2.trans htot⟩

end

/-- **C95** for a logistic regression in `f64` without weights, with any order of summation.  The
responses lie between zero and one, the absolute values of the terms of each linear predictor add up to
at most `S` and go through at most `d` roundings, the log-likelihoods of the observations go through at
most `k` roundings when they are added up, and nothing is excessively large.  Then the computed
log-likelihood is within `n (S + 1) (d + 2 k + 10) 2^-52 + 2^-1000` of the exact one. -/
theorem C95_logistic_f64 {order : SumSite → (n : ℕ) → SumOrder n} {n p : ℕ} {b : Bool}
    {raw : Dataset (Fl (binary64 order)) n p false}
    {data : Dataset (Fl (binary64 order)) n p b} (hd : raw.finalize false b = some data)
    (hw : raw.weights = none) (hf : raw.freqs = none) {β : Vec (Fl (binary64 order)) (ncols b p)}
    (hy : ∀ i, (raw.y i).isFinite ∧ 0 ≤ real (raw.y i) ∧ real (raw.y i) ≤ 1)
    (hx : ∀ i j, (raw.x i j).isFinite) (hβ : ∀ j, (β j).isFinite)
    (ho : ∀ o, raw.linearOffset = some o → ∀ i, (o i).isFinite) {S : ℝ} {d k : ℕ}
    (hS : ∀ i, predSize b raw.x raw.linearOffset β i ≤ S)
    (hdd : ∀ i, predDepth (binary64 order) b n p raw.linearOffset i ≤ d) (hd40 : d ≤ 2 ^ 40)
    (hops : ∀ i, predOps (binary64 order) b n p raw.linearOffset i ≤ 2 ^ 50)
    (hkk : (order .sum n).tree.depth 0 ≤ k) (hk40 : k ≤ 2 ^ 40)
    (hkops : (order .sum n).tree.ops 0 ≤ 2 ^ 50) (hbig : (n + 1) * (S + 1) ≤ 2 ^ (1000 : ℤ)) :
    (Family.logisticLogit.glm.logLike data β).isFinite ∧
      |real (Family.logisticLogit.glm.logLike data β)
          - logLik Family.logisticLogit.glm (exactData raw) b (fun j => real (β j))| ≤
        n * (S + 1) * (d + 2 * k + 10) * 2 ^ (-52 : ℤ) + 2 ^ (-1000 : ℤ) := by
  have h60 : (2 : ℝ) ^ (-60 : ℤ) ≤ 2 ^ (-52 : ℤ) / 100 := by norm_num
  have hM : 100 * (2 : ℝ) ^ (1000 : ℤ) ≤ 2 ^ (1023 : ℤ) := by
    have : (2 : ℝ) ^ (1023 : ℤ) = 2 ^ (23 : ℤ) * 2 ^ (1000 : ℤ) := by
      rw [← zpow_add₀ (by norm_num)]; norm_num
    rw [this]
    exact mul_le_mul_of_nonneg_right (by norm_num) (by positivity)
  have h40 : ∀ {m : ℕ}, m ≤ 2 ^ 40 → (m : ℝ) * 2 ^ (-52 : ℤ) ≤ 1 / 2 ^ 10 := by
    intro m hm
    have : (m : ℝ) ≤ 2 ^ 40 := by exact_mod_cast hm
    exact (mul_le_mul_of_nonneg_right this (by positivity)).trans (by norm_num)
  exact logistic_bound (accurateLogs_binary64 order) (by norm_num) (by norm_num)
    (le_trans (zpow_le_zpow_right₀ (by norm_num) (by norm_num)) h60)
    (le_trans (zpow_le_zpow_right₀ (by norm_num) (by norm_num)) h60)
    (one_le_zpow₀ (by norm_num) (by norm_num)) hM (fun h1 h2 h3 => sumError_f64 h1 h2 h3)
    hd hw hf hy hx hβ ho hS hdd hops hkk hkops (h40 hd40) (h40 hk40) hbig

/-- The observation of `oneRaw` without weights. -/
noncomputable def plainRaw : Dataset (Fl binary64) 1 0 false :=
  { oneRaw with weights := none, freqs := none }

/-- A case that meets the hypotheses: one observation with the response `1`, and an intercept `1`.  The
log-likelihood in `f64` is within `2^-47` of `1 - ln(1 + e)`. -/
theorem C95_logistic_example : ∃ data, plainRaw.finalize false true = some data ∧
    |real (Family.logisticLogit.glm.logLike data fun _ => num ((1 : ℝ) : EReal))
        - (1 - Real.log (1 + Real.exp 1))| ≤ 2 ^ (-47 : ℤ) := by
  obtain ⟨data, hd⟩ : ∃ data, plainRaw.finalize false true = some data := ⟨_, rfl⟩
  refine ⟨data, hd, ?_⟩
  obtain ⟨q1, -, q3⟩ := oneRaw_sizes (u := 0) (tiny := 0) (a := 1) (by norm_num)
    (β := fun _ => num ((1 : ℝ) : EReal)) rfl
  have h1 : real (1 : Fl binary64) = 1 := real_one.2
  have h := (C95_logistic_f64 (order := fun _ => SumOrder.left) hd rfl rfl
    (β := fun _ => num ((1 : ℝ) : EReal)) (S := 1) (d := 2) (k := 1)
    (fun _ => ⟨real_one.1, by
      change 0 ≤ real (1 : Fl binary64) ∧ real (1 : Fl binary64) ≤ 1
      rw [h1]; norm_num⟩)
    (fun _ j => j.elim0) (fun _ => (real_num 1).1) (fun o ho => (by cases ho))
    (fun i => by rw [Subsingleton.elim i 0]; exact q3.le) (fun i => by rw [Subsingleton.elim i 0]; exact le_rfl)
    (by norm_num) (fun i => by rw [Subsingleton.elim i 0]; exact (by norm_num : 2 ≤ 2 ^ 50)) le_rfl
    (by norm_num) (by exact (by norm_num : 1 ≤ 2 ^ 50)) (by
      have : (2 : ℝ) ^ (2 : ℤ) ≤ 2 ^ (1000 : ℤ) := zpow_le_zpow_right₀ (by norm_num) (by norm_num)
      exact le_trans (by norm_num) this)).2
  have hex : logLik Family.logisticLogit.glm (exactData plainRaw) true
      (fun _ => real (num ((1 : ℝ) : EReal) : Fl binary64)) = 1 - Real.log (1 + Real.exp 1) := by
    rw [exact_logLik (β := fun _ => num ((1 : ℝ) : EReal))]
    rw [Fin.sum_univ_one]
    have hw : totalWt (exactData plainRaw) 0 = 1 := by
      change (1 : ℝ) * 1 = 1
      norm_num
    have hn : exactNat .logisticLogit plainRaw true (fun _ => num ((1 : ℝ) : EReal)) 0 = 1 := q1
    unfold rowLik
    rw [hw, hn, one_mul]
    change real (1 : Fl binary64) * 1 - Real.log (1 + Real.exp 1) = _
    rw [h1, one_mul]
  rw [hex] at h
  refine h.trans ?_
  have e2 : (2 : ℝ) ^ (-1000 : ℤ) ≤ 2 ^ (-60 : ℤ) := zpow_le_zpow_right₀ (by norm_num) (by norm_num)
  refine le_trans (add_le_add_right e2 _) ?_
  norm_num

end GLM
