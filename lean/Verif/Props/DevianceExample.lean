/-
  C99 in simple terms, for fits, and examples.
-/
import Verif.Props.DevianceModerate

namespace GLM
open Spec Scalar Fl

section
variable {fmt : FloatFormat} {n p : ℕ} {b : Bool} {u tiny big M : ℝ} {D : ℕ}
  {raw : Dataset (Fl fmt) n p false} {data : Dataset (Fl fmt) n p b}
  {env : Env (Fl fmt)} {options : FitOptions (Fl fmt) (ncols b p)} {f : Fit (Fl fmt) n p b}

/-- The exact contribution of an observation to the deviance of a linear regression. -/
theorem linear_devTerm (hp : Plain u tiny big D raw) (β : Vec (Fl fmt) (ncols b p)) (i : Fin n) :
    devTerm .linear raw b β i = (real (raw.y i) - exactPred b raw.x raw.linearOffset β i) ^ 2 := by
  unfold devTerm
  rw [(hp.wt i).2.1, one_mul]
  have h1 : satTerm .linear (real (raw.y i)) = 1 / 2 * real (raw.y i) * real (raw.y i) := by
    change half * real (raw.y i) * real (raw.y i) = _
    rw [half_real]
  have h2 : rowLik .linear raw b β i = real (raw.y i) * exactPred b raw.x raw.linearOffset β i
      - exactPred b raw.x raw.linearOffset β i ^ 2 / 2 := rfl
  rw [h1, h2]; ring

/-- **C99** (simple terms).  Linear regression without weights and frequencies, on data of size at most
`M`; `D` counts the roundings of a sum.  Whatever the linear-algebra library returned, the deviance, the
Akaike criterion and the dispersion are within a few multiples of `D u` of the exact values at the reported
coefficients, and a deviance residual is close to the exact residual `r`, unless `r` is tiny. -/
theorem C99_moderate (acc : AccurateLogs fmt u tiny big) (hd : raw.finalize false b = some data)
    (h : regression env Family.linear.glm data options = .ok f) (hp : Plain u tiny big D raw)
    (hm : ModerateFit u tiny big M D raw b f.result) :
    (f.deviance.isFinite ∧
      |real f.deviance - devianceOf Family.linear.glm (exactData raw) b fun j => real (f.result j)|
        ≤ 72 * (n * (D * u * M ^ 2))) ∧
    (ncols b p ≤ n → f.aic.isFinite ∧
      |real f.aic - (devianceOf Family.linear.glm (exactData raw) b (fun j => real (f.result j))
          + 2 * ncols b p)| ≤ 94 * (n * (D * u * (M ^ 2 + 1)))) ∧
    (ncols b p < n → n ≤ D → f.dispersion.isFinite ∧
      |real f.dispersion - devianceOf Family.linear.glm (exactData raw) b (fun j => real (f.result j))
          / (n - ncols b p)| ≤ 135 * (n * (D * u * M ^ 2) / (n - ncols b p))) ∧
    (∀ i r, r = real (raw.y i) - exactPred b raw.x raw.linearOffset f.result i →
      60 * (D * u * M ^ 2) < r ^ 2 → (f.residDev i).isFinite ∧
      |real (f.residDev i) - r| ≤ 72 * (D * u * M ^ 2 / |r|)) := by
  have a := acc.toAccurate
  obtain ⟨d1, d2, d3, d4, d5⟩ := hm.devFits hp a
  obtain ⟨hg, hd', hr⟩ := plain_setting hd h
  refine ⟨?_, fun hk => ?_, fun hk hD => ?_, fun i r hri hlt => ?_⟩
  · obtain ⟨h1, h2⟩ := C99_deviance acc hd h d1
    exact ⟨h1, h2.trans d2⟩
  · obtain ⟨e1, e2, e3⟩ := hm.aicFits hp a hk
    obtain ⟨h1, h2⟩ := C99_aic acc hd h e1
    rw [e3] at h2
    exact ⟨h1, h2.trans e2⟩
  · obtain ⟨e1, e2, e3⟩ := hm.dispFits hp a hD hk
    obtain ⟨h1, h2⟩ := C99_dispersion acc hd h rfl e1
    rw [e3] at h2
    exact ⟨h1, h2.trans e2⟩
  · obtain ⟨hM, r1, r2, r3⟩ := hm.row hp a i
    obtain ⟨t1, t2⟩ := d5 i
    have hu := a.u_nonneg
    have ht := a.tiny_nonneg
    have huq := hp.u_le hu
    have hq0 : 0 ≤ (D : ℝ) * u := hu.trans huq
    have hdt := linear_devTerm hp f.result i
    rw [← hri] at hdt
    have hy := (hm.y i).2
    have hrM : |r| ≤ 2 * M := by
      rw [hri]; exact (abs_sub _ _).trans (by linarith)
    have hr0 : 0 < |r| := by
      rw [abs_pos]; rintro rfl
      have : 0 ≤ 60 * ((D : ℝ) * u * M ^ 2) := by positivity
      rw [zero_pow (by norm_num)] at hlt
      linarith
    -- the response residual
    have hpred : Approx (computedPred b raw.x raw.linearOffset f.result i)
        (exactPred b raw.x raw.linearOffset f.result i)
        (predError u tiny b raw.x raw.linearOffset f.result i) := by
      obtain ⟨h1, h2⟩ := computedPred_near a (d1.like.2.2.2.1 i)
      exact ⟨h1, h2⟩
    have hbM : 20 * M < big := by
      have := hm.big_sq
      have := hp.one_le
      nlinarith [sq_nonneg (M - 1)]
    have hqM : D * u * M ≤ 1 / 1000 * M := mul_le_mul_of_nonneg_right hp.small hM
    have hres : Approx (raw.y i - computedPred b raw.x raw.linearOffset f.result i) r
        (afterRounding u tiny (0 + predError u tiny b raw.x raw.linearOffset f.result i) r) := by
      rw [hri]
      refine (Approx.self (hm.y i).1).sub a hpred ?_
      rw [← hri]
      linarith
    have heq : f.residResp i = raw.y i - computedPred b raw.x raw.linearOffset f.result i := by
      have e1 : f.data = { f.data with standardizer := none } := by
        obtain ⟨-, rfl, -, -⟩ := regression_coherent h
        have := finalize_plain hd
        rw [this]
      have e2 := finalize_plain hd'
      rw [← e1] at e2
      have hl : f.data.linearPredictorStd f.resultStd i
          = computedPred b raw.x raw.linearOffset f.result i := by
        rw [hr, e2]
        unfold Dataset.linearPredictorStd computedPred
        cases raw.linearOffset <;> rfl
      obtain ⟨-, -, -, hc⟩ := regression_coherent h
      have hyh : f.yHat i = computedPred b raw.x raw.linearOffset f.result i := by
        rw [hc.yHat, hc.xLinPred, hg]
        exact hl
      change f.data.y i - f.yHat i = _
      rw [hyh, e2]
    have herr : afterRounding u tiny (0 + predError u tiny b raw.x raw.linearOffset f.result i) r < |r| := by
      have h1 : afterRounding u tiny (0 + predError u tiny b raw.x raw.linearOffset f.result i) r
          ≤ 5 * (D * u * M) :=
        afterRounding_scaled hu huq hp.small hM
          (by have := mul_le_mul_of_nonneg_right huq hM
              have := hm.tiny_third
              linarith) (c := 7 / 5) (m := 2) (by norm_num) (by linarith) hrM (by norm_num)
      refine lt_of_le_of_lt h1 ?_
      refine lt_of_pow_lt_pow_left₀ 2 hr0.le ?_
      rw [sq_abs]
      refine lt_of_le_of_lt ?_ hlt
      have : D * u * (D * u * M ^ 2) ≤ 1 / 1000 * (D * u * M ^ 2) :=
        mul_le_mul_of_nonneg_right hp.small (by positivity)
      have : 0 ≤ (D : ℝ) * u * M ^ 2 := by positivity
      nlinarith
    have hnan : ¬ (f.residResp i).isNaN := by rw [heq]; exact hres.fin.1
    have hsq : Real.sqrt (devTerm .linear raw b f.result i) = |r| := by rw [hdt, Real.sqrt_sq_eq_abs]
    set s : ℝ := M ^ 2 / |r| with hs
    have hs0 : 0 ≤ s := by positivity
    have hrs : |r| ≤ 4 * s := by
      rw [hs, mul_div_assoc', le_div_iff₀ hr0]; nlinarith
    have hMs : M ≤ 2 * s := by
      rw [hs, mul_div_assoc', le_div_iff₀ hr0]; nlinarith
    have hts : tiny ≤ D * u * s := by
      have h1 := hm.tiny_third
      have h2 := mul_le_mul huq hMs hM hq0
      linarith
    have hes : devTermError u tiny .linear raw b f.result i / |r| ≤ 60 * (D * u * s) := by
      rw [div_le_iff₀ hr0]
      have : 60 * (D * u * s) * |r| = 60 * (D * u * M ^ 2) := by
        rw [hs]; field_simp
      rw [this]; exact t1
    have k1 : afterRounding u tiny (devTermError u tiny .linear raw b f.result i / |r|) |r| ≤ 66 * (D * u * s) :=
      afterRounding_scaled hu huq hp.small hs0 hts (c := 60) (m := 4) (by norm_num) hes (by rw [abs_abs]; exact hrs)
        (by norm_num)
    have k2 : residDevError u tiny (devTermError u tiny .linear raw b f.result i)
        (devTerm .linear raw b f.result i) ≤ 72 * (D * u * s) := by
      unfold residDevError
      rw [hsq]
      exact afterRounding_scaled hu huq hp.small hs0 hts (c := 66) (m := 4) (by norm_num) k1
        (by rw [abs_abs]; exact hrs) (by norm_num)
    have hsmall : 60 * (D * u * s) ≤ |r| := by
      have h1 : D * u * s * |r| = D * u * M ^ 2 := by rw [hs]; field_simp
      rw [← mul_le_mul_iff_left₀ hr0]
      have : |r| * |r| = r ^ 2 := by rw [← sq, sq_abs]
      linarith
    obtain ⟨f1, σ, f2, f3, f4, f5⟩ := C99_residual acc hd h d1.like (d1.terms i) hnan
      (by rw [hdt]; linarith) (by rw [hsq]; linarith)
    have hval : (f.residResp i).val = (real (f.residResp i) : EReal) := val_real (by rw [heq]; exact hres.fin)
    have hσ : σ * |r| = r := by
      have h1 := hres.err
      rw [← heq] at h1
      have h2 := abs_lt.mp (lt_of_le_of_lt h1 herr)
      rcases lt_or_gt_of_ne (abs_pos.mp hr0) with hneg | hpos
      · rw [abs_of_neg hneg] at h2 ⊢
        rw [f4 (by rw [hval]; exact_mod_cast (by linarith : real (f.residResp i) < 0))]
        ring
      · rw [abs_of_pos hpos] at h2 ⊢
        rw [f5 (by rw [hval]; exact_mod_cast (by linarith : 0 < real (f.residResp i)))]
        ring
    rw [hsq, hσ] at f2
    refine ⟨f1, (f2.trans k2).trans (le_of_eq ?_)⟩
    rw [hs]; ring

end

section
variable {order : SumSite → (n : ℕ) → SumOrder n} {n p : ℕ} {b : Bool} {M : ℝ} {D : ℕ}
  {raw : Dataset (Fl (binary64 order)) n p false} {data : Dataset (Fl (binary64 order)) n p b}
  {env : Env (Fl (binary64 order))} {options : FitOptions (Fl (binary64 order)) (ncols b p)}
  {f : Fit (Fl (binary64 order)) n p b}

/-- **C99** (f64).  Linear regression in `f64` without weights and frequencies: for between 2 and 2^40
observations, and responses and terms of the linear predictors of size at most `M`, where `M` is between
2^-400 and 2^400.  `D` is the number of roundings of a sum, at most 2^40. -/
theorem C99_f64 (hd : raw.finalize false b = some data)
    (h : regression env Family.linear.glm data options = .ok f) (hw : raw.weights = none)
    (hf : raw.freqs = none) (hn : 2 ≤ n) (hn' : n ≤ 2 ^ 40) (hD : 1 ≤ D) (hD' : D ≤ 2 ^ 40)
    (hdep : (order .sum n).tree.depth 0 ≤ D) (hops : (order .sum n).tree.ops 0 ≤ D)
    (hpd : ∀ i, predDepth (binary64 order) b n p raw.linearOffset i ≤ D)
    (hpo : ∀ i, predOps (binary64 order) b n p raw.linearOffset i ≤ D)
    (h1 : (2 : ℝ) ^ (-400 : ℤ) ≤ M) (h2 : M ≤ (2 : ℝ) ^ (400 : ℤ))
    (hy : ∀ i, (raw.y i).isFinite ∧ |real (raw.y i)| ≤ M) (hx : ∀ i j, (raw.x i j).isFinite)
    (ho : ∀ o, raw.linearOffset = some o → ∀ i, (o i).isFinite) (hβ : ∀ j, (f.result j).isFinite)
    (hs : ∀ i, predSize b raw.x raw.linearOffset f.result i ≤ M) :
    (f.deviance.isFinite ∧
      |real f.deviance - devianceOf Family.linear.glm (exactData raw) b fun j => real (f.result j)|
        ≤ 72 * (n * D * M ^ 2) / 2 ^ 53) ∧
    (ncols b p ≤ n → f.aic.isFinite ∧
      |real f.aic - (devianceOf Family.linear.glm (exactData raw) b (fun j => real (f.result j))
          + 2 * ncols b p)| ≤ 94 * (n * D * (M ^ 2 + 1)) / 2 ^ 53) ∧
    (ncols b p < n → n ≤ D → f.dispersion.isFinite ∧
      |real f.dispersion - devianceOf Family.linear.glm (exactData raw) b (fun j => real (f.result j))
          / (n - ncols b p)| ≤ 135 * (n * D * M ^ 2) / ((n - ncols b p) * 2 ^ 53)) ∧
    (∀ i r, r = real (raw.y i) - exactPred b raw.x raw.linearOffset f.result i →
      60 * (D * M ^ 2) / 2 ^ 53 < r ^ 2 → (f.residDev i).isFinite ∧
      |real (f.residDev i) - r| ≤ 72 * (D * M ^ 2) / (|r| * 2 ^ 53)) := by
  have acc := accurateLogs_binary64 order
  have hDr : (D : ℝ) ≤ 2 ^ 40 := by exact_mod_cast hD'
  have hnr : (n : ℝ) ≤ 2 ^ 40 := by exact_mod_cast hn'
  have hu : (2 : ℝ) ^ (-53 : ℤ) = 1 / 2 ^ 53 := by norm_num [_root_.zpow_neg]
  have hpl : Plain (2 ^ (-53 : ℤ)) (2 ^ (-1075 : ℤ)) (2 ^ (1023 : ℤ)) D raw := by
    refine ⟨hw, hf, hn, hdep, hops, hD, ?_, zpow_le_zpow_right₀ (by norm_num) (by norm_num), ?_⟩
    · rw [hu]; linarith
    · refine lt_of_le_of_lt (mul_le_mul_of_nonneg_left hnr (by norm_num)) ?_
      calc (2 : ℝ) * 2 ^ 40 = 2 ^ (41 : ℤ) := by norm_num
        _ < 2 ^ (1023 : ℤ) := zpow_lt_zpow_right₀ (by norm_num) (by norm_num)
  have hM0 : 0 < M := lt_of_lt_of_le (by positivity) h1
  have hm : ModerateFit (2 ^ (-53 : ℤ)) (2 ^ (-1075 : ℤ)) (2 ^ (1023 : ℤ)) M D raw b f.result := by
    have e1 : (2 : ℝ) ^ (-53 : ℤ) * 2 ^ (-400 : ℤ) = 2 ^ (-453 : ℤ) := by
      rw [← zpow_add₀ (by norm_num)]; norm_num
    have e2 : (2 : ℝ) ^ (-53 : ℤ) * (2 ^ (-400 : ℤ)) ^ 2 = 2 ^ (-853 : ℤ) := by
      rw [← zpow_natCast, ← _root_.zpow_mul, ← zpow_add₀ (by norm_num)]; norm_num
    have e3 : (3 : ℝ) * 2 ^ (-1075 : ℤ) ≤ 2 ^ (-1073 : ℤ) := by
      have : (2 : ℝ) ^ (-1073 : ℤ) = 4 * 2 ^ (-1075 : ℤ) := by
        rw [show (-1073 : ℤ) = 2 + -1075 by norm_num, zpow_add₀ (by norm_num)]; norm_num
      rw [this]
      exact mul_le_mul_of_nonneg_right (by norm_num) (by positivity)
    have hsq : ((2 : ℝ) ^ (-400 : ℤ)) ^ 2 ≤ M ^ 2 := pow_le_pow_left₀ (by positivity) h1 2
    have hsq' : M ^ 2 ≤ ((2 : ℝ) ^ (400 : ℤ)) ^ 2 := pow_le_pow_left₀ hM0.le h2 2
    refine ⟨hy, hx, hβ, ho, hs, hpd, hpo, ?_, ?_, ?_, ?_⟩
    · refine e3.trans (le_trans ?_ (mul_le_mul_of_nonneg_left h1 (by positivity)))
      rw [e1]
      exact zpow_le_zpow_right₀ (by norm_num) (by norm_num)
    · refine le_trans ?_ (mul_le_mul_of_nonneg_left hsq (by positivity))
      rw [e2]
      exact zpow_le_zpow_right₀ (by norm_num) (by norm_num)
    · refine lt_of_le_of_lt (mul_le_mul_of_nonneg_left h2 (by norm_num)) ?_
      calc (2 : ℝ) * 2 ^ (400 : ℤ) = 2 ^ (1 : ℤ) * 2 ^ (400 : ℤ) := by rw [zpow_one]
        _ = 2 ^ (401 : ℤ) := by rw [← zpow_add₀ (by norm_num)]; norm_num
        _ < 2 ^ (1023 : ℤ) := zpow_lt_zpow_right₀ (by norm_num) (by norm_num)
    · have hA : (1 : ℝ) ≤ (2 ^ (400 : ℤ)) ^ 2 :=
        one_le_pow₀ (one_le_zpow₀ (by norm_num) (by norm_num))
      have hB : n * M ^ 2 ≤ 2 ^ 40 * (2 ^ (400 : ℤ)) ^ 2 :=
        mul_le_mul hnr hsq' (by positivity) (by positivity)
      have hC : (n : ℝ) ≤ 2 ^ 40 * (2 ^ (400 : ℤ)) ^ 2 :=
        hnr.trans (le_mul_of_one_le_right (by positivity) hA)
      have hE : (2 : ℝ) ^ (43 : ℤ) * (2 ^ (400 : ℤ)) ^ 2 * 2 = 2 ^ (844 : ℤ) := by
        rw [← zpow_natCast, ← _root_.zpow_mul, ← zpow_add₀ (by norm_num), ← zpow_add_one₀ (by norm_num)]
        norm_num
      have hG : (2 : ℝ) ^ (844 : ℤ) < 2 ^ (1023 : ℤ) := zpow_lt_zpow_right₀ (by norm_num) (by norm_num)
      rw [← hE] at hG
      have h43 : (2 : ℝ) ^ (43 : ℤ) = 8 * 2 ^ 40 := by norm_num
      rw [h43] at hG
      generalize (2 : ℝ) ^ (1023 : ℤ) = B at hG ⊢
      generalize ((2 : ℝ) ^ (400 : ℤ)) ^ 2 = C at hA hB hC hG
      clear hE h43 e1 e2 e3 hsq hsq' hpl acc h1 h2 hu
      have h4 : (0 : ℝ) ≤ 2 ^ 40 * C := by positivity
      have h5 : 8 * 2 ^ 40 * C * 2 = 16 * (2 ^ 40 * C) := by ring
      rw [h5] at hG
      generalize (2 : ℝ) ^ 40 * C = E at hB hC h4 hG
      linarith
  obtain ⟨k1, k2, k3, k4⟩ := C99_moderate acc hd h hpl hm
  rw [hu] at k1 k2 k3 k4
  refine ⟨⟨k1.1, k1.2.trans (le_of_eq (by ring))⟩, fun hk => ?_, fun hk hnD => ?_, fun i r hr hlt => ?_⟩
  · obtain ⟨l1, l2⟩ := k2 hk
    exact ⟨l1, l2.trans (le_of_eq (by ring))⟩
  · obtain ⟨l1, l2⟩ := k3 hk hnD
    exact ⟨l1, l2.trans (le_of_eq (by rw [div_mul_eq_div_div]; ring))⟩
  · obtain ⟨l1, l2⟩ := k4 i r hr (lt_of_le_of_lt (le_of_eq (by ring)) hlt)
    exact ⟨l1, l2.trans (le_of_eq (by rw [div_mul_eq_div_div]; ring))⟩

end

/-! ### Examples -/

/-- The responses `0, 2, 4`. -/
noncomputable def evenRaw : Dataset (Fl binary64) 3 0 false :=
  { y := fun i => num (((2 * i.val : ℕ) : ℝ) : EReal), x := fun _ j => j.elim0, linearOffset := none,
    weights := none, freqs := none, standardizer := none }

/-- A solver that returns 2. -/
noncomputable def twoEnv : Env (Fl binary64) where
  eps := 0
  solveh _ _ := .ok fun _ => num ((2 : ℝ) : EReal)
  invh _ := .error .failed
  inv _ := .error .failed
  fuel := 0

/-- C99 applies to the fit of a mean to `0, 2, 4`: the deviance is 8, the Akaike criterion is 10, the
dispersion is 4 and the last residual is 2, up to tiny errors. -/
theorem C99_example : ∃ (data : Dataset (Fl binary64) 3 0 true) (f : Fit (Fl binary64) 3 0 true),
    evenRaw.finalize false true = some data ∧
    regression twoEnv Family.linear.glm data
      { maxIter := 10, tol := 0, l2 := 0, l1 := 0, initGuess := some fun _ => num ((2 : ℝ) : EReal) } = .ok f ∧
    |real f.deviance - 8| ≤ 1 / 2 ^ 35 ∧ |real f.aic - 10| ≤ 1 / 2 ^ 35 ∧
    |real f.dispersion - 4| ≤ 1 / 2 ^ 35 ∧ |real (f.residDev 2) - 2| ≤ 1 / 2 ^ 35 := by
  obtain ⟨data, hd⟩ : ∃ data, evenRaw.finalize false true = some data := ⟨_, rfl⟩
  have hgt : ∀ x : Fl binary64, gt x x = false := by
    intro x
    rw [Bool.eq_false_iff, ne_eq, gt_iff]
    rintro ⟨-, -, h⟩
    exact lt_irrefl _ h
  obtain ⟨f, hf, hr⟩ := regression_stays (env := twoEnv) (g := Family.linear.glm) (data := data)
    (options := { maxIter := 10, tol := 0, l2 := 0, l1 := 0,
                  initGuess := some fun _ => num ((2 : ℝ) : EReal) })
    (v := fun _ => num ((2 : ℝ) : EReal))
    (by unfold getReg; simp only [hgt]; rfl) rfl
    (by
      unfold vecEq
      rw [List.all_eq_true]
      intro j _
      rw [eq_iff]
      have : initialGuess twoEnv Family.linear.glm data
          { maxIter := 10, tol := 0, l2 := 0, l1 := 0, initGuess := some fun _ => num ((2 : ℝ) : EReal) } j
            = num ((2 : ℝ) : EReal) := by
        rw [finalize_plain hd]
        rfl
      rw [this]
      exact ⟨not_false, not_false, rfl⟩)
  refine ⟨data, f, hd, hf, ?_⟩
  have hres : f.result = fun _ => num ((2 : ℝ) : EReal) := by
    obtain ⟨-, -, h3⟩ := plain_setting hd hf
    rw [← h3, hr, finalize_plain hd]
    rfl
  have hreal : ∀ j, real (f.result j) = 2 := fun j => by rw [hres]; exact (real_num _).2
  have hy : ∀ i, real (evenRaw.y i) = 2 * i.val := fun i => by
    rw [show evenRaw.y i = num (((2 * i.val : ℕ) : ℝ) : EReal) from rfl, (real_num _).2]
    push_cast; ring
  have hpred : ∀ i, exactPred true evenRaw.x evenRaw.linearOffset f.result i = 2 := fun i => by
    change ∑ j : Fin 1, design true (n := 3) (p := 0) _ i j * real (f.result j) + (0 : ℝ) = 2
    rw [Fin.sum_univ_one, hreal]
    change (1 : ℝ) * 2 + 0 = 2
    norm_num
  have hsize : ∀ i, predSize true evenRaw.x evenRaw.linearOffset f.result i = 2 := fun i => by
    change ∑ j : Fin 1, |design true (n := 3) (p := 0) _ i j * real (f.result j)| + |(0 : ℝ)| = 2
    rw [Fin.sum_univ_one, hreal]
    change |(1 : ℝ) * 2| + |0| = 2
    norm_num
  have hwt : ∀ i, totalWt (exactData evenRaw) i = 1 := fun i => by
    simp [totalWt, freq, varWt, exactData, evenRaw]
  have hdev : devianceOf Family.linear.glm (exactData evenRaw) true (fun j => real (f.result j)) = 8 := by
    rw [exact_deviance]
    have hpl : ∀ i, devTerm .linear evenRaw true f.result i = (2 * (i.val : ℝ) - 2) ^ 2 := fun i => by
      unfold devTerm
      have e1 : varWt (exactData evenRaw) i = 1 := by simp [varWt, exactData, evenRaw]
      have e2 : satTerm .linear (real (evenRaw.y i)) = 1 / 2 * real (evenRaw.y i) * real (evenRaw.y i) := by
        change half * real (evenRaw.y i) * real (evenRaw.y i) = _
        rw [half_real]
      have e3 : rowLik .linear evenRaw true f.result i
          = real (evenRaw.y i) * exactPred true evenRaw.x evenRaw.linearOffset f.result i
            - exactPred true evenRaw.x evenRaw.linearOffset f.result i ^ 2 / 2 := rfl
      rw [e1, e2, e3, hpred, hy]; ring
    have hfr : ∀ i, freq (exactData evenRaw) i = 1 := fun i => by simp [freq, exactData, evenRaw]
    simp only [hpl, hfr, Fin.sum_univ_three]
    norm_num
  have b1 : (2 : ℝ) ^ (-400 : ℤ) ≤ 4 :=
    (zpow_le_one_of_nonpos₀ (by norm_num) (by norm_num)).trans (by norm_num)
  have b2 : (4 : ℝ) ≤ 2 ^ (400 : ℤ) := by
    calc (4 : ℝ) = 2 ^ (2 : ℤ) := by norm_num
      _ ≤ 2 ^ (400 : ℤ) := zpow_le_zpow_right₀ (by norm_num) (by norm_num)
  obtain ⟨⟨-, k1⟩, k2, k3, k4⟩ := C99_f64 (M := 4) (D := 3) hd hf rfl rfl (by norm_num) (by norm_num)
    (by norm_num) (by norm_num) (left_depth _ _).1.le (left_depth _ _).2.le
    (fun i => (C86_left 1).1.trans (by norm_num)) (fun i => (C86_left 1).2.le.trans (by norm_num)) b1 b2
    (fun i => ⟨(real_num _).1, by rw [hy]; fin_cases i <;> norm_num⟩) (fun i j => j.elim0)
    (fun o ho => by cases ho) (fun j => by rw [hres]; exact (real_num _).1)
    (fun i => by rw [hsize]; norm_num)
  have c1 : ((ncols true 0 : ℕ) : ℝ) = 1 := by simp [ncols]
  have c2 : ncols true 0 = 1 := rfl
  rw [hdev] at k1 k2 k3
  obtain ⟨-, k2⟩ := k2 (by rw [c2]; norm_num)
  obtain ⟨-, k3⟩ := k3 (by rw [c2]; norm_num) le_rfl
  obtain ⟨-, k4⟩ := k4 2 2 (by rw [hy, hpred]; norm_num) (by norm_num)
  rw [c1] at k2 k3
  refine ⟨k1.trans (by norm_num), ?_, ?_, k4.trans (by norm_num)⟩
  · rw [show (10 : ℝ) = 8 + 2 * 1 by norm_num]; exact k2.trans (by norm_num)
  · rw [show (4 : ℝ) = 8 / (((3 : ℕ) : ℝ) - 1) by norm_num]; exact k3.trans (by norm_num)

/-- The Bayesian criterion of one observation with the log-likelihood `1 / 2`. -/
theorem oneRaw_bic {u tiny big e : ℝ} (hu : 0 ≤ u) (hu1 : u ≤ 1 / 1000) (ht : 0 ≤ tiny) (htu : tiny ≤ u)
    (hb : 100 ≤ big) (he0 : 0 ≤ e) (he : e ≤ 128 * u) :
    BicFits u tiny big oneRaw true e (1 / 2) ∧ bicError u tiny oneRaw true e (1 / 2) ≤ 300 * u ∧
    bicOf (exactData oneRaw) true (1 / 2) = -1 := by
  have hfr : ∀ i, freq (exactData oneRaw) i = 1 := fun i => real_one.2
  have hvw : ∀ i, varWt (exactData oneRaw) i = 1 := fun i => real_one.2
  have hobs : obsCount (exactData oneRaw) = 1 := by unfold obsCount; simp only [hfr]; simp
  have hlog : ∀ i, Real.log (varWt (exactData oneRaw) i) = 0 := fun i => by rw [hvw, Real.log_one]
  have hlw : logWeights (exactData oneRaw) = 0 := Finset.sum_eq_zero fun i _ => by rw [hlog, mul_zero]
  have hut : u * tiny ≤ u / 1000 := by nlinarith
  have hut0 : 0 ≤ u * tiny := by positivity
  have huu : u * u ≤ u / 1000 := by nlinarith
  have hround : ∀ {e v c m : ℝ}, 0 ≤ e → e ≤ c * u → 0 ≤ c → |v| ≤ m →
      0 ≤ afterRounding u tiny e v ∧ afterRounding u tiny e v ≤ (c + m + c / 1000 + 1) * u := by
    intro e v c m h0 h1 hc h2
    constructor
    · unfold afterRounding; positivity
    · have h3 : e ≤ c / 1000 := by have := mul_le_mul_of_nonneg_left hu1 hc; linarith
      unfold afterRounding
      have := mul_le_mul_of_nonneg_left (by linarith : |v| + e ≤ m + c / 1000) hu
      linarith
  have hO : obsError u tiny oneRaw = u * 1 + (1 + u) * tiny := by
    change termsError binary64 u tiny (freq (exactData oneRaw)) (fun _ => 0) = _
    unfold termsError
    simp only [hfr, abs_one]
    rw [one_total]
    simp
  have hO1 : obsError u tiny oneRaw ≤ 3 * u := by rw [hO]; linarith
  have hO0 : 0 ≤ obsError u tiny oneRaw := by rw [hO]; positivity
  have hln0 : ∀ i, lnError u tiny 0 (varWt (exactData oneRaw) i) = tiny := fun i => by
    unfold lnError afterRounding
    rw [hlog]
    simp
  have hL : 0 ≤ logWeightsError u tiny oneRaw ∧ logWeightsError u tiny oneRaw ≤ 6 * u := by
    have hf : ∀ i, freqError u tiny oneRaw i (lnError u tiny 0 (varWt (exactData oneRaw) i))
        (Real.log (varWt (exactData oneRaw) i)) = tiny + (u * tiny + tiny) := fun i => by
      rw [hln0, hlog]
      unfold freqError afterRounding
      rw [hfr]; simp
    unfold logWeightsError freqSumError termsError
    simp only [hf]
    simp only [hlog, mul_zero, abs_zero]
    rw [one_total, Fin.sum_univ_one, Fin.sum_univ_one, zero_add]
    constructor
    · positivity
    · have : u * (tiny + (u * tiny + tiny)) ≤ u * 1 := mul_le_mul_of_nonneg_left (by linarith) hu
      linarith
  have hT := hround (e := 2 * logWeightsError u tiny oneRaw) (v := 0) (c := 12) (m := 0) (by linarith)
    (by linarith) (by norm_num) (by simp)
  have hTe : twiceLogsError u tiny oneRaw = afterRounding u tiny (2 * logWeightsError u tiny oneRaw) 0 := by
    unfold twiceLogsError; rw [hlw, mul_zero]
  rw [← hTe] at hT
  have hc1 : ((ncols true 0 : ℕ) : ℝ) = 1 := by simp [ncols]
  have hK : countError u tiny (ncols true 0) = u * 1 + tiny := by unfold countError; rw [hc1]
  have hdiv : 0 ≤ obsError u tiny oneRaw / (1 - obsError u tiny oneRaw) ∧
      obsError u tiny oneRaw / (1 - obsError u tiny oneRaw) ≤ 4 * u := by
    have : 0 < 1 - obsError u tiny oneRaw := by linarith
    refine ⟨by positivity, ?_⟩
    rw [div_le_iff₀ this]
    nlinarith
  have hN := hround (e := obsError u tiny oneRaw / (1 - obsError u tiny oneRaw)) (v := 0) (c := 4) (m := 0)
    hdiv.1 hdiv.2 (by norm_num) (by simp)
  have hNe : lnError u tiny (obsError u tiny oneRaw) 1
      = afterRounding u tiny (obsError u tiny oneRaw / (1 - obsError u tiny oneRaw)) 0 := by
    unfold lnError; rw [Real.log_one]
  rw [← hNe] at hN
  have hB : 0 ≤ bicTermError u tiny oneRaw true ∧ bicTermError u tiny oneRaw true ≤ 7 * u := by
    unfold bicTermError productError
    rw [hobs, hc1, hK, Real.log_one, abs_one, abs_zero]
    have h1 : lnError u tiny (obsError u tiny oneRaw) 1 * (u * 1 + tiny) ≤ 6 * u * (2 / 1000) :=
      mul_le_mul (by linarith [hN.2]) (by linarith) (by positivity) (by positivity)
    have := hN.1
    constructor
    · positivity
    · linarith [hN.2]
  have hR := hround (v := 0) (c := 7) (m := 0) hB.1 hB.2 (by norm_num) (by simp)
  have hE := hround (e := 2 * e) (v := 2 * (1 / 2)) (c := 256) (m := 1) (by linarith) (by linarith) (by norm_num)
    (by norm_num)
  have hS := hround (e := afterRounding u tiny (bicTermError u tiny oneRaw true) 0
    + afterRounding u tiny (2 * e) (2 * (1 / 2))) (v := 0 - 2 * (1 / 2)) (c := 267) (m := 1)
    (by linarith [hR.1, hE.1]) (by linarith [hR.2, hE.2]) (by norm_num) (by norm_num)
  have hSe : bicSumError u tiny oneRaw true e (1 / 2) = afterRounding u tiny
      (afterRounding u tiny (bicTermError u tiny oneRaw true) 0
        + afterRounding u tiny (2 * e) (2 * (1 / 2))) (0 - 2 * (1 / 2)) := by
    unfold bicSumError; rw [hobs, Real.log_one, zero_mul]
  rw [← hSe] at hS
  have hv : bicOf (exactData oneRaw) true (1 / 2) = -1 := by
    unfold bicOf; rw [hobs, hlw, Real.log_one]; norm_num
  have hW := hround (e := bicSumError u tiny oneRaw true e (1 / 2) + twiceLogsError u tiny oneRaw) (v := -1)
    (c := 283) (m := 1) (by linarith [hS.1, hT.1]) (by linarith [hS.2, hT.2]) (by norm_num) (by norm_num)
  refine ⟨⟨?_, ⟨fun i => ?_, fun i => ?_, fun i => ?_, ?_, ?_⟩, ?_, ?_, ?_, ?_, ?_, ?_, ?_, ?_⟩, ?_, hv⟩
  · rintro g ⟨⟩ i; exact real_one.1
  · rw [hvw]; exact one_pos
  · rw [hlog, abs_zero]; linarith
  · rw [hln0, hlog, hfr, mul_zero, abs_zero, abs_one]; linarith
  · simp only [hlog, mul_zero, abs_zero, Finset.sum_const_zero]; linarith [hL.2]
  · rw [hlw, mul_zero, abs_zero]; linarith [hL.2]
  · rw [hc1]; linarith
  · simp only [hfr, abs_one, sum_ones]; norm_num; linarith
  · rw [hobs]; linarith
  · rw [hobs, Real.log_one, abs_zero]; linarith [hdiv.2]
  · rw [hobs, Real.log_one, zero_mul, abs_zero]; linarith [hB.2]
  · norm_num; linarith
  · rw [hobs, Real.log_one, zero_mul]
    rw [show |(0 : ℝ) - 2 * (1 / 2)| = 1 by norm_num]
    linarith [hR.2, hE.2]
  · rw [hv, abs_neg, abs_one]; linarith [hS.2, hT.2]
  · unfold bicError
    rw [hv]
    exact hW.2.trans (by linarith)

/-- C99 applies to the Bayesian criterion of the fit of `C95_example`, which is -1 up to a tiny error. -/
theorem C99_example_bic : ∃ f : Fit (Fl binary64) 1 0 true,
    regression oneEnv Family.linear.glm oneData
      { maxIter := 10, tol := 0, l2 := 0, l1 := 0,
        initGuess := some fun _ => num ((-1 : ℝ) : EReal) } = .ok f ∧
    |real f.bic - -1| ≤ 2 ^ (-44 : ℤ) := by
  obtain ⟨f, hf, hd, -, hp, hl, he⟩ := C95_example
  have hu : (0 : ℝ) ≤ 2 ^ (-53 : ℤ) := by positivity
  have hu1 : (2 : ℝ) ^ (-53 : ℤ) ≤ 1 / 1000 := by norm_num
  have ht : (0 : ℝ) ≤ 2 ^ (-1075 : ℤ) := by positivity
  have htu : (2 : ℝ) ^ (-1075 : ℤ) ≤ 2 ^ (-53 : ℤ) := zpow_le_zpow_right₀ (by norm_num) (by norm_num)
  have hb : (100 : ℝ) ≤ 2 ^ (1023 : ℤ) := by
    have : (2 : ℝ) ^ (7 : ℤ) ≤ 2 ^ (1023 : ℤ) := zpow_le_zpow_right₀ (by norm_num) (by norm_num)
    exact le_trans (by norm_num) this
  have acc := accurateLogs_binary64 (fun _ => SumOrder.left)
  have hz : real (0 : Fl binary64) = 0 := real_zero.2
  have h0 : 0 ≤ penLikError (2 ^ (-53 : ℤ)) (2 ^ (-1075 : ℤ)) .linear oneRaw true 0 0 f.result := by
    have := (abs_nonneg _).trans (C95_fit acc hd hf hp).2
    rwa [hz] at this
  obtain ⟨k1, k2, k3⟩ := oneRaw_bic hu hu1 ht htu hb h0 (he.trans (by norm_num))
  have := (C99_bic acc hd hf hp (by rw [hz, hl]; exact k1)).2
  rw [hz, hl, k3] at this
  exact ⟨f, hf, this.trans (k2.trans (by norm_num))⟩

end GLM
