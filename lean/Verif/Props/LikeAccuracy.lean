/-
  C95: the log-likelihood computed in floating-point arithmetic is close to the exact one.
-/
import Verif.Lemmas.LikeAccuracy
import Verif.Props.RoundingAccuracy

namespace GLM
open Spec Scalar Fl

section
variable {fmt : FloatFormat} {u tiny big : ℝ} {n p : ℕ} {b : Bool}

/-! ### One observation -/

/-- The log-likelihood of one observation from a natural parameter with a known error, for every
family. -/
theorem C95_term (acc : AccurateLogs fmt u tiny big) (fam : Family) {y w : Fl fmt} (hy : y.isFinite)
    (hw : w.isFinite) {ν B : ℝ} (h : |real w - ν| ≤ B) (hf : TermFits fmt u tiny big B fam (real y) ν) :
    (fam.glm.logLikeNatural y w : Fl fmt).isFinite ∧
      |real (fam.glm.logLikeNatural y w : Fl fmt) - (real y * ν - cumulant fam ν)| ≤
        termError u tiny B fam (real y) ν := by
  obtain ⟨hb1, hb2, hfam⟩ := hf
  have hu := acc.u_nonneg
  have ht := acc.tiny_nonneg
  have hB : 0 ≤ B := (abs_nonneg _).trans h
  obtain ⟨hl, hr⟩ := abs_le.mp h
  have hwν : |real w| ≤ |ν| + B := by
    have := abs_add_le (real w - ν) ν
    rw [sub_add_cancel] at this
    linarith
  obtain ⟨hm1, hm2⟩ := likeMove_spec fam (y := real y) h (by
    cases fam <;> first | trivial | exact hfam | exact hfam.1)
  have hun : likeUnderflow 0 fam (real w) ≤ likeUnderflow B fam ν := by
    have hinv : B < -ν → 2 / Real.sqrt (-2 * real w - 2 * 0) ≤ 2 / Real.sqrt (-2 * ν - 2 * B) := by
      intro hB'
      refine div_le_div_of_nonneg_left (by norm_num) (Real.sqrt_pos.mpr (by linarith))
        (Real.sqrt_le_sqrt (by linarith))
    cases fam <;> simp only [likeUnderflow] <;>
      first
        | exact le_rfl
        | linarith
        | (have := hinv hfam.1; linarith)
  have hp0 : 0 ≤ (1 + u) ^ 5 - 1 := by
    have : 1 ≤ (1 + u) ^ 5 := one_le_pow₀ (by linarith)
    linarith
  have e1 := mul_le_mul_of_nonneg_left hm2 hp0
  have e2 := mul_le_mul_of_nonneg_right hun ht
  have hsz : (1 + u) ^ 5 * likeSize fam (real y) (real w) + likeUnderflow 0 fam (real w) * tiny < big := by
    unfold termError at hb2
    linarith
  have hexp : Real.exp (ν + B) < big → Real.exp (real w) < big := fun h =>
    (Real.exp_le_exp.mpr (by linarith)).trans_lt h
  obtain ⟨f1, f2⟩ := likeNatural_near acc fam hy hw (by linarith) hsz (by
    cases fam <;>
      first
        | trivial
        | exact hfam
        | exact hexp hfam
        | exact ⟨hfam.1, hfam.2.1, hexp hfam.2.2⟩
        | exact ⟨by linarith [hfam.1], by linarith [hfam.2]⟩
        | (change real w < 0; have : B < -ν := hfam; linarith))
  refine ⟨f1, ?_⟩
  have h3 := abs_add_le (real (fam.glm.logLikeNatural y w : Fl fmt)
    - (real y * real w - cumulant fam (real w)))
    ((real y * real w - cumulant fam (real w)) - (real y * ν - cumulant fam ν))
  rw [sub_add_sub_cancel] at h3
  unfold termError
  linarith

/-- The natural parameter from a linear predictor with a known error, for every link but the
complementary log-log link. -/
theorem C95_natural (acc : AccurateLogs fmt u tiny big) (fam : Family) {w : Fl fmt} (hw : w.isFinite)
    {η B : ℝ} (h : |real w - η| ≤ B) (hf : NatFits u tiny big B fam η) :
    (fam.glm.link.natParam w : Fl fmt).isFinite ∧
      |real (fam.glm.link.natParam w : Fl fmt) - (fam.glm (F := ℝ)).link.natParam η| ≤
        natError u tiny B fam η := by
  have hlog : Real.exp (-η + B) < big → (-(exp (-w)) : Fl fmt).isFinite ∧
      |real (-(exp (-w)) : Fl fmt) - -Real.exp (-η)| ≤
        ((1 + u) * Real.exp B - 1) * Real.exp (-η) + tiny := by
    intro hb
    obtain ⟨h1, h2⟩ := real_neg hw
    obtain ⟨h3, h4⟩ := exp_near_move acc.toAccurate h1 (η := -η) (B := B)
      (by rw [h2, neg_sub_neg, abs_sub_comm]; exact h) hb
    obtain ⟨h5, h6⟩ := real_neg h3
    refine ⟨h5, ?_⟩
    rw [h6, neg_sub_neg, abs_sub_comm]
    exact h4
  rw [natParam_real]
  cases fam with
  | linear => exact ⟨hw, h⟩
  | logisticLogit => exact ⟨hw, h⟩
  | logisticCloglog => exact hf.elim
  | poisson => exact ⟨hw, h⟩
  | binomial N => exact ⟨hw, h⟩
  | exponentialNegRec => exact ⟨hw, h⟩
  | exponentialLog => exact hlog hf
  | gammaNegRec => exact ⟨hw, h⟩
  | gammaLog => exact hlog hf
  | invGaussNegRecSq => exact ⟨hw, h⟩
  | invGaussLog =>
    obtain ⟨hb1, hb2, hb3⟩ := hf
    have acc' := acc.toAccurate
    have hu := acc.u_nonneg
    have ht := acc.tiny_nonneg
    have hB : 0 ≤ B := (abs_nonneg _).trans h
    have hwη : |real w| ≤ |η| + B := by
      have := abs_add_le (real w - η) η
      rw [sub_add_cancel] at this
      linarith
    obtain ⟨htf, htr⟩ := two_near acc'
    obtain ⟨hnf, hnr⟩ := real_neg htf
    rw [htr] at hnr
    have ha : |(-2 : ℝ) * real w| = 2 * |real w| := by rw [abs_mul]; norm_num
    obtain ⟨m1, m2⟩ := mul_near acc' hnf hw (by rw [hnr, ha]; linarith)
    unfold Near at m2
    rw [hnr, ha] at m2
    have m3 : |real (-two * w : Fl fmt) - -2 * η| ≤ 2 * B + (u * (2 * (|η| + B)) + tiny) := by
      have e1 := abs_add_le (real (-two * w : Fl fmt) - -2 * real w) (-2 * real w - -2 * η)
      rw [sub_add_sub_cancel] at e1
      have e2 : |-2 * real w - -2 * η| ≤ 2 * B := by
        rw [← mul_sub, abs_mul]
        norm_num
        exact h
      have e3 : u * (2 * |real w|) ≤ u * (2 * (|η| + B)) := mul_le_mul_of_nonneg_left (by linarith) hu
      linarith
    obtain ⟨q1, q2⟩ := exp_near_move acc' m1 m3 hb2
    obtain ⟨hhf, hhr⟩ := half_near acc
    obtain ⟨hgf, hgr⟩ := real_neg hhf
    rw [hhr] at hgr
    set e := ((1 + u) * Real.exp (2 * B + (u * (2 * (|η| + B)) + tiny)) - 1) * Real.exp (-2 * η) + tiny
      with he
    have hE0 := Real.exp_pos (-2 * η)
    have hq : |real (exp (-two * w) : Fl fmt)| ≤ Real.exp (-2 * η) + e := by
      have := abs_add_le (real (exp (-two * w) : Fl fmt) - Real.exp (-2 * η)) (Real.exp (-2 * η))
      rw [sub_add_cancel, abs_of_pos hE0] at this
      linarith
    have hq0 := abs_nonneg (real (exp (-two * w) : Fl fmt))
    have hh2 : |(-(1 / 2) : ℝ) * real (exp (-two * w) : Fl fmt)|
        = |real (exp (-two * w) : Fl fmt)| / 2 := by
      rw [abs_mul]; norm_num; ring
    obtain ⟨k1, k2⟩ := mul_near acc' hgf q1 (by rw [hgr, hh2]; linarith)
    unfold Near at k2
    rw [hgr, hh2] at k2
    refine ⟨k1, ?_⟩
    have e1 := abs_add_le (real (-half * exp (-two * w) : Fl fmt)
        - -(1 / 2) * real (exp (-two * w) : Fl fmt))
      (-(1 / 2) * real (exp (-two * w) : Fl fmt) - -(1 / 2) * Real.exp (-2 * η))
    rw [sub_add_sub_cancel] at e1
    have e2 : |-(1 / 2) * real (exp (-two * w) : Fl fmt) - -(1 / 2) * Real.exp (-2 * η)| ≤ e / 2 := by
      rw [← mul_sub, abs_mul, show |(-(1 / 2) : ℝ)| = 1 / 2 by norm_num]
      linarith
    have e3 : u * (|real (exp (-two * w) : Fl fmt)| / 2) ≤ u * ((Real.exp (-2 * η) + e) / 2) :=
      mul_le_mul_of_nonneg_left (by linarith) hu
    change |real (-half * exp (-two * w) : Fl fmt) - -(1 / 2) * Real.exp (-2 * η)| ≤
      e / 2 + (u * ((Real.exp (-2 * η) + e) / 2) + tiny)
    linarith

/-! ### All observations -/

/-- A sum of terms that are not exact. -/
theorem vsum_near (acc : Accurate fmt u tiny big) {v : Vec (Fl fmt) n} {s e : Fin n → ℝ} {S E : ℝ}
    (hv : ∀ i, (v i).isFinite) (he : ∀ i, |real (v i) - s i| ≤ e i) (hS : ∑ i, |s i| ≤ S)
    (hE : ∑ i, e i ≤ E) (hlt : S + totalError fmt u tiny n S E < big) :
    (vsum v).isFinite ∧ |real (vsum v) - ∑ i, s i| ≤ totalError fmt u tiny n S E := by
  have hu := acc.u_nonneg
  have ht := acc.tiny_nonneg
  have hsum : ∑ i, |real (v i)| ≤ S + E := by
    have : ∑ i, |real (v i)| ≤ ∑ i, (|s i| + e i) := by
      refine Finset.sum_le_sum fun i _ => ?_
      have := abs_add_le (real (v i) - s i) (s i)
      rw [sub_add_cancel] at this
      linarith [he i]
    rw [Finset.sum_add_distrib] at this
    linarith
  have hm := sumError_mono hu ht (le_refl ((fmt.order .sum n).tree.depth 0))
    (le_refl ((fmt.order .sum n).tree.ops 0)) (Finset.sum_nonneg fun i _ => abs_nonneg (real (v i))) hsum
  unfold totalError at hlt ⊢
  obtain ⟨h1, h2⟩ := sum_near acc hv (fmt.order .sum n) (by linarith)
  refine ⟨h1, ?_⟩
  have h3 : |∑ i, real (v i) - ∑ i, s i| ≤ E := by
    rw [← Finset.sum_sub_distrib]
    refine (Finset.abs_sum_le_sum_abs _ _).trans ((Finset.sum_le_sum fun i _ => he i).trans hE)
  have h4 := abs_add_le (real (vsum v) - ∑ i, real (v i)) (∑ i, real (v i) - ∑ i, s i)
  rw [sub_add_sub_cancel] at h4
  change |real (vsum v) - ∑ i, real (v i)| ≤ _ at h2
  linarith

theorem exactData_linPred (raw : Dataset (Fl fmt) n p false) (β : Vec (Fl fmt) (ncols b p)) (i : Fin n) :
    linPred (exactData raw) b (fun j => real (β j)) i = exactPred b raw.x raw.linearOffset β i := by
  unfold linPred exactPred
  congr 1
  unfold offset offsetAt exactData
  cases raw.linearOffset <;> rfl

/-- The exact log-likelihood, observation by observation. -/
theorem exact_logLik (fam : Family) (raw : Dataset (Fl fmt) n p false) (β : Vec (Fl fmt) (ncols b p)) :
    logLik fam.glm (exactData raw) b (fun j => real (β j))
      = ∑ i, totalWt (exactData raw) i * rowLik fam raw b β i := by
  unfold logLik
  refine Finset.sum_congr rfl fun i _ => ?_
  unfold logLikAt rowLik exactNat
  rw [exactData_linPred, logLikeNatural_real]
  rfl

theorem finalize_plain {raw : Dataset (Fl fmt) n p false} {data : Dataset (Fl fmt) n p b}
    (hd : raw.finalize false b = some data) :
    data = ⟨raw.y, Dataset.padded b raw.x, raw.linearOffset, raw.weights, raw.freqs, none⟩ :=
  (Option.some.inj hd).symm

theorem row_near (acc : AccurateLogs fmt u tiny big) (fam : Family) {raw : Dataset (Fl fmt) n p false}
    {data : Dataset (Fl fmt) n p b} (hd : raw.finalize false b = some data)
    {β : Vec (Fl fmt) (ncols b p)} (hf : LikFits u tiny big fam raw b β) (i : Fin n) :
    (fam.glm.logLikeTerms data β i).isFinite ∧
      |real (fam.glm.logLikeTerms data β i) - rowLik fam raw b β i| ≤
        rowTermError u tiny fam raw b β i := by
  obtain ⟨hy, -, -, hp, hn, ht, -, -⟩ := hf
  have hd' := finalize_plain hd
  obtain ⟨h1, h2⟩ := computedPred_near acc.toAccurate (hp i)
  obtain ⟨h3, h4⟩ := C95_natural acc fam h1 h2 (hn i)
  have h5 := C95_term acc fam (hy i) h3 h4 (ht i)
  have hpr : data.linearPredictorStd β i = computedPred b raw.x raw.linearOffset β i := by
    rw [hd']
    unfold Dataset.linearPredictorStd computedPred
    cases raw.linearOffset <;> rfl
  have hterm : fam.glm.logLikeTerms data β i = fam.glm.logLikeNatural (raw.y i)
      (fam.glm.link.natParam (computedPred b raw.x raw.linearOffset β i)) := by
    rw [← hpr, hd']; rfl
  rw [hterm]
  exact h5

/-- Multiplication by a weight that is given. -/
theorem weight_near (acc : Accurate fmt u tiny big) {w t : Fl fmt} {l E : ℝ} (hw : w.isFinite)
    (htf : t.isFinite) (h : |real t - l| ≤ E) (hlt : |real w| * (|l| + E) < big) :
    (w * t).isFinite ∧ |real (w * t) - real w * l| ≤
      u * |real w * l| + (1 + u) * |real w| * E + tiny := by
  have hE : 0 ≤ E := (abs_nonneg _).trans h
  have r : Rel u 0 |l| E t l := ⟨htf, le_rfl, by simpa using h⟩
  have := r.mul acc hw rfl (by simpa using hlt)
  refine ⟨this.fin, this.err.trans (le_of_eq ?_)⟩
  rw [abs_mul]
  ring

theorem weighted_near (acc : AccurateLogs fmt u tiny big) (fam : Family)
    {raw : Dataset (Fl fmt) n p false} {data : Dataset (Fl fmt) n p b}
    (hd : raw.finalize false b = some data) {β : Vec (Fl fmt) (ncols b p)}
    (hf : LikFits u tiny big fam raw b β) (i : Fin n)
    (hlt : |totalWt (exactData raw) i * rowLik fam raw b β i| + rowError u tiny fam raw b β i < big) :
    (data.applyTotalWeights (fam.glm.logLikeTerms data β) i).isFinite ∧
      |real (data.applyTotalWeights (fam.glm.logLikeTerms data β) i)
          - totalWt (exactData raw) i * rowLik fam raw b β i| ≤ rowError u tiny fam raw b β i := by
  obtain ⟨t1, t2⟩ := row_near acc fam hd hf i
  obtain ⟨-, hw, hfr, -, -, -, hwb, -⟩ := hf
  have hwb := hwb i
  have hd' := finalize_plain hd
  have hu := acc.u_nonneg
  have ht := acc.tiny_nonneg
  set t := fam.glm.logLikeTerms data β with htd
  set l := rowLik fam raw b β i with hl
  set E := rowTermError u tiny fam raw b β i with hEd
  have hE : 0 ≤ E := (abs_nonneg _).trans t2
  -- the variance weight
  have hv : (data.applyVarWeights t i).isFinite ∧
      |real (data.applyVarWeights t i) - varWt (exactData raw) i * l| ≤
        u * |varWt (exactData raw) i * l| + (1 + u) * |varWt (exactData raw) i| * E + tiny := by
    cases hr : raw.weights with
    | none =>
      have h1 : data.applyVarWeights t = t := by
        rw [hd']; simp only [Dataset.applyVarWeights, hr]
      have h2 : varWt (exactData raw) i = 1 := by simp only [varWt, exactData, hr, Option.map_none]
      rw [h1, h2, one_mul, abs_one, mul_one]
      refine ⟨t1, t2.trans ?_⟩
      have : 0 ≤ u * |l| := by positivity
      nlinarith
    | some w =>
      have h1 : data.applyVarWeights t i = w i * t i := by
        rw [hd']; simp only [Dataset.applyVarWeights, hr]; rfl
      have h2 : varWt (exactData raw) i = real (w i) := by
        simp only [varWt, exactData, hr, Option.map_some]
      rw [h1, h2]
      rw [h2] at hwb
      exact weight_near acc.toAccurate (hw w hr i) t1 t2 hwb
  set m := data.applyVarWeights t with hm
  set W := varWt (exactData raw) i with hW
  have hle : ∀ c : ℝ, 0 ≤ c → u * (u * c) + 2 * (u * c) = ((1 + u) ^ 2 - 1) * c := fun c _ => by ring
  unfold rowError at hlt ⊢
  rw [← hl, ← hEd] at hlt ⊢
  have a0 := abs_nonneg (W * l)
  have a1 := abs_nonneg W
  cases hr : raw.freqs with
  | none =>
    have h1 : data.applyTotalWeights t i = m i := by
      rw [hm]
      simp only [Dataset.applyTotalWeights]
      rw [hd']; simp only [Dataset.applyFreqWeights, hr]
    have h2 : freq (exactData raw) i = 1 := by simp only [freq, exactData, hr, Option.map_none]
    have h3 : totalWt (exactData raw) i = W := by rw [totalWt, h2, one_mul]
    rw [h1, h2, h3, abs_one]
    refine ⟨hv.1, hv.2.trans ?_⟩
    have b1 : 0 ≤ u * |W * l| := by positivity
    have b2 : 0 ≤ u * (u * |W * l|) := by positivity
    have b3 : 0 ≤ u * (|W| * E) := by positivity
    have b4 : 0 ≤ u * (u * (|W| * E)) := by positivity
    have b5 : 0 ≤ u * tiny := by positivity
    nlinarith
  | some f =>
    have h1 : data.applyTotalWeights t i = f i * m i := by
      rw [hm]
      simp only [Dataset.applyTotalWeights]
      rw [hd']; simp only [Dataset.applyFreqWeights, hr]; rfl
    have h2 : freq (exactData raw) i = real (f i) := by
      simp only [freq, exactData, hr, Option.map_some]
    have h3 : totalWt (exactData raw) i = real (f i) * W := by rw [totalWt, h2]
    rw [h2, h3] at hlt
    rw [h1, h2, h3]
    set φ := real (f i) with hφ
    have c1 : |φ * W * l| = |φ| * |W * l| := by rw [mul_assoc, abs_mul]
    have c2 : |φ * W| = |φ| * |W| := abs_mul _ _
    rw [c1, c2] at hlt ⊢
    have f0 := abs_nonneg φ
    have r := weight_near acc.toAccurate (hfr f hr i) hv.1 hv.2 (by
      rw [← hφ]
      have b1 : 0 ≤ u * (|φ| * |W * l|) := by positivity
      have b2 : 0 ≤ u * (u * (|φ| * |W * l|)) := by positivity
      have b3 : 0 ≤ u * (|φ| * |W| * E) := by positivity
      have b4 : 0 ≤ u * (u * (|φ| * |W| * E)) := by positivity
      have b5 : 0 ≤ u * (|φ| * tiny) := by positivity
      nlinarith)
    refine ⟨r.1, ?_⟩
    rw [mul_assoc]
    refine r.2.trans (le_of_eq ?_)
    rw [← hφ, abs_mul]
    ring

/-- **C95**: the log-likelihood computed in floating-point arithmetic, for finite data without overflow,
with any weights and offsets and in any order of summation, is finite and close to the exact
log-likelihood of the same numbers. -/
theorem C95_likelihood (acc : AccurateLogs fmt u tiny big) (fam : Family)
    {raw : Dataset (Fl fmt) n p false} {data : Dataset (Fl fmt) n p b}
    (hd : raw.finalize false b = some data) {β : Vec (Fl fmt) (ncols b p)}
    (hf : LikFits u tiny big fam raw b β) :
    (fam.glm.logLike data β).isFinite ∧
      |real (fam.glm.logLike data β) - logLik fam.glm (exactData raw) b (fun j => real (β j))| ≤
        dataLikError u tiny fam raw b β := by
  have hu := acc.u_nonneg
  have ht := acc.tiny_nonneg
  have hlt := hf.2.2.2.2.2.2.2
  have hrow : ∀ i, 0 ≤ rowError u tiny fam raw b β i := by
    intro i
    have hE : 0 ≤ rowTermError u tiny fam raw b β i := (abs_nonneg _).trans (row_near acc fam hd hf i).2
    have : 0 ≤ (1 + u) ^ 2 - 1 := by nlinarith
    unfold rowError
    positivity
  have hsz : ∀ i, |totalWt (exactData raw) i * rowLik fam raw b β i| + rowError u tiny fam raw b β i
      < big := by
    intro i
    have h1 : |totalWt (exactData raw) i * rowLik fam raw b β i| ≤ dataLikSize fam raw b β :=
      Finset.single_le_sum (f := fun i => |totalWt (exactData raw) i * rowLik fam raw b β i|)
        (fun i _ => abs_nonneg _) (Finset.mem_univ i)
    have h2 : rowError u tiny fam raw b β i ≤ ∑ i, rowError u tiny fam raw b β i :=
      Finset.single_le_sum (fun i _ => hrow i) (Finset.mem_univ i)
    have h3 := sumError_nonneg hu ht (d := (fmt.order .sum n).tree.depth 0)
      (k := (fmt.order .sum n).tree.ops 0)
      (S := dataLikSize fam raw b β + ∑ i, rowError u tiny fam raw b β i)
      (add_nonneg (Finset.sum_nonneg fun i _ => abs_nonneg _) (Finset.sum_nonneg fun i _ => hrow i))
    unfold dataLikError totalError at hlt
    linarith
  have hw := fun i => weighted_near acc fam hd hf i (hsz i)
  rw [exact_logLik]
  exact vsum_near acc.toAccurate (fun i => (hw i).1) (fun i => (hw i).2) le_rfl le_rfl hlt

/-! ### The penalty -/

theorem real_abs {x : Fl fmt} (h : x.isFinite) : (abs x).isFinite ∧ real (abs x) = |real x| := by
  refine finite_of_val (by rw [isNaN_abs]; exact h.1) ?_
  rw [val_abs h.1, val_real h, ← EReal.coe_neg]
  exact (EReal.coe_strictMono.monotone.map_max (a := real x) (b := -real x)).symm

theorem gt_zero_real {l : Fl fmt} (h : l.isFinite) : gt l 0 = true ↔ 0 < real l := by
  rw [gt_iff, val_real h, show (0 : Fl fmt).val = ((0 : ℝ) : EReal) from rfl, EReal.coe_lt_coe_iff]
  exact ⟨fun h => h.2.2, fun h' => ⟨h.1, id, h'⟩⟩

theorem strength_nonneg (l : ℝ) (j : Fin (ncols b p)) : 0 ≤ strength b l j := by
  cases b
  · exact le_max_right _ _
  · refine Fin.cases le_rfl (fun j => le_max_right l 0) j

theorem strength_zero {l : ℝ} (h : l ≤ 0) (j : Fin (ncols b p)) : strength b l j = 0 := by
  cases b
  · exact max_eq_right h
  · refine Fin.cases rfl (fun j => max_eq_right h) j

theorem strength_le (l : ℝ) (j : Fin (ncols b p)) : strength b l j ≤ max l 0 := by
  cases b
  · exact le_rfl
  · refine Fin.cases (le_max_right l 0) (fun j => le_rfl) j

/-- The strengths that the code multiplies with. -/
theorem zeroFirst_real {l : Fl fmt} (h : l.isFinite) (h0 : 0 < real l) (j : Fin (ncols b p)) :
    (zeroFirstMaybe (p := p) (b := b) (vfill l) j).isFinite ∧
      real (zeroFirstMaybe (p := p) (b := b) (vfill l) j) = strength b (real l) j := by
  cases b
  · exact ⟨h, (max_eq_left h0.le).symm⟩
  · refine Fin.cases real_zero (fun j => ⟨h, (max_eq_left h0.le).symm⟩) j

theorem l1Size_nonneg (l : ℝ) (β : Vec (Fl fmt) (ncols b p)) : 0 ≤ l1Size b l β :=
  Finset.sum_nonneg fun j _ => mul_nonneg (strength_nonneg l j) (abs_nonneg _)

theorem l2Size_nonneg (l : ℝ) (β : Vec (Fl fmt) (ncols b p)) : 0 ≤ l2Size b l β :=
  Finset.sum_nonneg fun j _ => mul_nonneg (strength_nonneg l j) (sq_nonneg _)

theorem totalError_ge (hu : 0 ≤ u) (ht : 0 ≤ tiny) {S e : ℝ} (h : 0 ≤ S + e) :
    e ≤ totalError fmt u tiny n S e := by
  have := sumError_nonneg hu ht (d := (fmt.order .sum n).tree.depth 0)
    (k := (fmt.order .sum n).tree.ops 0) h
  unfold totalError
  linarith

theorem l1Error_ge (hu : 0 ≤ u) (ht : 0 ≤ tiny) (l : ℝ) (β : Vec (Fl fmt) (ncols b p)) :
    u * l1Size b l β + ncols b p * tiny ≤ l1Error u tiny b l β := by
  have := l1Size_nonneg l β
  exact totalError_ge hu ht (by positivity)

theorem l2Error_ge (hu : 0 ≤ u) (ht : 0 ≤ tiny) (l : ℝ) (β : Vec (Fl fmt) (ncols b p)) :
    ((1 + u) ^ 2 - 1) * l2Size b l β + ncols b p * (((1 + u) * max l 0 + 1) * tiny) ≤
      l2Error u tiny b l β := by
  have h1 := l2Size_nonneg l β
  have h2 : 0 ≤ (1 + u) ^ 2 - 1 := by nlinarith
  have h3 := le_max_right l 0
  exact totalError_ge hu ht (by positivity)

theorem l1Error_nonneg (hu : 0 ≤ u) (ht : 0 ≤ tiny) (l : ℝ) (β : Vec (Fl fmt) (ncols b p)) :
    0 ≤ l1Error u tiny b l β := by
  have := l1Size_nonneg l β
  exact le_trans (by positivity) (l1Error_ge hu ht l β)

theorem l2Error_nonneg (hu : 0 ≤ u) (ht : 0 ≤ tiny) (l : ℝ) (β : Vec (Fl fmt) (ncols b p)) :
    0 ≤ l2Error u tiny b l β := by
  have h1 := l2Size_nonneg l β
  have h2 : 0 ≤ (1 + u) ^ 2 - 1 := by nlinarith
  have h3 := le_max_right l 0
  exact le_trans (by positivity) (l2Error_ge hu ht l β)

/-- The computed L1 penalty. -/
theorem sumL1_near (acc : Accurate fmt u tiny big) {l : Fl fmt} (hl : l.isFinite) (h0 : 0 < real l)
    {β : Vec (Fl fmt) (ncols b p)} (hβ : ∀ j, (β j).isFinite)
    (hlt : l1Size b (real l) β + l1Error u tiny b (real l) β < big) :
    (sumL1 (zeroFirstMaybe (p := p) (b := b) (vfill l)) β).isFinite ∧
      |real (sumL1 (zeroFirstMaybe (p := p) (b := b) (vfill l)) β) - l1Size b (real l) β| ≤
        l1Error u tiny b (real l) β := by
  have hu := acc.u_nonneg
  have ht := acc.tiny_nonneg
  have e0 := l1Error_nonneg hu ht (real l) β
  have habs : ∀ j, |strength b (real l) j * (|real (β j)|)| = strength b (real l) j * |real (β j)| :=
    fun j => abs_of_nonneg (mul_nonneg (strength_nonneg _ j) (abs_nonneg _))
  have hterm : ∀ j, (zeroFirstMaybe (p := p) (b := b) (vfill l) j * abs (β j)).isFinite ∧
      |real (zeroFirstMaybe (p := p) (b := b) (vfill l) j * abs (β j))
          - strength b (real l) j * (|real (β j)|)| ≤
        u * (strength b (real l) j * |real (β j)|) + tiny := by
    intro j
    obtain ⟨z1, z2⟩ := zeroFirst_real (b := b) (p := p) hl h0 j
    obtain ⟨a1, a2⟩ := real_abs (hβ j)
    have hs : strength b (real l) j * |real (β j)| ≤ l1Size b (real l) β :=
      Finset.single_le_sum (f := fun j => strength b (real l) j * |real (β j)|)
        (fun j _ => mul_nonneg (strength_nonneg _ j) (abs_nonneg _)) (Finset.mem_univ j)
    obtain ⟨m1, m2⟩ := mul_near acc z1 a1 (by rw [z2, a2, habs]; linarith)
    unfold Near at m2
    rw [z2, a2, habs] at m2
    exact ⟨m1, m2⟩
  refine vsum_near acc (fun j => (hterm j).1) (fun j => (hterm j).2) (le_of_eq ?_) (le_of_eq ?_) hlt
  · exact Finset.sum_congr rfl fun j _ => habs j
  · rw [Finset.sum_add_distrib, ← Finset.mul_sum, Finset.sum_const, Finset.card_univ, Fintype.card_fin,
      nsmul_eq_mul]
    rfl

/-- The computed sum of weighted squares. -/
theorem sumL2_near (acc : Accurate fmt u tiny big) {l : Fl fmt} (hl : l.isFinite) (h0 : 0 < real l)
    {β : Vec (Fl fmt) (ncols b p)} (hβ : ∀ j, (β j).isFinite) (hsq : ∀ j, real (β j) ^ 2 < big)
    (hlt : l2Size b (real l) β + l2Error u tiny b (real l) β < big) :
    (sumL2 (zeroFirstMaybe (p := p) (b := b) (vfill l)) β).isFinite ∧
      |real (sumL2 (zeroFirstMaybe (p := p) (b := b) (vfill l)) β) - l2Size b (real l) β| ≤
        l2Error u tiny b (real l) β := by
  have hu := acc.u_nonneg
  have ht := acc.tiny_nonneg
  have hge := l2Error_ge hu ht (real l) β
  have hm0 := le_max_right (real l) 0
  have hnn : ∀ j, 0 ≤ strength b (real l) j * real (β j) ^ 2 :=
    fun j => mul_nonneg (strength_nonneg _ j) (sq_nonneg _)
  have h2 : 0 ≤ (1 + u) ^ 2 - 1 := by nlinarith
  have hterm : ∀ j, (zeroFirstMaybe (p := p) (b := b) (vfill l) j * (β j * β j)).isFinite ∧
      |real (zeroFirstMaybe (p := p) (b := b) (vfill l) j * (β j * β j))
          - strength b (real l) j * real (β j) ^ 2| ≤
        ((1 + u) ^ 2 - 1) * (strength b (real l) j * real (β j) ^ 2)
          + ((1 + u) * max (real l) 0 + 1) * tiny := by
    intro j
    obtain ⟨z1, z2⟩ := zeroFirst_real (b := b) (p := p) hl h0 j
    have s0 := strength_nonneg (b := b) (real l) j
    have s1 := strength_le (b := b) (real l) j
    have hs : strength b (real l) j * real (β j) ^ 2 ≤ l2Size b (real l) β :=
      Finset.single_le_sum (f := fun j => strength b (real l) j * real (β j) ^ 2)
        (fun j _ => hnn j) (Finset.mem_univ j)
    have hcard : (1 : ℝ) ≤ (ncols b p : ℝ) := by
      have : 0 < ncols b p := lt_of_le_of_lt (Nat.zero_le _) j.isLt
      exact_mod_cast this
    have q0 : |real (β j) * real (β j)| = real (β j) ^ 2 := by
      rw [← sq, abs_of_nonneg (sq_nonneg _)]
    obtain ⟨m1, m2⟩ := mul_near acc (hβ j) (hβ j) (by rw [q0]; exact hsq j)
    unfold Near at m2
    rw [q0, ← sq] at m2
    have hn := hnn j
    have hc1 : ((1 + u) * max (real l) 0 + 1) * tiny ≤
        ncols b p * (((1 + u) * max (real l) 0 + 1) * tiny) :=
      le_mul_of_one_le_left (by positivity) hcard
    have hc2 : ((1 + u) ^ 2 - 1) * (strength b (real l) j * real (β j) ^ 2) ≤
        ((1 + u) ^ 2 - 1) * l2Size b (real l) β := mul_le_mul_of_nonneg_left hs h2
    have hc3 : strength b (real l) j * tiny ≤ max (real l) 0 * tiny := mul_le_mul_of_nonneg_right s1 ht
    have hc4 : u * (strength b (real l) j * tiny) ≤ u * (max (real l) 0 * tiny) :=
      mul_le_mul_of_nonneg_left hc3 hu
    have hc5 : 0 ≤ u * (strength b (real l) j * real (β j) ^ 2) := by positivity
    have hc6 : 0 ≤ u * (u * (strength b (real l) j * real (β j) ^ 2)) := by positivity
    have hc7 : 0 ≤ u * (max (real l) 0 * tiny) := by positivity
    obtain ⟨k1, k2⟩ := weight_near acc z1 m1 m2 (by
      rw [z2, abs_of_nonneg s0, abs_of_nonneg (sq_nonneg _)]
      nlinarith)
    refine ⟨k1, ?_⟩
    rw [z2] at k2
    refine k2.trans ?_
    rw [abs_of_nonneg s0, abs_of_nonneg hn]
    nlinarith
  refine vsum_near acc (fun j => (hterm j).1) (fun j => (hterm j).2) (le_of_eq ?_) (le_of_eq ?_) hlt
  · exact Finset.sum_congr rfl fun j _ => abs_of_nonneg (hnn j)
  · rw [Finset.sum_add_distrib, ← Finset.mul_sum, Finset.sum_const, Finset.card_univ, Fintype.card_fin,
      nsmul_eq_mul]
    rfl

/-- Half of it. -/
theorem halfL2_near (acc : AccurateLogs fmt u tiny big) {x : Fl fmt} (hx : x.isFinite) {l : ℝ}
    {β : Vec (Fl fmt) (ncols b p)} (h : |real x - l2Size b l β| ≤ l2Error u tiny b l β)
    (hlt : l2Size b l β + l2Error u tiny b l β < big) :
    ((half * x).isFinite ∧ |real (half * x) - l2Size b l β / 2| ≤ halfError u tiny b l β) ∧
    ((-half * x).isFinite ∧ |real (-half * x) - -(l2Size b l β / 2)| ≤ halfError u tiny b l β) := by
  have hu := acc.u_nonneg
  have s0 := l2Size_nonneg l β
  have hxs : |real x| ≤ l2Size b l β + l2Error u tiny b l β := by
    have := abs_add_le (real x - l2Size b l β) (l2Size b l β)
    rw [sub_add_cancel, abs_of_nonneg s0] at this
    linarith
  have hx0 := abs_nonneg (real x)
  have key : ∀ {c : Fl fmt} {s : ℝ}, c.isFinite → real c = s → |s| = 1 / 2 →
      (c * x).isFinite ∧ |real (c * x) - s * l2Size b l β| ≤ halfError u tiny b l β := by
    intro c s hc hr hs
    have e0 : |s * real x| = |real x| / 2 := by rw [abs_mul, hs]; ring
    obtain ⟨m1, m2⟩ := mul_near acc.toAccurate hc hx (by rw [hr, e0]; linarith)
    unfold Near at m2
    rw [hr, e0] at m2
    refine ⟨m1, ?_⟩
    have e1 := abs_add_le (real (c * x) - s * real x) (s * real x - s * l2Size b l β)
    rw [sub_add_sub_cancel, ← mul_sub, abs_mul, hs] at e1
    have e2 : u * (|real x| / 2) ≤ u * ((l2Size b l β + l2Error u tiny b l β) / 2) :=
      mul_le_mul_of_nonneg_left (by linarith) hu
    unfold halfError
    linarith
  obtain ⟨h1, h2⟩ := half_near acc
  obtain ⟨h3, h4⟩ := real_neg h1
  obtain ⟨k1, k2⟩ := key h1 h2 (by norm_num)
  obtain ⟨k3, k4⟩ := key h3 (h4.trans (by rw [h2])) (by norm_num)
  refine ⟨⟨k1, ?_⟩, k3, ?_⟩
  · rwa [show l2Size b l β / 2 = 1 / 2 * l2Size b l β by ring]
  · rwa [show -(l2Size b l β / 2) = -(1 / 2) * l2Size b l β by ring]

/-- The computed penalty, for every combination of penalties. -/
theorem penalty_near (acc : AccurateLogs fmt u tiny big) (options : FitOptions (Fl fmt) (ncols b p))
    (h1 : options.l1.isFinite) (h2 : options.l2.isFinite) {β : Vec (Fl fmt) (ncols b p)}
    (hβ : ∀ j, (β j).isFinite) (hsq : ∀ j, real (β j) ^ 2 < big)
    (hlt : penSize b (real options.l1) (real options.l2) β
      + penError u tiny b (real options.l1) (real options.l2) β < big)
    (hlt2 : l2Size b (real options.l2) β + l2Error u tiny b (real options.l2) β < big) :
    ((getReg options).likelihood β).isFinite ∧
      |real ((getReg options).likelihood β) - -penSize b (real options.l1) (real options.l2) β| ≤
        penError u tiny b (real options.l1) (real options.l2) β := by
  have hu := acc.u_nonneg
  have ht := acc.tiny_nonneg
  have s1 := l1Size_nonneg (real options.l1) β
  have s2 := l2Size_nonneg (real options.l2) β
  have e1 := l1Error_nonneg hu ht (real options.l1) β
  have e2 := l2Error_nonneg hu ht (real options.l2) β
  have e3 : 0 ≤ halfError u tiny b (real options.l2) β := by unfold halfError; positivity
  set E := l1Error u tiny b (real options.l1) β + halfError u tiny b (real options.l2) β with hE
  have hpe : penError u tiny b (real options.l1) (real options.l2) β
      = E + (u * (penSize b (real options.l1) (real options.l2) β + E) + tiny) := rfl
  have hps : penSize b (real options.l1) (real options.l2) β
      = l1Size b (real options.l1) β + l2Size b (real options.l2) β / 2 := rfl
  have s3 : 0 ≤ penSize b (real options.l1) (real options.l2) β := by rw [hps]; positivity
  have e4 : 0 ≤ u * (penSize b (real options.l1) (real options.l2) β + E) := by positivity
  have z1 : ¬ 0 < real options.l1 → l1Size b (real options.l1) β = 0 := fun h =>
    Finset.sum_eq_zero fun j _ => by rw [strength_zero (not_lt.mp h), zero_mul]
  have z2 : ¬ 0 < real options.l2 → l2Size b (real options.l2) β = 0 := fun h =>
    Finset.sum_eq_zero fun j _ => by rw [strength_zero (not_lt.mp h), zero_mul]
  unfold getReg
  by_cases c1 : 0 < real options.l1 <;> by_cases c2 : 0 < real options.l2
  · simp only [(gt_zero_real h1).mpr c1, (gt_zero_real h2).mpr c2, Bool.and_self, if_true,
      Reg.likelihood]
    obtain ⟨a1, a2⟩ := sumL1_near acc.toAccurate h1 c1 hβ (by linarith)
    obtain ⟨b1, b2⟩ := sumL2_near acc.toAccurate h2 c2 hβ hsq hlt2
    obtain ⟨⟨d1, d2⟩, -⟩ := halfL2_near acc b1 b2 hlt2
    set X := sumL1 (zeroFirstMaybe (p := p) (b := b) (vfill options.l1)) β with hX
    set Y := half * sumL2 (zeroFirstMaybe (p := p) (b := b) (vfill options.l2)) β with hY
    obtain ⟨n1, n2⟩ := real_neg a1
    obtain ⟨m1, m2⟩ := real_neg d1
    have g1 : |real (-X) + real (-Y) - -penSize b (real options.l1) (real options.l2) β| ≤ E := by
      have := abs_add_le (l1Size b (real options.l1) β - real X) (l2Size b (real options.l2) β / 2 - real Y)
      rw [abs_sub_comm, abs_sub_comm (l2Size b (real options.l2) β / 2)] at this
      rw [n2, m2, hps, show -real X + -real Y
          - -(l1Size b (real options.l1) β + l2Size b (real options.l2) β / 2)
        = (l1Size b (real options.l1) β - real X) + (l2Size b (real options.l2) β / 2 - real Y) by ring]
      linarith
    have g2 : |real (-X) + real (-Y)| ≤ penSize b (real options.l1) (real options.l2) β + E := by
      have := abs_add_le (real (-X) + real (-Y) - -penSize b (real options.l1) (real options.l2) β)
        (-penSize b (real options.l1) (real options.l2) β)
      rw [sub_add_cancel, abs_neg, abs_of_nonneg s3] at this
      linarith
    obtain ⟨k1, k2⟩ := add_near acc.toAccurate n1 m1 (by linarith)
    unfold Near at k2
    refine ⟨k1, ?_⟩
    have g3 := abs_add_le (real (-X + -Y) - (real (-X) + real (-Y)))
      (real (-X) + real (-Y) - -penSize b (real options.l1) (real options.l2) β)
    rw [sub_add_sub_cancel] at g3
    have g4 := mul_le_mul_of_nonneg_left g2 hu
    change |real (-X + -Y) - -penSize b (real options.l1) (real options.l2) β| ≤ _
    linarith
  · simp only [(gt_zero_real h1).mpr c1, Bool.eq_false_iff.mpr (fun h => c2 ((gt_zero_real h2).mp h)),
      Bool.and_false, Bool.false_eq_true, if_false, if_true, Reg.likelihood]
    obtain ⟨a1, a2⟩ := sumL1_near acc.toAccurate h1 c1 hβ (by linarith)
    obtain ⟨n1, n2⟩ := real_neg a1
    refine ⟨n1, ?_⟩
    rw [n2, hps, z2 c2, zero_div, add_zero, neg_sub_neg, abs_sub_comm]
    linarith
  · simp only [(gt_zero_real h2).mpr c2, Bool.eq_false_iff.mpr (fun h => c1 ((gt_zero_real h1).mp h)),
      Bool.false_and, Bool.false_eq_true, if_false, if_true, Reg.likelihood]
    obtain ⟨b1, b2⟩ := sumL2_near acc.toAccurate h2 c2 hβ hsq hlt2
    obtain ⟨-, d1, d2⟩ := halfL2_near acc b1 b2 hlt2
    refine ⟨d1, ?_⟩
    rw [hps, z1 c1, zero_add]
    linarith
  · simp only [Bool.eq_false_iff.mpr (fun h => c1 ((gt_zero_real h1).mp h)),
      Bool.eq_false_iff.mpr (fun h => c2 ((gt_zero_real h2).mp h)), Bool.and_false,
      Bool.false_eq_true, if_false, Reg.likelihood]
    refine ⟨real_zero.1, ?_⟩
    rw [real_zero.2, hps, z1 c1, z2 c2, zero_div, add_zero, neg_zero, sub_zero, abs_zero]
    linarith

/-- The exact penalty, coefficient by coefficient. -/
theorem exact_penalty (l1 l2 : ℝ) (β : Vec (Fl fmt) (ncols b p)) :
    penalty l1 l2 (fun _ => 1) b (fun j => real (β j)) = penSize b l1 l2 β := by
  unfold penalty penSize l1Size l2Size
  simp only [one_mul]
  cases b
  · simp only [strength, onSlopes, slopes, ← Finset.mul_sum]
    ring
  · rw [Fin.sum_univ_succ (n := p) (f := fun j => strength true l1 j * |real (β j)|),
      Fin.sum_univ_succ (n := p) (f := fun j => strength true l2 j * real (β j) ^ 2)]
    simp only [strength, onSlopes, slopes, Fin.cons_zero, Fin.cons_succ, zero_mul, zero_add,
      ← Finset.mul_sum]
    ring

/-- **C95** with the penalty: the computed objective of a fit is finite and close to the exact
penalized log-likelihood. -/
theorem C95_penalized (acc : AccurateLogs fmt u tiny big) (fam : Family)
    {raw : Dataset (Fl fmt) n p false} {data : Dataset (Fl fmt) n p b}
    (hd : raw.finalize false b = some data) (options : FitOptions (Fl fmt) (ncols b p))
    {β : Vec (Fl fmt) (ncols b p)} (hf : PenLikFits u tiny big fam raw b options.l1 options.l2 β) :
    (penalized fam data options β).isFinite ∧
      |real (penalized fam data options β)
          - exactPenLik fam raw b (real options.l1) (real options.l2) β| ≤
        penLikError u tiny fam raw b (real options.l1) (real options.l2) β := by
  obtain ⟨hl, h1, h2, hβ, hsq, hlt, hlt2⟩ := hf
  have hu := acc.u_nonneg
  have ht := acc.tiny_nonneg
  obtain ⟨a1, a2⟩ := C95_likelihood acc fam hd hl
  have d0 : |logLik fam.glm (exactData raw) b (fun j => real (β j))| ≤ dataLikSize fam raw b β := by
    rw [exact_logLik]
    exact Finset.abs_sum_le_sum_abs _ _
  have dE := (abs_nonneg _).trans a2
  have s1 := l1Size_nonneg (real options.l1) β
  have s2 := l2Size_nonneg (real options.l2) β
  have e1 := l1Error_nonneg hu ht (real options.l1) β
  have e2 := l2Error_nonneg hu ht (real options.l2) β
  have s3 : 0 ≤ penSize b (real options.l1) (real options.l2) β := by unfold penSize; positivity
  have e3 : 0 ≤ penError u tiny b (real options.l1) (real options.l2) β := by
    unfold penError halfError; positivity
  have d1 := (abs_nonneg _).trans d0
  have hpe : penLikError u tiny fam raw b (real options.l1) (real options.l2) β
      = dataLikError u tiny fam raw b β + penError u tiny b (real options.l1) (real options.l2) β
        + (u * (dataLikSize fam raw b β + penSize b (real options.l1) (real options.l2) β
          + (dataLikError u tiny fam raw b β
            + penError u tiny b (real options.l1) (real options.l2) β)) + tiny) := rfl
  have e4 : 0 ≤ u * (dataLikSize fam raw b β + penSize b (real options.l1) (real options.l2) β
          + (dataLikError u tiny fam raw b β
            + penError u tiny b (real options.l1) (real options.l2) β)) := by positivity
  obtain ⟨b1, b2⟩ := penalty_near acc options h1 h2 hβ hsq (by linarith) hlt2
  set X := fam.glm.logLike data β with hX
  set Y := (getReg options).likelihood β with hY
  set L := logLik fam.glm (exactData raw) b (fun j => real (β j)) with hL
  set P := penSize b (real options.l1) (real options.l2) β with hP
  have hex : exactPenLik fam raw b (real options.l1) (real options.l2) β = L - P := by
    unfold exactPenLik penLogLik
    rw [exact_penalty]
  have g1 : |real X + real Y - (L - P)| ≤ dataLikError u tiny fam raw b β
      + penError u tiny b (real options.l1) (real options.l2) β := by
    have := abs_add_le (real X - L) (real Y - -P)
    rw [show real X + real Y - (L - P) = (real X - L) + (real Y - -P) by ring]
    linarith
  have g0 : |L - P| ≤ dataLikSize fam raw b β + P := by
    have := abs_sub L P
    rw [abs_of_nonneg s3] at this
    linarith
  have g2 : |real X + real Y| ≤ dataLikSize fam raw b β + P + (dataLikError u tiny fam raw b β
      + penError u tiny b (real options.l1) (real options.l2) β) := by
    have := abs_add_le (real X + real Y - (L - P)) (L - P)
    rw [sub_add_cancel] at this
    linarith
  obtain ⟨k1, k2⟩ := add_near acc.toAccurate a1 b1 (by linarith)
  unfold Near at k2
  refine ⟨k1, ?_⟩
  rw [hex, hpe]
  have g3 := abs_add_le (real (X + Y) - (real X + real Y)) (real X + real Y - (L - P))
  rw [sub_add_sub_cancel] at g3
  have g4 := mul_le_mul_of_nonneg_left g2 hu
  change |real (X + Y) - (L - P)| ≤ _
  linarith

/-! ### Whole fits -/

section
variable {env : Env (Fl fmt)} {fam : Family} {raw : Dataset (Fl fmt) n p false}
  {data : Dataset (Fl fmt) n p b} {options : FitOptions (Fl fmt) (ncols b p)}

/-- Without standardization the reported coefficients are the ones of the iteration. -/
theorem plain_inverseTransform (hd : raw.finalize false b = some data) (v : Vec (Fl fmt) (ncols b p)) :
    data.inverseTransformBeta v = v := by
  rw [finalize_plain hd]
  cases b <;> rfl

/-- **C95** for a fit: the reported log-likelihood is close to the exact penalized log-likelihood at the
reported coefficients, with every penalty and whatever the linear-algebra library returned. -/
theorem C95_fit (acc : AccurateLogs fmt u tiny big) (hd : raw.finalize false b = some data)
    {f : Fit (Fl fmt) n p b} (h : regression env fam.glm data options = .ok f)
    (hf : PenLikFits u tiny big fam raw b options.l1 options.l2 f.result) :
    f.modelLike.isFinite ∧
      |real f.modelLike - exactPenLik fam raw b (real options.l1) (real options.l2) f.result| ≤
        penLikError u tiny fam raw b (real options.l1) (real options.l2) f.result := by
  obtain ⟨-, h1, h2⟩ := C27_recorded_likelihoods h
  rw [plain_inverseTransform hd] at h1
  rw [h1] at hf ⊢
  rw [h2]
  exact C95_penalized acc fam hd options hf

/-- Likewise for the recorded steps. -/
theorem C95_history (acc : AccurateLogs fmt u tiny big) (hd : raw.finalize false b = some data)
    {f : Fit (Fl fmt) n p b} (h : regression env fam.glm data options = .ok f)
    {st : IrlsStep (Fl fmt) (ncols b p)} (hst : st ∈ f.history)
    (hf : PenLikFits u tiny big fam raw b options.l1 options.l2 st.guess) :
    st.like.isFinite ∧
      |real st.like - exactPenLik fam raw b (real options.l1) (real options.l2) st.guess| ≤
        penLikError u tiny fam raw b (real options.l1) (real options.l2) st.guess := by
  obtain ⟨guess, h1, h2⟩ := (C27_recorded_likelihoods h).1 st hst
  rw [plain_inverseTransform hd] at h1
  rw [h1] at hf ⊢
  rw [h2]
  exact C95_penalized acc fam hd options hf

/-- The exact penalized log-likelihood at the reported coefficients is not smaller than at any recorded
step, up to the two errors. -/
theorem C95_best_step (acc : AccurateLogs fmt u tiny big) (hd : raw.finalize false b = some data)
    {f : Fit (Fl fmt) n p b} (h : regression env fam.glm data options = .ok f)
    (hf : ∀ st ∈ f.history, PenLikFits u tiny big fam raw b options.l1 options.l2 st.guess)
    {st : IrlsStep (Fl fmt) (ncols b p)} (hst : st ∈ f.history) :
    exactPenLik fam raw b (real options.l1) (real options.l2) st.guess
        - penLikError u tiny fam raw b (real options.l1) (real options.l2) st.guess
        - penLikError u tiny fam raw b (real options.l1) (real options.l2) f.result ≤
      exactPenLik fam raw b (real options.l1) (real options.l2) f.result := by
  have hfin : ∀ st ∈ f.history, st.like.isFinite := fun st hst => (C95_history acc hd h hst (hf st hst)).1
  have hres : PenLikFits u tiny big fam raw b options.l1 options.l2 f.result := by
    rcases C25_best_of_history h with ⟨h1, -⟩ | ⟨pre, opt, post, h1, h2, -⟩
    · rw [h1] at hst; simp at hst
    · rw [h2]; exact hf opt (by rw [h1]; simp)
  obtain ⟨-, h1⟩ := (C85_reported h).2
    (fun st hst he => by have := (hfin st hst).1; rw [he] at this; exact this trivial)
    ⟨st, hst, (hfin st hst).1⟩
  obtain ⟨a1, a2⟩ := C95_fit acc hd h hres
  obtain ⟨b1, b2⟩ := C95_history acc hd h hst (hf st hst)
  have h3 := h1 st hst b1.1
  rw [val_real a1, val_real b1, EReal.coe_le_coe_iff] at h3
  have := (abs_le.mp a2).2
  have := (abs_le.mp b2).1
  linarith

/-- Without L1 penalty, likewise for the start: rounding cannot make a fit worse than its start by more
than the two errors. -/
theorem C95_never_worse (acc : AccurateLogs fmt u tiny big) (hd : raw.finalize false b = some data)
    (hl1 : gt options.l1 0 = false) (henv : SolvesInFormat env)
    (hstart : ∀ beta, options.initGuess = some beta → ∀ j, Stored (beta j))
    {f : Fit (Fl fmt) n p b} (h : regression env fam.glm data options = .ok f)
    (h0 : PenLikFits u tiny big fam raw b options.l1 options.l2 (initialGuess env fam.glm data options))
    (hf : PenLikFits u tiny big fam raw b options.l1 options.l2 f.result) :
    exactPenLik fam raw b (real options.l1) (real options.l2) (initialGuess env fam.glm data options)
        - penLikError u tiny fam raw b (real options.l1) (real options.l2)
          (initialGuess env fam.glm data options)
        - penLikError u tiny fam raw b (real options.l1) (real options.l2) f.result ≤
      exactPenLik fam raw b (real options.l1) (real options.l2) f.result := by
  obtain ⟨b1, b2⟩ := C95_penalized acc fam hd options h0
  obtain ⟨a1, a2⟩ := C95_fit acc hd h hf
  have h3 := (C85_never_worse hl1 henv hstart h b1.1).2
  rw [val_real a1, val_real b1, EReal.coe_le_coe_iff] at h3
  have := (abs_le.mp a2).2
  have := (abs_le.mp b2).1
  linarith

end

/-! ### The formats -/

theorem accurateLogs_binary {p : ℕ} {emin emax : ℤ} (hp : 1 ≤ p) (hp2 : 2 ≤ p) (hmin : emin ≤ 0)
    (hmax : 0 ≤ emax) (hmax1 : 1 ≤ emax) (ht : emin - p ≤ -3) (hh : emin ≤ -1) (s : Bool)
    (order : SumSite → (n : ℕ) → SumOrder n) :
    AccurateLogs (binary p emin emax hp hmin hmax s order) (2 ^ (-p : ℤ)) (2 ^ (emin - p)) (2 ^ emax) where
  toAccurate := accurate_binary hp hp2 hmin hmax hmax1 ht s order
  rnd_half := by
    change roundBinary p emin emax ((1 / 2 : ℝ) : EReal) = _
    have h1 : roundBits p emin (1 / 2 : ℝ) = 1 / 2 := by
      have := roundBits_zpow (emin := emin) hp (e := -1) (by omega)
      rw [show (2 : ℝ) ^ (-1 : ℤ) = 1 / 2 by norm_num] at this
      exact this
    have h2 : (2 : ℝ) ^ (0 : ℤ) < 2 ^ (emax + 1) := zpow_lt_zpow_right₀ (by norm_num) (by omega)
    rw [zpow_zero] at h2
    rw [roundBinary_coe, h1, if_neg (by linarith), if_neg (by linarith)]
  ln_near := fun v hv hlt => by
    have e : (binary p emin emax hp hmin hmax s order).ln v = roundBinary p emin emax (Real.log v : ℝ) := by
      change roundBinary p emin emax (eln v) = _
      rw [eln_coe, if_neg (not_le.mpr hv)]
    rw [e]
    obtain ⟨hl, hr⟩ := abs_lt.mp hlt
    rcases roundBinary_close hp (hmin.trans hmax) (Real.log v) with h | ⟨-, h⟩ | ⟨-, h⟩
    · exact h
    · linarith
    · linarith
  ln1p_near := fun v hv hlt => by
    have e : (binary p emin emax hp hmin hmax s order).ln1p v
        = roundBinary p emin emax (Real.log (1 + v) : ℝ) := by
      change roundBinary p emin emax (eln1p v) = _
      rw [eln1p_coe, if_neg (by linarith)]
    rw [e]
    have h0 : 0 ≤ Real.log (1 + v) := Real.log_nonneg (by linarith)
    have hpos : (0 : ℝ) < 2 ^ emax := by positivity
    rcases roundBinary_close hp (hmin.trans hmax) (Real.log (1 + v)) with h | ⟨-, h⟩ | ⟨-, h⟩
    · exact h
    · linarith
    · linarith

/-- The bounds hold for `f64` with any order of summation, if the library rounds correctly. -/
theorem accurateLogs_binary64 (order : SumSite → (n : ℕ) → SumOrder n) :
    AccurateLogs (binary64 order) (2 ^ (-53 : ℤ)) (2 ^ (-1075 : ℤ)) (2 ^ (1023 : ℤ)) := by
  have := accurateLogs_binary (p := 53) (emin := -1022) (emax := 1023) (by norm_num) (by norm_num)
    (by norm_num) (by norm_num) (by norm_num) (by norm_num) (by norm_num) false order
  exact this

/-- Likewise for `f32`. -/
theorem accurateLogs_binary32 (order : SumSite → (n : ℕ) → SumOrder n) :
    AccurateLogs (binary32 order) (2 ^ (-24 : ℤ)) (2 ^ (-150 : ℤ)) (2 ^ (127 : ℤ)) := by
  have := accurateLogs_binary (p := 24) (emin := -126) (emax := 127) (by norm_num) (by norm_num)
    (by norm_num) (by norm_num) (by norm_num) (by norm_num) (by norm_num) false order
  exact this

/-! ### An example -/

/-- The data of `oneData` before the intercept is added. -/
noncomputable def oneRaw : Dataset (Fl binary64) 1 0 false :=
  { y := fun _ => 1, x := fun _ j => j.elim0, linearOffset := none, weights := some fun _ => 1,
    freqs := some fun _ => 1, standardizer := none }

theorem oneRaw_finalize : oneRaw.finalize false true = some oneData := by
  have : Dataset.padded true oneRaw.x = (fun _ _ => 1 : Mat (Fl binary64) 1 (ncols true 0)) := by
    funext i j
    refine Fin.cases rfl (fun j => j.elim0) j
  change some _ = some _
  congr 1
  unfold oneData
  rw [← this]
  rfl

theorem oneRaw_sizes {a : ℝ} (h0 : |a| = 1) {β : Vec (Fl binary64) 1} (hβ : β = fun _ => num (a : EReal)) :
    exactPred true oneRaw.x oneRaw.linearOffset β 0 = a ∧
    predError u tiny true oneRaw.x oneRaw.linearOffset β 0 = u ^ 2 + 2 * u + 2 * (1 + u) ^ 2 * tiny ∧
    predSize true oneRaw.x oneRaw.linearOffset β 0 = 1 := by
  have hr : real (β 0) = a := by rw [hβ]; exact (real_num a).2
  have h1 : predSize true oneRaw.x oneRaw.linearOffset β 0 = 1 := by
    change ∑ j : Fin 1, |design true (n := 1) (p := 0) _ 0 j * real (β j)| + |(0 : ℝ)| = 1
    rw [Fin.sum_univ_one, hr]
    change |(1 : ℝ) * a| + |0| = 1
    rw [one_mul, h0]; norm_num
  refine ⟨?_, ?_, h1⟩
  · change ∑ j : Fin 1, design true (n := 1) (p := 0) _ 0 j * real (β j) + (0 : ℝ) = a
    rw [Fin.sum_univ_one, hr]
    change (1 : ℝ) * a + 0 = a
    ring
  · unfold predError sumError
    rw [h1]
    have e1 : predDepth binary64 true 1 0 oneRaw.linearOffset 0 = 2 := rfl
    have e2 : predOps binary64 true 1 0 oneRaw.linearOffset 0 = 2 := rfl
    rw [e1, e2]
    push_cast
    ring

theorem one_total (S e : ℝ) :
    totalError binary64 u tiny 1 S e = e + (u * (S + e) + (1 + u) * tiny) := by
  have e1 : (binary64.order .sum 1).tree.depth 0 = 1 := rfl
  have e2 : (binary64.order .sum 1).tree.ops 0 = 1 := rfl
  unfold totalError sumError
  rw [e1, e2]
  push_cast
  ring

/-- The errors of the penalty in the example, in units of the relative error. -/
theorem oneRaw_pen (hu : 0 ≤ u) (hu1 : u ≤ 1 / 1000) (ht : 0 ≤ tiny) (htu : tiny ≤ u)
    (β : Vec (Fl binary64) (ncols true 0)) :
    penSize true 0 0 β = 0 ∧ l2Size true 0 β = 0 ∧ l2Error u tiny true 0 β ≤ 4 * u ∧
    0 ≤ penError u tiny true 0 0 β ∧ penError u tiny true 0 0 β ≤ 11 * u := by
  have hs1 : l1Size true 0 β = 0 :=
    Finset.sum_eq_zero fun j _ => by rw [strength_zero le_rfl, zero_mul]
  have hs2 : l2Size true 0 β = 0 :=
    Finset.sum_eq_zero fun j _ => by rw [strength_zero le_rfl, zero_mul]
  have hps : penSize true 0 0 β = 0 := by unfold penSize; rw [hs1, hs2]; norm_num
  have g2 : (1 + u) * tiny ≤ 2 * u := mul_le_mul (by linarith) htu ht (by norm_num)
  have hcast : ((ncols true 0 : ℕ) : ℝ) = 1 := by norm_num
  have hl1 : 0 ≤ l1Error u tiny true 0 β ∧ l1Error u tiny true 0 β ≤ 4 * u := by
    unfold l1Error
    rw [hs1, hcast]
    change 0 ≤ totalError binary64 u tiny 1 0 (u * 0 + 1 * tiny) ∧
      totalError binary64 u tiny 1 0 (u * 0 + 1 * tiny) ≤ 4 * u
    rw [one_total]
    exact ⟨by positivity, by nlinarith⟩
  have hl2 : 0 ≤ l2Error u tiny true 0 β ∧ l2Error u tiny true 0 β ≤ 4 * u := by
    unfold l2Error
    rw [hs2, hcast, max_self]
    change 0 ≤ totalError binary64 u tiny 1 0 (((1 + u) ^ 2 - 1) * 0 + 1 * (((1 + u) * 0 + 1) * tiny)) ∧
      totalError binary64 u tiny 1 0 (((1 + u) ^ 2 - 1) * 0 + 1 * (((1 + u) * 0 + 1) * tiny)) ≤ 4 * u
    rw [one_total]
    simp only [mul_zero, zero_add, one_mul]
    exact ⟨by positivity, by nlinarith⟩
  have hpen : 0 ≤ penError u tiny true 0 0 β ∧ penError u tiny true 0 0 β ≤ 11 * u := by
    have hh : 0 ≤ halfError u tiny true 0 β ∧ halfError u tiny true 0 β ≤ 5 * u := by
      unfold halfError
      rw [hs2, zero_add]
      refine ⟨by have := hl2.1; positivity, ?_⟩
      have : u * (l2Error u tiny true 0 β / 2) ≤ u * 1 := mul_le_mul_of_nonneg_left (by linarith [hl2.2]) hu
      linarith [hl2.2]
    unfold penError
    rw [hps, zero_add]
    refine ⟨by have := hl1.1; have := hh.1; positivity, ?_⟩
    have : u * (l1Error u tiny true 0 β + halfError u tiny true 0 β) ≤ u * 1 :=
      mul_le_mul_of_nonneg_left (by linarith [hl1.2, hh.2]) hu
    linarith [hl1.2, hh.2]
  exact ⟨hps, hs2, hl2.2, hpen⟩

/-- The errors of the log-likelihood in the example, in units of the relative error. -/
theorem oneRaw_error (hu : 0 ≤ u) (hu1 : u ≤ 1 / 1000) (ht : 0 ≤ tiny) (htu : tiny ≤ u) {a : ℝ}
    (h0 : |a| = 1) {β : Vec (Fl binary64) 1} (hβ : β = fun _ => num (a : EReal)) :
    predError u tiny true oneRaw.x oneRaw.linearOffset β 0 ≤ 5 * u ∧
    rowTermError u tiny .linear oneRaw true β 0 ≤ 40 * u ∧
    dataLikError u tiny .linear oneRaw true β ≤ 70 * u ∧
    rowLik .linear oneRaw true β 0 = a - 1 / 2 ∧
    dataLikSize .linear oneRaw true β = |a - 1 / 2| ∧
    logLik Family.linear.glm (exactData oneRaw) true (fun j => real (β j)) = a - 1 / 2 := by
  obtain ⟨h1, h2, -⟩ := oneRaw_sizes (u := u) (tiny := tiny) h0 hβ
  have hsq : a ^ 2 = 1 := by rw [← sq_abs, h0, one_pow]
  have huu : u * u ≤ u / 1000 := by nlinarith
  have hut : u * tiny ≤ u / 1000 := by nlinarith
  have hutt : 0 ≤ u * tiny := by positivity
  have huut : u * (u * tiny) ≤ u / 1000 := by nlinarith
  have hB : predError u tiny true oneRaw.x oneRaw.linearOffset β 0 ≤ 5 * u := by
    rw [h2]; nlinarith
  have hB0 : 0 ≤ predError u tiny true oneRaw.x oneRaw.linearOffset β 0 := by rw [h2]; positivity
  set B := predError u tiny true oneRaw.x oneRaw.linearOffset β 0 with hBd
  have hp1 : 1 ≤ (1 + u) ^ 5 := one_le_pow₀ (by linarith)
  have hp5 : (1 + u) ^ 5 - 1 ≤ 6 * u := by
    have : (1 + u) ^ 5 = 1 + 5 * u + u * (10 * u + 10 * u ^ 2 + 5 * u ^ 3 + u ^ 4) := by ring
    have h2 : u ^ 2 ≤ u := by nlinarith
    have h3 : u ^ 3 ≤ u := by nlinarith
    have h4 : u ^ 4 ≤ u := by nlinarith
    have : 10 * u + 10 * u ^ 2 + 5 * u ^ 3 + u ^ 4 ≤ 1 := by linarith
    nlinarith
  have hy : real (oneRaw.y 0) = 1 := real_one.2
  have hnat : exactNat .linear oneRaw true β 0 = a := h1
  have hlik : rowLik .linear oneRaw true β 0 = a - 1 / 2 := by
    unfold rowLik
    rw [hy, hnat]
    change 1 * a - a ^ 2 / 2 = _
    rw [hsq]; ring
  have hw : totalWt (exactData oneRaw) 0 = 1 := by
    change real (1 : Fl binary64) * real (1 : Fl binary64) = 1
    rw [real_one.2]; norm_num
  have hfq : freq (exactData oneRaw) 0 = 1 := real_one.2
  have hT0 : 0 ≤ rowTermError u tiny .linear oneRaw true β 0 ∧
      rowTermError u tiny .linear oneRaw true β 0 ≤ 40 * u := by
    have e : rowTermError u tiny .linear oneRaw true β 0
        = (1 * B + (1 + B) * B) + ((1 + u) ^ 5 - 1) * (3 / 2 + (1 * B + (1 + B) * B))
          + (6 + 2 * (1 + B)) * tiny := by
      unfold rowTermError termError
      rw [hy, hnat]
      change (|(1 : ℝ)| * B + (|a| + B) * B) + ((1 + u) ^ 5 - 1) * (|1 * a| + |a ^ 2 / 2|
        + (|(1 : ℝ)| * B + (|a| + B) * B)) + (6 + 2 * (|a| + B)) * tiny = _
      rw [hsq, one_mul, h0, abs_one, abs_of_pos (by norm_num : (0 : ℝ) < 1 / 2)]
      ring
    have hBB : B * B ≤ u := by nlinarith
    have hBB0 : 0 ≤ B * B := by positivity
    have hm : 1 * B + (1 + B) * B ≤ 11 * u := by nlinarith
    have hm0 : 0 ≤ 1 * B + (1 + B) * B := by positivity
    rw [e]
    refine ⟨?_, ?_⟩
    · have : 0 ≤ (1 + u) ^ 5 - 1 := by linarith
      positivity
    · have g1 : ((1 + u) ^ 5 - 1) * (3 / 2 + (1 * B + (1 + B) * B)) ≤ 6 * u * 2 :=
        mul_le_mul hp5 (by linarith) (by linarith) (by linarith)
      have g2 : (6 + 2 * (1 + B)) * tiny ≤ 10 * u := 
        mul_le_mul (by linarith) htu ht (by norm_num)
      linarith
  obtain ⟨hT1, hT⟩ := hT0
  have ha : |a - 1 / 2| ≤ 3 / 2 := by
    have := abs_sub a (1 / 2)
    rw [h0, abs_of_pos (by norm_num : (0 : ℝ) < 1 / 2)] at this
    linarith
  have ha0 := abs_nonneg (a - 1 / 2)
  have hsz : dataLikSize .linear oneRaw true β = |a - 1 / 2| := by
    unfold dataLikSize
    rw [Fin.sum_univ_one, hw, hlik, one_mul]
  have hrow : 0 ≤ rowError u tiny .linear oneRaw true β 0 ∧
      rowError u tiny .linear oneRaw true β 0 ≤ 60 * u := by
    unfold rowError
    rw [hw, hfq, hlik, one_mul, abs_one]
    have : 0 ≤ (1 + u) ^ 2 - 1 := by nlinarith
    refine ⟨by positivity, ?_⟩
    have g1 : ((1 + u) ^ 2 - 1) * |a - 1 / 2| ≤ 3 * u * (3 / 2) :=
      mul_le_mul (by nlinarith) ha ha0 (by linarith)
    have g2 : (1 + u) ^ 2 * 1 * rowTermError u tiny .linear oneRaw true β 0 ≤ 5 / 4 * (40 * u) :=
      mul_le_mul (by nlinarith) hT hT1 (by norm_num)
    have g3 : ((1 + u) * 1 + 1) * tiny ≤ 3 * u := mul_le_mul (by linarith) htu ht (by norm_num)
    linarith
  obtain ⟨hrow0, hrow1⟩ := hrow
  have hdat : 0 ≤ dataLikError u tiny .linear oneRaw true β ∧
      dataLikError u tiny .linear oneRaw true β ≤ 70 * u := by
    unfold dataLikError
    rw [one_total, hsz, Fin.sum_univ_one]
    refine ⟨by positivity, ?_⟩
    have g1 : u * (|a - 1 / 2| + rowError u tiny .linear oneRaw true β 0) ≤ u * 2 :=
      mul_le_mul_of_nonneg_left (by linarith) hu
    have g2 : (1 + u) * tiny ≤ 2 * u := mul_le_mul (by linarith) htu ht (by norm_num)
    linarith
  obtain ⟨hdat0, hdat1⟩ := hdat
  refine ⟨hB, hT, hdat1, hlik, hsz, ?_⟩
  rw [exact_logLik, Fin.sum_univ_one, hw, hlik]
  ring

/-- Nothing overflows in the example, and the errors are small. -/
theorem oneRaw_fits (hu : 0 ≤ u) (hu1 : u ≤ 1 / 1000) (ht : 0 ≤ tiny) (htu : tiny ≤ u) (hb : 100 ≤ big)
    {a : ℝ} (h0 : |a| = 1) {β : Vec (Fl binary64) 1} (hβ : β = fun _ => num (a : EReal)) :
    PenLikFits u tiny big .linear oneRaw true 0 0 β ∧
    penLikError u tiny .linear oneRaw true 0 0 β ≤ 85 * u ∧
    exactPenLik .linear oneRaw true 0 0 β = a - 1 / 2 := by
  obtain ⟨h1, h2, h3, h4, h5, h6⟩ := oneRaw_error hu hu1 ht htu h0 hβ
  obtain ⟨p1, p2, p3, p4, p5⟩ := oneRaw_pen hu hu1 ht htu β
  obtain ⟨q1, q2, q3⟩ := oneRaw_sizes (u := u) (tiny := tiny) h0 hβ
  have hB0 : 0 ≤ predError u tiny true oneRaw.x oneRaw.linearOffset β 0 := by rw [q2]; positivity
  have ha : |a - 1 / 2| ≤ 3 / 2 := by
    have := abs_sub a (1 / 2)
    rw [h0, abs_of_pos (by norm_num : (0 : ℝ) < 1 / 2)] at this
    linarith
  have hsq : a ^ 2 = 1 := by rw [← sq_abs, h0, one_pow]
  have hz : real (0 : Fl binary64) = 0 := real_zero.2
  have herr : penLikError u tiny .linear oneRaw true 0 0 β ≤ 85 * u := by
    unfold penLikError
    dsimp only
    rw [h5, p1]
    have : u * (|a - 1 / 2| + 0 + (dataLikError u tiny .linear oneRaw true β
        + penError u tiny true 0 0 β)) ≤ u * 2 :=
      mul_le_mul_of_nonneg_left (by linarith) hu
    linarith
  have hfin : ∀ j, (β j).isFinite := fun j => by rw [hβ]; exact (real_num a).1
  have hreal : ∀ j, real (β j) = a := fun j => by rw [hβ]; exact (real_num a).2
  have hnat : exactNat .linear oneRaw true β 0 = a := q1
  have hy : real (oneRaw.y 0) = 1 := real_one.2
  have hw : varWt (exactData oneRaw) 0 = 1 := real_one.2
  refine ⟨⟨⟨fun _ => real_one.1, ?_, ?_, ?_, fun _ => trivial, ?_, ?_, ?_⟩, real_zero.1, real_zero.1, hfin,
    ?_, ?_, ?_⟩, herr, ?_⟩
  · rintro w ⟨⟩ i; exact real_one.1
  · rintro w ⟨⟩ i; exact real_one.1
  · intro i
    rw [Subsingleton.elim i 0]
    exact ⟨fun j => j.elim0, hfin, fun o ho => (by cases ho), by rw [q3]; linarith⟩
  · intro i
    rw [Subsingleton.elim i 0]
    refine ⟨?_, ?_, trivial⟩
    · rw [hnat, h0]
      change 1 + predError u tiny true oneRaw.x oneRaw.linearOffset β 0 < big
      linarith
    · have e : likeSize .linear (real (oneRaw.y 0)) (exactNat .linear oneRaw true β 0) = 3 / 2 := by
        rw [hnat, hy]
        change |1 * a| + |a ^ 2 / 2| = _
        rw [hsq, one_mul, h0, abs_of_pos (by norm_num : (0 : ℝ) < 1 / 2)]
        norm_num
      rw [e]
      change 3 / 2 + rowTermError u tiny .linear oneRaw true β 0 < big
      linarith
  · intro i
    rw [Subsingleton.elim i 0, hw, h4, abs_one]
    linarith
  · rw [h5]; linarith
  · intro j
    rw [hreal, hsq]; linarith
  · rw [hz, h5, p1]; linarith
  · rw [hz, p2]; linarith
  · unfold exactPenLik penLogLik
    rw [exact_penalty, p1, h6, sub_zero]

/-- The linear fit in `f64` of `C85_example_moves`, from the coefficient `-1` to the coefficient `1`: it
meets the hypotheses of `C95_fit`, `C95_best_step` and `C95_never_worse`, its exact log-likelihood is
`1/2`, and the error bound is below `2^-46`. -/
theorem C95_example : ∃ f : Fit (Fl binary64) 1 0 true,
    regression oneEnv Family.linear.glm oneData
      { maxIter := 10, tol := 0, l2 := 0, l1 := 0,
        initGuess := some fun _ => num ((-1 : ℝ) : EReal) } = .ok f ∧
    oneRaw.finalize false true = some oneData ∧
    PenLikFits (2 ^ (-53 : ℤ)) (2 ^ (-1075 : ℤ)) (2 ^ (1023 : ℤ)) .linear oneRaw true 0 0
      (fun _ => num ((-1 : ℝ) : EReal)) ∧
    PenLikFits (2 ^ (-53 : ℤ)) (2 ^ (-1075 : ℤ)) (2 ^ (1023 : ℤ)) .linear oneRaw true 0 0 f.result ∧
    exactPenLik .linear oneRaw true 0 0 f.result = 1 / 2 ∧
    penLikError (2 ^ (-53 : ℤ)) (2 ^ (-1075 : ℤ)) .linear oneRaw true 0 0 f.result ≤ 2 ^ (-46 : ℤ) := by
  obtain ⟨f, hf, hh, hs, hst, h0⟩ := C85_example_moves
  have hu : (0 : ℝ) ≤ 2 ^ (-53 : ℤ) := by positivity
  have hu1 : (2 : ℝ) ^ (-53 : ℤ) ≤ 1 / 1000 := by norm_num
  have ht : (0 : ℝ) ≤ 2 ^ (-1075 : ℤ) := by positivity
  have htu : (2 : ℝ) ^ (-1075 : ℤ) ≤ 2 ^ (-53 : ℤ) := zpow_le_zpow_right₀ (by norm_num) (by norm_num)
  have hb : (100 : ℝ) ≤ 2 ^ (1023 : ℤ) := by
    have : (2 : ℝ) ^ (7 : ℤ) ≤ 2 ^ (1023 : ℤ) := zpow_le_zpow_right₀ (by norm_num) (by norm_num)
    exact le_trans (by norm_num) this
  have hres : f.result = fun _ => num ((1 : ℝ) : EReal) := by
    obtain ⟨h1, -⟩ | ⟨pre, opt, post, h1, h2, -⟩ := C25_best_of_history hf
    · rw [hh] at h1; cases h1
    · rw [hh] at h1
      cases pre with
      | nil => cases h1; exact h2
      | cons s pre => cases pre <;> cases h1
  obtain ⟨a1, -, -⟩ := oneRaw_fits hu hu1 ht htu hb (a := -1) (by norm_num) rfl
  obtain ⟨b1, b2, b3⟩ := oneRaw_fits hu hu1 ht htu hb (a := 1) (by norm_num) hres
  refine ⟨f, hf, oneRaw_finalize, a1, b1, b3.trans (by norm_num), b2.trans (by norm_num)⟩

end
end GLM
