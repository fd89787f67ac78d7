/-
  C99 in simple terms: linear regression without weights, on data that are neither huge nor tiny.
-/
import Verif.Props.DevianceFits
import Verif.Props.ScaleModerate
import Verif.Props.LikeAccuracyF64

namespace GLM
open Spec Scalar Fl

section
variable {fmt : FloatFormat} {n p : ℕ} {b : Bool} {u tiny big M : ℝ} {D : ℕ}
  {raw : Dataset (Fl fmt) n p false} {β : Vec (Fl fmt) (ncols b p)}

/-- The numbers behind one row: `q` is a bound of the relative error. -/
theorem linear_row_error {u q t B y ν M : ℝ} (hu : 0 ≤ u) (huq : u ≤ q) (hq : q ≤ 1 / 1000) (ht : 0 ≤ t)
    (h3 : 3 * t ≤ u * M) (hsq : t ≤ u * M ^ 2) (hB0 : 0 ≤ B) (hB : B ≤ 7 / 5 * (q * M)) (hy : |y| ≤ M)
    (hν : |ν| ≤ M) :
    (|y| * B + (|ν| + B) * B) + ((1 + u) ^ 5 - 1) * (|y * ν| + |ν ^ 2 / 2| + (|y| * B + (|ν| + B) * B))
      + (6 + 2 * (|ν| + B)) * t ≤ 18 * (q * M ^ 2) ∧ |y * ν| + |ν ^ 2 / 2| ≤ 3 / 2 * M ^ 2 := by
  have hM : 0 ≤ M := (abs_nonneg y).trans hy
  have hq0 : 0 ≤ q := hu.trans huq
  have hqM : 0 ≤ q * M := mul_nonneg hq0 hM
  have hqM2 : 0 ≤ q * M ^ 2 := by positivity
  have hBM : B ≤ 7 / 5000 * M := by
    have := mul_le_mul_of_nonneg_right hq hM
    linarith
  have hA : |y| * B + (|ν| + B) * B ≤ 281 / 100 * (q * M ^ 2) := by
    have h1 : |y| * B ≤ M * (7 / 5 * (q * M)) := mul_le_mul hy hB hB0 hM
    have h2 : (|ν| + B) * B ≤ (M + 7 / 5000 * M) * (7 / 5 * (q * M)) :=
      mul_le_mul (by linarith) hB hB0 (by linarith)
    nlinarith
  have hA0 : 0 ≤ |y| * B + (|ν| + B) * B := by positivity
  have hS : |y * ν| + |ν ^ 2 / 2| ≤ 3 / 2 * M ^ 2 := by
    rw [abs_mul, abs_of_nonneg (by positivity : 0 ≤ ν ^ 2 / 2), ← sq_abs ν]
    have h1 : |y| * |ν| ≤ M * M := mul_le_mul hy hν (abs_nonneg _) hM
    have h2 : |ν| ^ 2 ≤ M ^ 2 := pow_le_pow_left₀ (abs_nonneg _) hν 2
    nlinarith
  refine ⟨?_, hS⟩
  have hp : (1 + u) ^ 5 - 1 ≤ 5011 / 1000 * u := by
    have e : (1 + u) ^ 5 - 1 = u * (5 + 10 * u + 10 * u ^ 2 + 5 * u ^ 3 + u ^ 4) := by ring
    have hu1 : u ≤ 1 / 1000 := huq.trans hq
    have h2 : u ^ 2 ≤ 1 / 1000 * u := by nlinarith
    have h3 : u ^ 3 ≤ 1 / 1000 * u := by nlinarith
    have h4 : u ^ 4 ≤ 1 / 1000 * u := by nlinarith
    rw [e, mul_comm]
    exact mul_le_mul_of_nonneg_right (by linarith) hu
  have hp0 : 0 ≤ (1 + u) ^ 5 - 1 := by
    have : 1 ≤ (1 + u) ^ 5 := one_le_pow₀ (by linarith)
    linarith
  have hM2 := sq_nonneg M
  have hA1 : |y| * B + (|ν| + B) * B ≤ 3 / 1000 * M ^ 2 := by
    have := mul_le_mul_of_nonneg_right hq hM2
    linarith
  have hG : ((1 + u) ^ 5 - 1) * (|y * ν| + |ν ^ 2 / 2| + (|y| * B + (|ν| + B) * B))
      ≤ 5011 / 1000 * q * (1503 / 1000 * M ^ 2) :=
    mul_le_mul (by linarith) (by linarith) (by positivity) (by positivity)
  have hT : (6 + 2 * (|ν| + B)) * t ≤ 67 / 10 * (q * M ^ 2) := by
    have h1 : (|ν| + B) * t ≤ (1002 / 1000 * M) * (u * M / 3) := by
      refine mul_le_mul (by linarith) (by linarith) ht (by positivity)
    have h2 : u * M ^ 2 ≤ q * M ^ 2 := mul_le_mul_of_nonneg_right huq hM2
    nlinarith
  linarith

namespace Spec.ModerateFit

/-- One row. -/
theorem row (hp : Plain u tiny big D raw) (h : ModerateFit u tiny big M D raw b β)
    (acc : Accurate fmt u tiny big) (i : Fin n) :
    0 ≤ M ∧ |exactPred b raw.x raw.linearOffset β i| ≤ M ∧
    0 ≤ predError u tiny b raw.x raw.linearOffset β i ∧
    predError u tiny b raw.x raw.linearOffset β i ≤ 7 / 5 * (D * u * M) := by
  have hu := acc.u_nonneg
  have ht := acc.tiny_nonneg
  have hs0 := predSize_nonneg' (b := b) (x := raw.x) (off := raw.linearOffset) (β := β) (i := i)
  have hM := hs0.trans (h.size i)
  refine ⟨hM, ?_, sumError_nonneg hu ht hs0, ?_⟩
  · have : |exactPred b raw.x raw.linearOffset β i| ≤ predSize b raw.x raw.linearOffset β i :=
      (abs_add_le _ _).trans (add_le_add_left (Finset.abs_sum_le_sum_abs _ _) _)
    exact this.trans (h.size i)
  · obtain ⟨p1, p2⟩ := pow_near hu hp.small
    unfold predError sumError
    have hdep := h.depth i
    have hops := h.ops i
    generalize predDepth fmt b n p raw.linearOffset i = d0 at *
    generalize predOps fmt b n p raw.linearOffset i = k0 at *
    have hpow : (1 + u) ^ d0 ≤ (1 + u) ^ D := pow_le_pow_right₀ (by linarith) hdep
    have hpow1 : 1 ≤ (1 + u) ^ d0 := one_le_pow₀ (by linarith)
    have hk : (k0 : ℝ) ≤ D := by exact_mod_cast hops
    have h1 : ((1 + u) ^ d0 - 1) * predSize b raw.x raw.linearOffset β i ≤ 1001 / 1000 * (D * u) * M :=
      mul_le_mul (by linarith) (h.size i) hs0 (by positivity)
    have h2 : (k0 : ℝ) * (1 + u) ^ d0 * tiny ≤ D * (1002 / 1000) * (u * M / 3) :=
      mul_le_mul (mul_le_mul hk (by linarith) (by linarith) (by positivity)) (by linarith [h.tiny_third]) ht
        (by positivity)
    have : 0 ≤ D * u * M := by positivity
    nlinarith

theorem rowTerm (hp : Plain u tiny big D raw) (h : ModerateFit u tiny big M D raw b β)
    (acc : Accurate fmt u tiny big) (i : Fin n) :
    rowTermError u tiny .linear raw b β i ≤ 18 * (D * u * M ^ 2) ∧ 0 ≤ rowTermError u tiny .linear raw b β i ∧
    |rowLik .linear raw b β i| ≤ 3 / 2 * M ^ 2 ∧
    likeSize .linear (real (raw.y i)) (exactNat .linear raw b β i) ≤ 3 / 2 * M ^ 2 := by
  obtain ⟨hM, r1, r2, r3⟩ := row hp h acc i
  have hu := acc.u_nonneg
  have ht := acc.tiny_nonneg
  have key := linear_row_error hu (hp.u_le hu) hp.small ht h.tiny_third h.tiny_sq r2 r3 (h.y i).2 r1
  refine ⟨key.1, ?_, ?_, key.2⟩
  · change 0 ≤ (|real (raw.y i)| * predError u tiny b raw.x raw.linearOffset β i
        + (|exactPred b raw.x raw.linearOffset β i| + predError u tiny b raw.x raw.linearOffset β i)
          * predError u tiny b raw.x raw.linearOffset β i)
      + ((1 + u) ^ 5 - 1) * (|real (raw.y i) * exactPred b raw.x raw.linearOffset β i|
          + |exactPred b raw.x raw.linearOffset β i ^ 2 / 2|
        + (|real (raw.y i)| * predError u tiny b raw.x raw.linearOffset β i
        + (|exactPred b raw.x raw.linearOffset β i| + predError u tiny b raw.x raw.linearOffset β i)
          * predError u tiny b raw.x raw.linearOffset β i))
      + (6 + 2 * (|exactPred b raw.x raw.linearOffset β i|
        + predError u tiny b raw.x raw.linearOffset β i)) * tiny
    have : 0 ≤ (1 + u) ^ 5 - 1 := by
      have : 1 ≤ (1 + u) ^ 5 := one_le_pow₀ (by linarith)
      linarith
    positivity
  · exact (abs_sub _ _).trans key.2

theorem likFits (hp : Plain u tiny big D raw) (h : ModerateFit u tiny big M D raw b β)
    (acc : Accurate fmt u tiny big) : LikFits u tiny big .linear raw b β := by
  have hu := acc.u_nonneg
  have ht := acc.tiny_nonneg
  have hn := hp.one_le
  have hM2 := sq_nonneg M
  have hnM : M ^ 2 ≤ n * M ^ 2 := le_mul_of_one_le_left hM2 (by linarith)
  have hqM : D * u * M ^ 2 ≤ 1 / 1000 * M ^ 2 := mul_le_mul_of_nonneg_right hp.small hM2
  have huq := hp.u_le hu
  have huM : u * M ^ 2 ≤ D * u * M ^ 2 := mul_le_mul_of_nonneg_right huq hM2
  have hb2 := h.big_sq
  have hE : ∀ i, rowError u tiny .linear raw b β i ≤ 24 * (D * u * M ^ 2) ∧
      0 ≤ rowError u tiny .linear raw b β i := by
    intro i
    obtain ⟨t1, t2, t3, -⟩ := rowTerm hp h acc i
    obtain ⟨w1, w2, w3⟩ := hp.wt i
    unfold rowError
    rw [w3, w1, abs_one, mul_one, mul_one, one_mul]
    have hu1 : u ≤ 1 / 1000 := huq.trans hp.small
    have a1 : (1 + u) ^ 2 - 1 ≤ 2001 / 1000 * u := by nlinarith
    have a2 : (1 + u) ^ 2 ≤ 1003 / 1000 := by nlinarith
    have a3 : 0 ≤ (1 + u) ^ 2 - 1 := by nlinarith
    have b1 : ((1 + u) ^ 2 - 1) * |rowLik .linear raw b β i| ≤ 2001 / 1000 * u * (3 / 2 * M ^ 2) :=
      mul_le_mul a1 t3 (abs_nonneg _) (by positivity)
    have b2 : (1 + u) ^ 2 * rowTermError u tiny .linear raw b β i ≤ 1003 / 1000 * (18 * (D * u * M ^ 2)) :=
      mul_le_mul a2 t1 t2 (by norm_num)
    have b3 : ((1 + u) + 1) * tiny ≤ 2001 / 1000 * (u * M ^ 2) :=
      mul_le_mul (by linarith) h.tiny_sq ht (by norm_num)
    refine ⟨by linarith, by positivity⟩
  have htot := termsError_scaled (fmt := fmt) (n := n) (D := D) hu ht (by have := hp.two; omega) hp.depth
    hp.ops hp.small (t := fun i => totalWt (exactData raw) i * rowLik .linear raw b β i)
    (e := rowError u tiny .linear raw b β) (c := 24) (m := 3 / 2) (d := 27) hM2 h.tiny_sq (by norm_num)
    (fun i => (hE i).1) (fun i => (hE i).2)
    (fun i => by
      rw [(hp.wt i).2.2, one_mul]; exact (rowTerm hp h acc i).2.2.1) (by norm_num)
  refine ⟨fun i => (h.y i).1, fun w hw' => ?_, fun f hf' => ?_, fun i => ?_, fun _ => trivial, fun i => ?_,
      fun i => ?_, ?_⟩
  · rw [hp.weights] at hw'; cases hw'
  · rw [hp.freqs] at hf'; cases hf'
  · obtain ⟨hM, r1, r2, r3⟩ := row hp h acc i
    have : D * u * M ≤ 1 / 1000 * M := mul_le_mul_of_nonneg_right hp.small hM
    refine ⟨h.x i, h.coef, fun o ho => h.offset o ho i, ?_⟩
    have := h.size i
    have := h.big_gt
    linarith
  · obtain ⟨hM, r1, r2, r3⟩ := row hp h acc i
    obtain ⟨t1, t2, t3, t4⟩ := rowTerm hp h acc i
    have : D * u * M ≤ 1 / 1000 * M := mul_le_mul_of_nonneg_right hp.small hM
    have := h.big_gt
    refine ⟨?_, ?_, trivial⟩
    · change |exactPred b raw.x raw.linearOffset β i| + predError u tiny b raw.x raw.linearOffset β i < big
      linarith
    · change _ + rowTermError u tiny .linear raw b β i < big
      linarith
  · obtain ⟨t1, t2, t3, t4⟩ := rowTerm hp h acc i
    rw [(hp.wt i).2.1, abs_one, one_mul]
    linarith
  · have : (n : ℝ) * (D * u * M ^ 2) ≤ n * (1 / 1000 * M ^ 2) :=
      mul_le_mul_of_nonneg_left hqM (by linarith)
    obtain ⟨s1, s2⟩ := htot
    change ∑ i, |totalWt (exactData raw) i * rowLik .linear raw b β i|
      + termsError fmt u tiny _ (rowError u tiny .linear raw b β) < big
    linarith

/-- Nothing overflows in the deviance, its error is small, and it is not large. -/
theorem devFits (hp : Plain u tiny big D raw) (h : ModerateFit u tiny big M D raw b β)
    (acc : Accurate fmt u tiny big) :
    DevFits u tiny big .linear raw b β ∧ devianceError u tiny .linear raw b β ≤ 72 * (n * (D * u * M ^ 2)) ∧
    |devianceOf Family.linear.glm (exactData raw) b fun j => real (β j)| ≤ n * (4 * M ^ 2) ∧
    0 ≤ devianceError u tiny .linear raw b β ∧
    ∀ i, devTermError u tiny .linear raw b β i ≤ 60 * (D * u * M ^ 2) ∧
      0 ≤ devTermError u tiny .linear raw b β i := by
  have hu := acc.u_nonneg
  have ht := acc.tiny_nonneg
  have hn := hp.one_le
  have hM2 := sq_nonneg M
  have hnM : M ^ 2 ≤ n * M ^ 2 := le_mul_of_one_le_left hM2 (by linarith)
  have hqM : D * u * M ^ 2 ≤ 1 / 1000 * M ^ 2 := mul_le_mul_of_nonneg_right hp.small hM2
  have huq := hp.u_le hu
  have huM : u * M ^ 2 ≤ D * u * M ^ 2 := mul_le_mul_of_nonneg_right huq hM2
  have htq : tiny ≤ D * u * M ^ 2 := h.tiny_sq.trans huM
  have hb2 := h.big_sq
  have hb1 := h.big_gt
  have hround : ∀ {e v : ℝ}, 0 ≤ e → 0 ≤ afterRounding u tiny e v := by
    intro e v he; unfold afterRounding; positivity
  have hsat : ∀ i, satTerm .linear (real (raw.y i)) = 1 / 2 * real (raw.y i) * real (raw.y i) := fun i => by
    change half * real (raw.y i) * real (raw.y i) = _
    rw [half_real]
  have hrow : ∀ i, SatFits fmt u tiny big .linear (real (raw.y i)) ∧
      satError u tiny .linear (real (raw.y i)) ≤ 5 / 2 * (D * u * M ^ 2) ∧
      0 ≤ satError u tiny .linear (real (raw.y i)) ∧
      |satTerm .linear (real (raw.y i)) - rowLik .linear raw b β i| ≤ 2 * M ^ 2 := by
    intro i
    obtain ⟨hM, -⟩ := row hp h acc i
    obtain ⟨t1, t2, t3, -⟩ := rowTerm hp h acc i
    have hy := (h.y i).2
    have hy2 : |1 / 2 * real (raw.y i) * real (raw.y i)| ≤ 1 / 2 * M ^ 2 := by
      rw [abs_mul, abs_mul, abs_of_pos (by norm_num : (0 : ℝ) < 1 / 2)]
      have := mul_le_mul hy hy (abs_nonneg _) hM
      nlinarith
    have hy1 : |1 / 2 * real (raw.y i)| ≤ 1 / 2 * M := by
      rw [abs_mul, abs_of_pos (by norm_num : (0 : ℝ) < 1 / 2)]
      linarith
    have e1 : afterRounding u tiny 0 (1 / 2 * real (raw.y i)) ≤ 5 / 6 * (u * M) := by
      unfold afterRounding
      have := mul_le_mul_of_nonneg_left hy1 hu
      have := h.tiny_third
      linarith
    have e10 : 0 ≤ afterRounding u tiny 0 (1 / 2 * real (raw.y i)) := hround le_rfl
    have e2 : afterRounding u tiny 0 (1 / 2 * real (raw.y i)) * |real (raw.y i)| ≤ 5 / 6 * (D * u * M ^ 2) := by
      have := mul_le_mul e1 hy (abs_nonneg _) (by positivity)
      have : 5 / 6 * (u * M) * M = 5 / 6 * (u * M ^ 2) := by ring
      linarith
    have e20 : 0 ≤ afterRounding u tiny 0 (1 / 2 * real (raw.y i)) * |real (raw.y i)| := by positivity
    refine ⟨⟨by linarith, by linarith⟩, ?_, hround e20, ?_⟩
    · exact afterRounding_scaled hu huq hp.small hM2 htq (c := 5 / 6) (m := 1 / 2) (by norm_num) e2 hy2
        (by norm_num)
    · rw [hsat]
      refine (abs_sub _ _).trans ?_
      linarith
  have hgap : ∀ i, gapError u tiny .linear raw b β i ≤ 24 * (D * u * M ^ 2) ∧
      0 ≤ gapError u tiny .linear raw b β i := by
    intro i
    obtain ⟨-, s1, s2, s3⟩ := hrow i
    obtain ⟨t1, t2, -, -⟩ := rowTerm hp h acc i
    exact ⟨afterRounding_scaled hu huq hp.small hM2 htq (c := 41 / 2) (m := 2) (by norm_num) (by linarith) s3
      (by norm_num), hround (by linarith)⟩
  have habs2 : ∀ i, |(satTerm .linear (real (raw.y i)) - rowLik .linear raw b β i) * 2| ≤ 4 * M ^ 2 := by
    intro i
    obtain ⟨-, -, -, s3⟩ := hrow i
    rw [abs_mul, abs_two]
    linarith
  have htwice : ∀ i, twiceError u tiny .linear raw b β i ≤ 54 * (D * u * M ^ 2) ∧
      0 ≤ twiceError u tiny .linear raw b β i := by
    intro i
    obtain ⟨g1, g2⟩ := hgap i
    exact ⟨afterRounding_scaled hu huq hp.small hM2 htq (c := 48) (m := 4) (by norm_num) (by linarith)
      (habs2 i) (by norm_num), hround (by linarith)⟩
  have hterm : ∀ i, devTerm .linear raw b β i
      = (satTerm .linear (real (raw.y i)) - rowLik .linear raw b β i) * 2 := fun i => by
    unfold devTerm; rw [(hp.wt i).2.1, one_mul]
  have hdev : ∀ i, devTermError u tiny .linear raw b β i ≤ 60 * (D * u * M ^ 2) ∧
      0 ≤ devTermError u tiny .linear raw b β i := by
    intro i
    obtain ⟨g1, g2⟩ := htwice i
    unfold devTermError
    rw [(hp.wt i).2.1, abs_one, one_mul, hterm]
    exact ⟨afterRounding_scaled hu huq hp.small hM2 htq (c := 54) (m := 4) (by norm_num) g1
      (habs2 i) (by norm_num), hround g2⟩
  have hfreq : ∀ i, freqError u tiny raw i (devTermError u tiny .linear raw b β i) (devTerm .linear raw b β i)
      ≤ 331 / 5 * (D * u * M ^ 2) ∧
      0 ≤ freqError u tiny raw i (devTermError u tiny .linear raw b β i) (devTerm .linear raw b β i) := by
    intro i
    obtain ⟨g1, g2⟩ := hdev i
    unfold freqError
    rw [(hp.wt i).1, abs_one, one_mul, one_mul, hterm]
    exact ⟨afterRounding_scaled hu huq hp.small hM2 htq (c := 60) (m := 4) (by norm_num) g1
      (habs2 i) (by norm_num), hround g2⟩
  obtain ⟨s1, s2⟩ := termsError_scaled (fmt := fmt) (n := n) (D := D) hu ht (by have := hp.two; omega) hp.depth
    hp.ops hp.small (t := fun i => freq (exactData raw) i * devTerm .linear raw b β i)
    (e := fun i => freqError u tiny raw i (devTermError u tiny .linear raw b β i) (devTerm .linear raw b β i))
    (c := 331 / 5) (m := 4) (d := 72) hM2 h.tiny_sq (by norm_num) (fun i => (hfreq i).1) (fun i => (hfreq i).2)
    (fun i => by
      rw [(hp.wt i).1, one_mul, hterm]; exact habs2 i) (by norm_num)
  have hnq : (n : ℝ) * (D * u * M ^ 2) ≤ n * (1 / 1000 * M ^ 2) :=
    mul_le_mul_of_nonneg_left hqM (by linarith)
  refine ⟨⟨likFits hp h acc, fun i => ?_, fun i => ?_, ?_⟩, s1, ?_, ?_, hdev⟩
  · obtain ⟨r1, r2, r3, r4⟩ := hrow i
    obtain ⟨t1, t2, -, -⟩ := rowTerm hp h acc i
    obtain ⟨g1, g2⟩ := hgap i
    obtain ⟨k1, k2⟩ := htwice i
    have := habs2 i
    refine ⟨r1, by linarith, by linarith, ?_⟩
    rw [(hp.wt i).2.1, abs_one, one_mul, hterm]
    linarith
  · obtain ⟨k1, k2⟩ := hdev i
    have := habs2 i
    rw [(hp.wt i).1, abs_one, one_mul, one_mul, hterm]
    linarith
  · change ∑ i, |freq (exactData raw) i * devTerm .linear raw b β i| + termsError fmt u tiny _ _ < big
    linarith
  · rw [exact_deviance]
    exact (Finset.abs_sum_le_sum_abs _ _).trans s2
  · have h1 : 0 ≤ ∑ i, freqError u tiny raw i (devTermError u tiny .linear raw b β i) (devTerm .linear raw b β i) :=
      Finset.sum_nonneg fun i _ => (hfreq i).2
    have h2 : 0 ≤ ∑ i, |freq (exactData raw) i * devTerm .linear raw b β i| :=
      Finset.sum_nonneg fun i _ => abs_nonneg _
    have h3 : ∀ d : ℕ, 0 ≤ (1 + u) ^ d - 1 := fun d => sub_nonneg.mpr (one_le_pow₀ (by linarith))
    have h4 := h3 ((fmt.order .sum n).tree.depth 0)
    unfold devianceError freqSumError termsError totalError sumError
    positivity

/-- The divisor of the dispersion is `n - k` up to a few roundings. -/
theorem divisor (hp : Plain u tiny big D raw) (acc : Accurate fmt u tiny big) (hD : n ≤ D)
    (hk : ncols b p < n) :
    freeShare (exactData raw) b * weightSum (exactData raw) = n - ncols b p ∧
    divisorError u tiny raw b ≤ 11 * (u * n) ∧
    afterRounding u tiny (divisorError u tiny raw b) (n - ncols b p) ≤ 13 * (u * n) ∧
    0 ≤ afterRounding u tiny (divisorError u tiny raw b) (n - ncols b p) ∧
    (ncols b p : ℝ) + countError u tiny (ncols b p) + effError u tiny raw < effCount (exactData raw) ∧
    |(ncols b p : ℝ) / effCount (exactData raw)| + shareError u tiny raw b < big ∧
    |freeShare (exactData raw) b| + afterRounding u tiny (shareError u tiny raw b)
      ((ncols b p : ℝ) / effCount (exactData raw)) < big ∧
    ∑ i, |totalWt (exactData raw) i| + sumWeightsError u tiny raw < big := by
  have hu := acc.u_nonneg
  have ht := acc.tiny_nonneg
  have hn := hp.one_le
  have htu := hp.tiny_le
  have huq := hp.u_le hu
  have hu1 : u ≤ 1 / 1000 := huq.trans hp.small
  have hun : u * n ≤ D * u := by
    have : (n : ℝ) ≤ D := by exact_mod_cast hD
    nlinarith
  have hun1 : u * n ≤ 1 / 1000 := hun.trans hp.small
  have hun0 : 0 ≤ u * n := by positivity
  have h2u : 2 * u ≤ u * n := by nlinarith
  set K : ℝ := (ncols b p : ℝ) with hK
  have hK0 : 0 ≤ K := Nat.cast_nonneg _
  have hKn : K + 1 ≤ n := by rw [hK]; exact_mod_cast hk
  have hw1 : freq (exactData raw) = fun _ => 1 := funext fun i => (hp.wt i).1
  have hw2 : varWt (exactData raw) = fun _ => 1 := funext fun i => (hp.wt i).2.1
  have hw3 : totalWt (exactData raw) = fun _ => 1 := funext fun i => (hp.wt i).2.2
  obtain ⟨e1, hcount, -⟩ := hp.effFits acc
  have hE : effError u tiny raw = u * n + tiny := by unfold effError; rw [hp.weights, hp.freqs]
  have hE1 : effError u tiny raw ≤ 3 / 2 * (u * n) := by rw [hE]; linarith
  have hE0 : 0 ≤ effError u tiny raw := by rw [hE]; positivity
  have hC1 : countError u tiny (ncols b p) ≤ 3 / 2 * (u * n) := by
    unfold countError
    have : u * K ≤ u * n := mul_le_mul_of_nonneg_left (by linarith) hu
    linarith
  have hC0 : 0 ≤ countError u tiny (ncols b p) := by unfold countError; positivity
  have hS : sumWeightsError u tiny raw = u * n + tiny := by
    unfold sumWeightsError; rw [hp.weights]; simp only [obsError, hp.freqs]; rfl
  have hS1 : sumWeightsError u tiny raw ≤ 3 / 2 * (u * n) := by rw [hS]; linarith
  have hS0 : 0 ≤ sumWeightsError u tiny raw := by rw [hS]; positivity
  have hW : weightSum (exactData raw) = n := by unfold weightSum; rw [hw3]; exact sum_ones
  have hn0 : (0 : ℝ) < n := by linarith
  have hshare : freeShare (exactData raw) b = (n - K) / n := by
    unfold freeShare; rw [hcount]; field_simp; rfl
  have hKn0 : |K / n| ≤ 1 := by
    rw [abs_of_nonneg (by positivity), div_le_one hn0]; linarith
  have hsh1 : |freeShare (exactData raw) b| ≤ 1 := by
    rw [hshare, abs_of_nonneg (div_nonneg (by linarith) hn0.le), div_le_one hn0]; linarith
  have hq1 : shareError u tiny raw b ≤ 4 * (u * 1) := by
    unfold shareError quotientError
    rw [hcount, abs_of_pos hn0, div_le_iff₀ (by linarith)]
    have a1 : |K / n| * effError u tiny raw ≤ 1 * (3 / 2 * (u * n)) := mul_le_mul hKn0 hE1 hE0 zero_le_one
    have a2 : u * effError u tiny raw ≤ u * n * (3 / 2000) := by
      have := mul_le_mul hu1 hE1 hE0 (by norm_num)
      linarith
    change countError u tiny (ncols b p) + |K / n| * effError u tiny raw ≤ _
    linarith
  have hq0 : 0 ≤ shareError u tiny raw b := by
    unfold shareError quotientError
    rw [hcount, abs_of_pos hn0]
    exact div_nonneg (by positivity) (by linarith)
  have hround : ∀ {e v : ℝ}, 0 ≤ e → 0 ≤ afterRounding u tiny e v := by
    intro e v he; unfold afterRounding; positivity
  have hr1 : afterRounding u tiny (shareError u tiny raw b) (K / n) ≤ 61 / 10 * (u * 1) :=
    afterRounding_scaled hu le_rfl hu1 zero_le_one (by linarith) (c := 4) (m := 1) (by norm_num) hq1
      (by rw [mul_one]; exact hKn0) (by norm_num)
  have hr0 : 0 ≤ afterRounding u tiny (shareError u tiny raw b) (K / n) := hround hq0
  have hf1 : freeShareError u tiny raw b ≤ 9 * (u * 1) := by
    unfold freeShareError
    rw [hcount]
    exact afterRounding_scaled hu le_rfl hu1 zero_le_one (by linarith) (c := 61 / 10) (m := 1) (by norm_num) hr1
      (by rw [mul_one]; exact hsh1) (by norm_num)
  have hf0 : 0 ≤ freeShareError u tiny raw b := by
    unfold freeShareError
    rw [hcount]
    exact hround hr0
  have hdiv : freeShare (exactData raw) b * weightSum (exactData raw) = n - K := by
    rw [hshare, hW, div_mul_cancel₀ _ hn0.ne']
  have hv1 : divisorError u tiny raw b ≤ 11 * (u * n) := by
    unfold divisorError productError
    rw [hW, abs_of_pos hn0]
    have a1 : freeShareError u tiny raw b * n ≤ 9 * u * n := mul_le_mul_of_nonneg_right (by linarith) hn0.le
    have a2 : |freeShare (exactData raw) b| * sumWeightsError u tiny raw ≤ 1 * (3 / 2 * (u * n)) :=
      mul_le_mul hsh1 hS1 hS0 zero_le_one
    have a3 : freeShareError u tiny raw b * sumWeightsError u tiny raw ≤ 9 * (1 / 1000) * (3 / 2 * (u * n)) :=
      mul_le_mul (by linarith) hS1 hS0 (by norm_num)
    linarith
  have hv0 : 0 ≤ divisorError u tiny raw b := by unfold divisorError productError; positivity
  have hm : 1 ≤ (n : ℝ) - K := by linarith
  have hmabs : |(n : ℝ) - K| = n - K := abs_of_pos (by linarith)
  have hA1 : afterRounding u tiny (divisorError u tiny raw b) ((n : ℝ) - K) ≤ 13 * (u * n) := by
    unfold afterRounding
    rw [hmabs]
    have : u * (n - K + divisorError u tiny raw b) ≤ u * (n + 11 / 1000 * n) :=
      mul_le_mul_of_nonneg_left (by nlinarith) hu
    linarith
  have hA0 : 0 ≤ afterRounding u tiny (divisorError u tiny raw b) ((n : ℝ) - K) := hround hv0
  refine ⟨hdiv, hv1, hA1, hA0, ?_, ?_, ?_, ?_⟩
  · rw [hcount]; linarith
  · rw [hcount]
    linarith [hp.big_gt]
  · rw [hcount]
    linarith [hp.big_gt]
  · rw [hw3, hS]; simp only [abs_one]; rw [sum_ones]; linarith [hp.big_gt]

/-- Nothing overflows in the dispersion, and its error is small. -/
theorem dispFits (hp : Plain u tiny big D raw) (h : ModerateFit u tiny big M D raw b β)
    (acc : Accurate fmt u tiny big) (hD : n ≤ D) (hk : ncols b p < n) :
    DispFits u tiny big .linear raw b β ∧
    dispersionError u tiny .linear raw b β ≤ 135 * (n * (D * u * M ^ 2) / (n - ncols b p)) ∧
    dispersionOf Family.linear.glm (exactData raw) b (fun j => real (β j))
      = devianceOf Family.linear.glm (exactData raw) b (fun j => real (β j)) / (n - ncols b p) := by
  obtain ⟨d1, d2, d3, d4, -⟩ := devFits hp h acc
  obtain ⟨hdiv, hv1, hA1, hA0, g1, g2, g3, g4⟩ := divisor (b := b) hp acc hD hk
  have hu := acc.u_nonneg
  have ht := acc.tiny_nonneg
  have hn := hp.one_le
  have huq := hp.u_le hu
  have hM2 := sq_nonneg M
  have hb2 := h.big_sq
  have hun : u * n ≤ D * u := by
    have : (n : ℝ) ≤ D := by exact_mod_cast hD
    nlinarith
  have hun1 : u * n ≤ 1 / 1000 := hun.trans hp.small
  set K : ℝ := (ncols b p : ℝ) with hK
  have hK0 : 0 ≤ K := Nat.cast_nonneg _
  have hKn : K + 1 ≤ n := by rw [hK]; exact_mod_cast hk
  have hm : 1 ≤ (n : ℝ) - K := by linarith
  have hmabs : |(n : ℝ) - K| = n - K := abs_of_pos (by linarith)
  obtain ⟨e1, hcount, -⟩ := hp.effFits acc
  have hDv : dispersionOf Family.linear.glm (exactData raw) b (fun j => real (β j))
      = devianceOf Family.linear.glm (exactData raw) b (fun j => real (β j)) / (n - K) := by
    unfold dispersionOf; rw [hdiv]
  set V := devianceOf Family.linear.glm (exactData raw) b (fun j => real (β j)) with hV
  have hnM0 : 0 ≤ n * M ^ 2 / (n - K) := div_nonneg (by positivity) (by linarith)
  have hVm : |V / (n - K)| ≤ 4 * (n * M ^ 2 / (n - K)) := by
    rw [abs_div, hmabs, div_le_iff₀ (by linarith)]
    have : 4 * (n * M ^ 2 / (n - K)) * (n - K) = n * (4 * M ^ 2) := by
      have : (n : ℝ) - K ≠ 0 := by linarith
      field_simp
    rw [this]; exact d3
  have hnMle : n * M ^ 2 / (n - K) ≤ n * M ^ 2 := div_le_self (by positivity) hm
  have hMle : M ^ 2 ≤ n * M ^ 2 / (n - K) := by
    rw [le_div_iff₀ (by linarith), mul_comm]
    exact mul_le_mul_of_nonneg_right (by linarith) hM2
  set s := n * M ^ 2 / (n - K) with hs
  have hsm : s * (n - K) = n * M ^ 2 := by
    rw [hs, div_mul_cancel₀]; linarith
  have hq2 : 0 ≤ (D : ℝ) * u := by positivity
  have hQ : dispQuotientError u tiny .linear raw b β ≤ 127 * (D * u * s) := by
    unfold dispQuotientError quotientError
    rw [hdiv, hmabs, div_le_iff₀ (by linarith)]
    have a1 : |V / (n - K)| * afterRounding u tiny (divisorError u tiny raw b) (n - K)
        ≤ 4 * s * (11 * (D * u)) + 4 * s * (2 * (D * u)) := by
      have := mul_le_mul hVm hA1 hA0 (by positivity)
      have := mul_le_mul_of_nonneg_left hun (by positivity : 0 ≤ 52 * s)
      linarith
    have a2 : D * u * s * (1 : ℝ) ≤ D * u * s * (n - K) := mul_le_mul_of_nonneg_left hm (by positivity)
    have a3 : D * u * s * (n - K) = n * (D * u * M ^ 2) := by
      rw [mul_assoc, hsm]; ring
    have a4 : D * u * s * afterRounding u tiny (divisorError u tiny raw b) (n - K)
        ≤ D * u * s * (13 / 1000) := mul_le_mul_of_nonneg_left (by linarith) (by positivity)
    have : 0 ≤ D * u * s := by positivity
    change devianceError u tiny .linear raw b β + |V / (n - K)| * _ ≤ _
    linarith
  have hQ0 : 0 ≤ dispQuotientError u tiny .linear raw b β := by
    unfold dispQuotientError quotientError
    rw [hdiv, hmabs]
    have := d4
    exact div_nonneg (by positivity) (by linarith)
  have htq : tiny ≤ D * u * s := by
    have h1 := h.tiny_sq
    have h2 : u * M ^ 2 ≤ D * u * s := mul_le_mul huq hMle hM2 hq2
    linarith
  have hfinal : dispersionError u tiny .linear raw b β ≤ 135 * (D * u * s) := by
    unfold dispersionError
    rw [hDv]
    exact afterRounding_scaled hu huq hp.small hnM0 htq (c := 127) (m := 4) (by norm_num) hQ hVm (by norm_num)
  have hqs : D * u * s ≤ 1 / 1000 * s := mul_le_mul_of_nonneg_right hp.small hnM0
  refine ⟨⟨d1, hp.weightsFit acc, e1.toCountFits, by linarith [hp.big_gt], g1, g2, g3, g4, ?_, ?_, ?_⟩, ?_, hDv⟩
  · rw [hdiv, hmabs]; linarith [hp.big_gt]
  · rw [hdiv, hmabs]; linarith
  · rw [hDv]; linarith
  · have : D * u * s = n * (D * u * M ^ 2) / (n - K) := by rw [hs]; ring
    rw [← this]; exact hfinal

/-- Nothing overflows in the Akaike criterion, and its error is small. -/
theorem aicFits (hp : Plain u tiny big D raw) (h : ModerateFit u tiny big M D raw b β)
    (acc : Accurate fmt u tiny big) (hk : ncols b p ≤ n) :
    AicFits u tiny big .linear raw b β ∧
    aicError u tiny .linear raw b β ≤ 94 * (n * (D * u * (M ^ 2 + 1))) ∧
    aicOf Family.linear.glm (exactData raw) b (fun j => real (β j))
      = devianceOf Family.linear.glm (exactData raw) b (fun j => real (β j)) + 2 * ncols b p := by
  obtain ⟨d1, d2, d3, d4, -⟩ := devFits hp h acc
  have hu := acc.u_nonneg
  have ht := acc.tiny_nonneg
  have hn := hp.one_le
  have htu := hp.tiny_le
  have huq := hp.u_le hu
  have hu1 : u ≤ 1 / 1000 := huq.trans hp.small
  have hM2 := sq_nonneg M
  have hb2 := h.big_sq
  have hn0 : (0 : ℝ) < n := by linarith
  have hround : ∀ {e v : ℝ}, 0 ≤ e → 0 ≤ afterRounding u tiny e v := by
    intro e v he; unfold afterRounding; positivity
  set K : ℝ := (ncols b p : ℝ) with hK
  have hK0 : 0 ≤ K := Nat.cast_nonneg _
  have hKn : K ≤ n := by rw [hK]; exact_mod_cast hk
  have hq2 : 0 ≤ (D : ℝ) * u := by positivity
  -- logarithms
  have hlog : ∀ i, Real.log (varWt (exactData raw) i) = 0 := fun i => by rw [(hp.wt i).2.1, Real.log_one]
  have hln : ∀ i, lnError u tiny 0 (varWt (exactData raw) i) = tiny := fun i => by
    unfold lnError afterRounding
    rw [hlog]
    simp
  have hterm : ∀ i, freqError u tiny raw i (lnError u tiny 0 (varWt (exactData raw) i))
      (Real.log (varWt (exactData raw) i)) ≤ 21 / 10 * (D * u * 1) ∧
      0 ≤ freqError u tiny raw i (lnError u tiny 0 (varWt (exactData raw) i))
      (Real.log (varWt (exactData raw) i)) := by
    intro i
    rw [hln, hlog]
    unfold freqError
    rw [(hp.wt i).1, abs_one, one_mul, one_mul]
    exact ⟨afterRounding_scaled hu huq hp.small zero_le_one (by linarith) (c := 1) (m := 0) (by norm_num)
      (by linarith) (by simp) (by norm_num), hround ht⟩
  obtain ⟨s1, s2⟩ := termsError_scaled (fmt := fmt) (n := n) (D := D) hu ht (by have := hp.two; omega) hp.depth
    hp.ops hp.small (t := fun i => freq (exactData raw) i * Real.log (varWt (exactData raw) i))
    (e := fun i => freqError u tiny raw i (lnError u tiny 0 (varWt (exactData raw) i))
      (Real.log (varWt (exactData raw) i)))
    (c := 21 / 10) (m := 0) (d := 4) zero_le_one (by linarith) (by norm_num) (fun i => (hterm i).1)
    (fun i => (hterm i).2) (fun i => by rw [hlog, mul_zero, abs_zero, zero_mul]) (by norm_num)
  have hlw : logWeights (exactData raw) = 0 := Finset.sum_eq_zero fun i _ => by rw [hlog, mul_zero]
  change logWeightsError u tiny raw ≤ _ at s1
  have hlw0 : 0 ≤ logWeightsError u tiny raw := by
    have h1 : 0 ≤ ∑ i, freqError u tiny raw i (lnError u tiny 0 (varWt (exactData raw) i))
        (Real.log (varWt (exactData raw) i)) := Finset.sum_nonneg fun i _ => (hterm i).2
    have h2 : 0 ≤ ∑ i, |freq (exactData raw) i * Real.log (varWt (exactData raw) i)| :=
      Finset.sum_nonneg fun i _ => abs_nonneg _
    have h3 : ∀ d : ℕ, 0 ≤ (1 + u) ^ d - 1 := fun d => sub_nonneg.mpr (one_le_pow₀ (by linarith))
    have h4 := h3 ((fmt.order .sum n).tree.depth 0)
    unfold logWeightsError freqSumError termsError totalError sumError
    positivity
  set V := devianceOf Family.linear.glm (exactData raw) b (fun j => real (β j)) with hV
  have hA : aicOf Family.linear.glm (exactData raw) b (fun j => real (β j)) = V + 2 * K := by
    unfold aicOf; rw [hlw, mul_zero, sub_zero]
  -- scaled by `n (M² + 1)`
  set s : ℝ := n * (M ^ 2 + 1) with hs
  have hs0 : 0 ≤ s := by positivity
  have hns : (n : ℝ) ≤ s := by rw [hs]; nlinarith
  have hnM : n * M ^ 2 ≤ s := by rw [hs]; nlinarith
  have hqs : (D : ℝ) * u * n ≤ D * u * s := mul_le_mul_of_nonneg_left hns hq2
  have hqM : (D : ℝ) * u * (n * M ^ 2) ≤ D * u * s := mul_le_mul_of_nonneg_left hnM hq2
  have hq1 : D * u * s ≤ 1 / 1000 * s := mul_le_mul_of_nonneg_right hp.small hs0
  have hun : u * n ≤ D * u * n := mul_le_mul_of_nonneg_right huq hn0.le
  have htq : tiny ≤ D * u * s := by
    have : u * 1 ≤ u * n := mul_le_mul_of_nonneg_left (by linarith) hu
    linarith
  have htw : twiceLogsError u tiny raw ≤ 10 * (D * u * s) ∧ 0 ≤ twiceLogsError u tiny raw := by
    unfold twiceLogsError
    rw [hlw, mul_zero]
    exact ⟨afterRounding_scaled hu huq hp.small hs0 htq (c := 8) (m := 0) (by norm_num) (by linarith)
      (by simp) (by norm_num), hround (by linarith)⟩
  have hC1 : countError u tiny (ncols b p) ≤ 3 / 2 * (D * u * n) := by
    unfold countError
    have h1 : u * K ≤ u * n := mul_le_mul_of_nonneg_left hKn hu
    have h2 : u * 2 ≤ u * n := mul_le_mul_of_nonneg_left hn hu
    linarith
  have hC0 : 0 ≤ countError u tiny (ncols b p) := by unfold countError; positivity
  have hqn : (D : ℝ) * u * n ≤ 1 / 1000 * n := mul_le_mul_of_nonneg_right hp.small hn0.le
  have hR1 : afterRounding u tiny (2 * countError u tiny (ncols b p)) (2 * K) ≤ 7 * (D * u * n) :=
    afterRounding_scaled hu huq hp.small hn0.le
      (by have : u * 1 ≤ u * n := mul_le_mul_of_nonneg_left (by linarith) hu
          linarith) (c := 3) (m := 2) (by norm_num) (by linarith)
      (by rw [abs_of_nonneg (by positivity)]; linarith) (by norm_num)
  have hR0 : 0 ≤ afterRounding u tiny (2 * countError u tiny (ncols b p)) (2 * K) := hround (by linarith)
  have hval : |V + 2 * K| ≤ 4 * s := by
    refine (abs_add_le _ _).trans ?_
    rw [abs_of_nonneg (by positivity : 0 ≤ 2 * K)]
    have : s = n * M ^ 2 + n := by rw [hs]; ring
    linarith
  have hval' : |V + 2 * K| ≤ 4 * (n * M ^ 2) + 2 * n := by
    refine (abs_add_le _ _).trans ?_
    rw [abs_of_nonneg (by positivity : 0 ≤ 2 * K)]
    linarith
  have he : devianceError u tiny .linear raw b β
      + afterRounding u tiny (2 * countError u tiny (ncols b p)) (2 * K) ≤ 72 * (D * u * s) := by
    have : D * u * s = n * (D * u * M ^ 2) + D * u * n := by rw [hs]; ring
    have : 0 ≤ (D : ℝ) * u * n := by positivity
    linarith
  have hsum : aicSumError u tiny .linear raw b β ≤ 78 * (D * u * s) ∧ 0 ≤ aicSumError u tiny .linear raw b β :=
    ⟨afterRounding_scaled hu huq hp.small hs0 htq (c := 72) (m := 4) (by norm_num) he hval (by norm_num),
      hround (by linarith)⟩
  have hss : s = n * M ^ 2 + n := by rw [hs]; ring
  refine ⟨⟨d1, ⟨fun i => ?_, fun i => ?_, fun i => ?_, ?_, ?_⟩, ?_, ?_, ?_⟩, ?_, hA⟩
  · rw [(hp.wt i).2.1]; exact one_pos
  · rw [hlog, abs_zero]; linarith [hp.big_gt]
  · rw [hln, hlog, (hp.wt i).1, mul_zero, abs_zero, abs_one]; linarith [hp.big_gt]
  · have e : ∑ i, |freq (exactData raw) i * Real.log (varWt (exactData raw) i)| ≤ 0 := by
      have := s2; rw [zero_mul, mul_zero] at this; exact this
    linarith
  · rw [hlw, mul_zero, abs_zero]; linarith
  · linarith
  · linarith
  · rw [hA]; linarith [htw.1, hsum.1]
  · have : D * u * s = n * (D * u * (M ^ 2 + 1)) := by rw [hs]; ring
    rw [← this]
    unfold aicError
    rw [hA]
    exact afterRounding_scaled hu huq hp.small hs0 htq (c := 88) (m := 4) (by norm_num)
      (by linarith [htw.1, hsum.1]) hval (by norm_num)

end Spec.ModerateFit
end
end GLM
