/-
  Error bounds of the log-likelihood of one observation.
-/
import Verif.Spec.LikeAccuracy
import Verif.Lemmas.AccuracyMean
import Verif.Lemmas.Family

namespace GLM
open Spec

/-! ### How much the exact log-likelihood moves with the natural parameter -/

theorem softplus_move {a c : ℝ} (h : a ≤ c) :
    0 ≤ Real.log (1 + Real.exp c) - Real.log (1 + Real.exp a) ∧
      Real.log (1 + Real.exp c) - Real.log (1 + Real.exp a) ≤ c - a := by
  have ha := Real.exp_pos a
  have hc := Real.exp_pos c
  have hac := Real.exp_le_exp.mpr h
  constructor
  · have := Real.log_le_log (by linarith) (show 1 + Real.exp a ≤ 1 + Real.exp c by linarith)
    linarith
  · have h1 : 1 + Real.exp c ≤ Real.exp (c - a) * (1 + Real.exp a) := by
      have h2 : 1 ≤ Real.exp (c - a) := Real.one_le_exp (by linarith)
      have h3 : Real.exp (c - a) * Real.exp a = Real.exp c := by rw [← Real.exp_add]; congr 1; ring
      nlinarith
    have := Real.log_le_log (by linarith) h1
    rw [Real.log_mul (Real.exp_pos _).ne' (by linarith), Real.log_exp] at this
    linarith

theorem softplus_lipschitz (a c : ℝ) :
    |Real.log (1 + Real.exp a) - Real.log (1 + Real.exp c)| ≤ |a - c| := by
  rcases le_total a c with h | h
  · obtain ⟨h1, h2⟩ := softplus_move h
    rw [abs_sub_comm, abs_of_nonneg h1, abs_sub_comm, abs_of_nonneg (by linarith)]
    exact h2
  · obtain ⟨h1, h2⟩ := softplus_move h
    rw [abs_of_nonneg h1, abs_of_nonneg (by linarith)]
    exact h2

theorem log_lipschitz {s t d : ℝ} (hd : d < t) (h : |s - t| ≤ d) :
    |Real.log s - Real.log t| ≤ d / (t - d) := by
  have hd0 : 0 ≤ d := (abs_nonneg _).trans h
  obtain ⟨h1, h2⟩ := abs_le.mp h
  have ht : 0 < t := by linarith
  have hs : 0 < s := by linarith
  have htd : 0 < t - d := by linarith
  have key : ∀ x y : ℝ, 0 < x → t - d ≤ y → x - y ≤ d → Real.log x - Real.log y ≤ d / (t - d) := by
    intro x y hx hy hxy
    have hy0 : 0 < y := by linarith
    rw [← Real.log_div hx.ne' hy0.ne']
    have h3 := Real.log_le_sub_one_of_pos (div_pos hx hy0)
    have h4 : x / y - 1 = (x - y) / y := by field_simp
    rw [h4] at h3
    exact h3.trans (div_le_div₀ hd0 hxy htd hy)
  refine abs_le.mpr ⟨?_, key s t hs (by linarith) h2⟩
  have := key t s ht (by linarith) (by linarith)
  linarith

theorem sqrt_lipschitz {s t : ℝ} (hs : 0 ≤ s) (ht : 0 < t) :
    |Real.sqrt s - Real.sqrt t| ≤ |s - t| / Real.sqrt t := by
  have hq := Real.sqrt_pos.mpr ht
  have hp := Real.sqrt_nonneg s
  have h1 : (Real.sqrt s - Real.sqrt t) * (Real.sqrt s + Real.sqrt t) = s - t := by
    linear_combination Real.mul_self_sqrt hs - Real.mul_self_sqrt ht.le
  rw [le_div_iff₀ hq, ← h1, abs_mul, abs_of_pos (show 0 < Real.sqrt s + Real.sqrt t by linarith)]
  exact mul_le_mul_of_nonneg_left (by linarith) (abs_nonneg _)

/-- The part `y ν` moves by at most `|y| B`. -/
theorem like_move {y w ν B C a c : ℝ} (h : |w - ν| ≤ B) (hA : |a - c| ≤ C) :
    |(y * w - a) - (y * ν - c)| ≤ |y| * B + C ∧
      |y * w| + |a| ≤ |y * ν| + |c| + (|y| * B + C) := by
  have h1 : |y * w - y * ν| ≤ |y| * B := by
    rw [← mul_sub, abs_mul]; exact mul_le_mul_of_nonneg_left h (abs_nonneg _)
  constructor
  · have := abs_sub (y * w - y * ν) (a - c)
    rw [show (y * w - a) - (y * ν - c) = (y * w - y * ν) - (a - c) by ring]
    linarith
  · have h2 := abs_add_le (y * w - y * ν) (y * ν)
    have h3 := abs_add_le (a - c) c
    rw [sub_add_cancel] at h2 h3
    linarith

/-- The log-likelihood and its parts move by at most `likeMove`. -/
theorem likeMove_spec (fam : Family) {y w ν B : ℝ} (h : |w - ν| ≤ B)
    (hf : match fam with
      | .logisticLogit | .logisticCloglog => 0 ≤ y ∧ y ≤ 1
      | .exponentialNegRec | .exponentialLog | .gammaNegRec | .gammaLog
      | .invGaussNegRecSq | .invGaussLog => B < -ν
      | _ => True) :
    |(y * w - cumulant fam w) - (y * ν - cumulant fam ν)| ≤ likeMove B fam y ν ∧
      likeSize fam y w ≤ likeSize fam y ν + likeMove B fam y ν := by
  have hB : 0 ≤ B := (abs_nonneg _).trans h
  have hwν : |w| ≤ |ν| + B := by
    have := abs_add_le (w - ν) ν
    rw [sub_add_cancel] at this
    linarith
  have hlog : 0 ≤ y ∧ y ≤ 1 → |(y * w - Real.log (1 + Real.exp w)) -
      (y * ν - Real.log (1 + Real.exp ν))| ≤ B := by
    rintro ⟨h0, h1⟩
    obtain ⟨e1, e2⟩ := abs_le.mp h
    rcases le_total ν w with hle | hle
    · obtain ⟨h2, h3⟩ := softplus_move hle
      refine abs_le.mpr ⟨?_, ?_⟩ <;> nlinarith
    · obtain ⟨h2, h3⟩ := softplus_move hle
      refine abs_le.mpr ⟨?_, ?_⟩ <;> nlinarith
  have hgamma : B < -ν → |(-Real.log (-w)) - (-Real.log (-ν))| ≤ B / (-ν - B) := by
    intro hB'
    rw [neg_sub_neg, abs_sub_comm]
    exact log_lipschitz hB' (by rw [neg_sub_neg, abs_sub_comm]; exact h)
  have hinv : B < -ν → |(-Real.sqrt (-2 * w)) - (-Real.sqrt (-2 * ν))| ≤ 2 * B / Real.sqrt (-2 * ν) := by
    intro hB'
    obtain ⟨e1, e2⟩ := abs_le.mp h
    rw [neg_sub_neg, abs_sub_comm]
    refine (sqrt_lipschitz (by linarith) (by linarith)).trans ?_
    refine div_le_div_of_nonneg_right ?_ (Real.sqrt_nonneg _)
    rw [← mul_sub, abs_mul, abs_of_neg (by norm_num : (-2 : ℝ) < 0)]
    linarith
  cases fam with
  | linear =>
    refine like_move h ?_
    change |w ^ 2 / 2 - ν ^ 2 / 2| ≤ (|ν| + B) * B
    rw [show w ^ 2 / 2 - ν ^ 2 / 2 = (w - ν) * ((w + ν) / 2) by ring, abs_mul, mul_comm]
    refine mul_le_mul ?_ h (abs_nonneg _) (by positivity)
    rw [abs_div, abs_of_pos (by norm_num : (0 : ℝ) < 2)]
    have := abs_add_le w ν
    linarith
  | logisticLogit => exact ⟨hlog hf, by change |w| + 1 ≤ |ν| + 1 + B; linarith⟩
  | logisticCloglog => exact ⟨hlog hf, by change |w| + 1 ≤ |ν| + 1 + B; linarith⟩
  | binomial N =>
    refine like_move h ?_
    change |N * Real.log (1 + Real.exp w) - N * Real.log (1 + Real.exp ν)| ≤ N * B
    rw [← mul_sub, abs_mul, abs_of_nonneg (Nat.cast_nonneg N)]
    exact mul_le_mul_of_nonneg_left ((softplus_lipschitz _ _).trans h) (Nat.cast_nonneg N)
  | poisson => exact like_move h (exp_move h).2
  | exponentialNegRec => exact like_move h (hgamma hf)
  | exponentialLog => exact like_move h (hgamma hf)
  | gammaNegRec => exact like_move h (hgamma hf)
  | gammaLog => exact like_move h (hgamma hf)
  | invGaussNegRecSq => exact like_move h (hinv hf)
  | invGaussLog => exact like_move h (hinv hf)

/-! ### Rounding, step by step -/

namespace Fl
open Scalar
variable {fmt : FloatFormat} {u tiny big : ℝ} {x y z w : Fl fmt}

/-- `x` is `v` after `k` roundings of quantities of size `S`, and underflow of size `T`. -/
structure Rel (u : ℝ) (k : ℕ) (S T : ℝ) (x : Fl fmt) (v : ℝ) : Prop where
  fin : x.isFinite
  le : |v| ≤ S
  err : |real x - v| ≤ ((1 + u) ^ k - 1) * S + T

theorem Rel.exact (hx : x.isFinite) : Rel u 0 |real x| 0 x (real x) :=
  ⟨hx, le_rfl, by simp⟩

theorem Rel.size {k : ℕ} {S T v : ℝ} (h : Rel u k S T x v) : |real x| ≤ (1 + u) ^ k * S + T := by
  have := abs_add_le (real x - v) v
  rw [sub_add_cancel] at this
  have h1 := h.err
  have h2 := h.le
  linarith

theorem Rel.mono (hu : 0 ≤ u) {k k' : ℕ} {S T T' v : ℝ} (h : Rel u k S T x v) (hk : k ≤ k')
    (hT : T ≤ T') : Rel u k' S T' x v := by
  refine ⟨h.fin, h.le, h.err.trans ?_⟩
  have h1 : (1 + u) ^ k ≤ (1 + u) ^ k' := pow_le_pow_right₀ (by linarith) hk
  have h2 := mul_le_mul_of_nonneg_right (sub_le_sub_right h1 1) ((abs_nonneg _).trans h.le)
  linarith

theorem Rel.round (hu : 0 ≤ u) {k : ℕ} {S T v v' : ℝ} (hz : z.isFinite) (hn : Near u tiny v' (real z))
    (hv : |v| ≤ S) (h : |v' - v| ≤ ((1 + u) ^ k - 1) * S + T) :
    Rel u (k + 1) S ((1 + u) * T + tiny) z v := by
  refine ⟨hz, hv, ?_⟩
  unfold Near at hn
  have h1 := abs_add_le (real z - v') (v' - v)
  rw [sub_add_sub_cancel] at h1
  have h2 := abs_add_le (v' - v) v
  rw [sub_add_cancel] at h2
  have h3 : u * |v'| ≤ u * (((1 + u) ^ k - 1) * S + T + S) :=
    mul_le_mul_of_nonneg_left (by linarith) hu
  rw [pow_succ]
  nlinarith

/-- A product with a number that is exact. -/
theorem Rel.mul (acc : Accurate fmt u tiny big) {k : ℕ} {S T v a : ℝ} (ha : z.isFinite)
    (haz : real z = a) (h : Rel u k S T x v) (hlt : |a| * ((1 + u) ^ k * S + T) < big) :
    Rel u (k + 1) (|a| * S) ((1 + u) * (|a| * T) + tiny) (z * x) (a * v) := by
  subst haz
  have hb : |real z * real x| < big := by
    rw [abs_mul]
    exact (mul_le_mul_of_nonneg_left h.size (abs_nonneg _)).trans_lt hlt
  obtain ⟨h1, h2⟩ := mul_near acc ha h.fin hb
  refine Rel.round acc.u_nonneg h1 h2 ?_ ?_
  · rw [abs_mul]; exact mul_le_mul_of_nonneg_left h.le (abs_nonneg _)
  · rw [← mul_sub, abs_mul]
    refine (mul_le_mul_of_nonneg_left h.err (abs_nonneg _)).trans (le_of_eq ?_)
    ring

theorem mul_comm_near (acc : Accurate fmt u tiny big) (hx : x.isFinite) (hy : y.isFinite)
    (h : |real x * real y| < big) : Rel u 1 |real x * real y| tiny (x * y) (real x * real y) := by
  obtain ⟨h1, h2⟩ := mul_near acc hx hy h
  have := Rel.round acc.u_nonneg (k := 0) (S := |real x * real y|) (T := 0) h1 h2 le_rfl (by simp)
  simpa using this

/-- Likewise on the other side. -/
theorem Rel.mul_right (acc : Accurate fmt u tiny big) {k : ℕ} {S T v a : ℝ} (ha : z.isFinite)
    (haz : real z = a) (h : Rel u k S T x v) (hlt : |a| * ((1 + u) ^ k * S + T) < big) :
    Rel u (k + 1) (|a| * S) ((1 + u) * (|a| * T) + tiny) (x * z) (a * v) := by
  subst haz
  have hb : |real x * real z| < big := by
    rw [abs_mul, mul_comm]
    exact (mul_le_mul_of_nonneg_left h.size (abs_nonneg _)).trans_lt hlt
  obtain ⟨h1, h2⟩ := mul_near acc h.fin ha hb
  refine Rel.round acc.u_nonneg h1 h2 ?_ ?_
  · rw [abs_mul]; exact mul_le_mul_of_nonneg_left h.le (abs_nonneg _)
  · rw [mul_comm (real x), ← mul_sub, abs_mul]
    refine (mul_le_mul_of_nonneg_left h.err (abs_nonneg _)).trans (le_of_eq ?_)
    ring

theorem Rel.neg {k : ℕ} {S T v : ℝ} (h : Rel u k S T x v) : Rel u k S T (-x) (-v) := by
  obtain ⟨h1, h2⟩ := real_neg h.fin
  refine ⟨h1, by rw [abs_neg]; exact h.le, ?_⟩
  rw [h2, neg_sub_neg, abs_sub_comm]
  exact h.err

theorem Rel.add (acc : Accurate fmt u tiny big) {k : ℕ} {S T v S' T' v' : ℝ} (h : Rel u k S T x v)
    (h' : Rel u k S' T' y v') (hlt : (1 + u) ^ k * (S + S') + (T + T') < big) :
    Rel u (k + 1) (S + S') ((1 + u) * (T + T') + tiny) (x + y) (v + v') := by
  have hb : |real x + real y| < big := by
    have := abs_add_le (real x) (real y)
    have h1 := h.size
    have h2 := h'.size
    linarith
  obtain ⟨h1, h2⟩ := add_near acc h.fin h'.fin hb
  refine Rel.round acc.u_nonneg h1 h2 ((abs_add_le _ _).trans (add_le_add h.le h'.le)) ?_
  rw [add_sub_add_comm]
  have := abs_add_le (real x - v) (real y - v')
  have h3 := h.err
  have h4 := h'.err
  linarith

theorem sub_eq (x y : Fl fmt) : x - y = x + -y := rfl

theorem Rel.sub (acc : Accurate fmt u tiny big) {k : ℕ} {S T v S' T' v' : ℝ} (h : Rel u k S T x v)
    (h' : Rel u k S' T' y v') (hlt : (1 + u) ^ k * (S + S') + (T + T') < big) :
    Rel u (k + 1) (S + S') ((1 + u) * (T + T') + tiny) (x - y) (v - v') := by
  rw [sub_eq_add_neg, sub_eq]
  exact h.add acc h'.neg hlt

/-! ### Library functions -/

theorem half_near (acc : AccurateLogs fmt u tiny big) :
    (half : Fl fmt).isFinite ∧ real (half : Fl fmt) = 1 / 2 := by
  refine finite_of_val (isNaN_num _) ?_
  change fmt.rnd (((5 : ℕ) / 10 ^ 1 : ℝ) : EReal) = _
  rw [show (((5 : ℕ) : ℝ) / 10 ^ 1) = 1 / 2 by norm_num]
  exact acc.rnd_half

theorem two_near (acc : Accurate fmt u tiny big) :
    (two : Fl fmt).isFinite ∧ real (two : Fl fmt) = 2 := by
  refine finite_of_val (isNaN_num _) ?_
  change fmt.rnd ((2 : ℕ) : ℝ) = _
  have := acc.rnd_two
  push_cast
  exact_mod_cast this

theorem ln_near (acc : AccurateLogs fmt u tiny big) (hx : x.isFinite) (h0 : 0 < real x)
    (hb : |Real.log (real x)| < big) :
    (ln x).isFinite ∧ Near u tiny (Real.log (real x)) (real (ln x)) := by
  have hn : ¬ (ln x).isNaN := by
    rw [isNaN_ln]
    rintro (h | h)
    · exact hx.1 h
    · rw [val_real hx] at h
      exact absurd (by exact_mod_cast h : real x < 0) (not_lt.mpr h0.le)
  obtain ⟨r, hr, hnear⟩ := acc.ln_near _ h0 hb
  have hv : (ln x).val = r := by rw [val_ln hn, val_real hx]; exact hr
  obtain ⟨h1, h2⟩ := finite_of_val hn hv
  exact ⟨h1, h2 ▸ hnear⟩

theorem ln1p_near (acc : AccurateLogs fmt u tiny big) (hx : x.isFinite) (h0 : 0 ≤ real x)
    (hb : Real.log (1 + real x) < big) :
    (ln1p x).isFinite ∧ Near u tiny (Real.log (1 + real x)) (real (ln1p x)) := by
  have hn : ¬ (ln1p x).isNaN := by
    rw [isNaN_ln1p]
    rintro (h | h)
    · exact hx.1 h
    · rw [val_real hx] at h
      rw [show (-1 : EReal) = ((-1 : ℝ) : EReal) from rfl, EReal.coe_lt_coe_iff] at h
      linarith
  obtain ⟨r, hr, hnear⟩ := acc.ln1p_near _ h0 hb
  have hv : (ln1p x).val = r := by rw [val_ln1p hn, val_real hx]; exact hr
  obtain ⟨h1, h2⟩ := finite_of_val hn hv
  exact ⟨h1, h2 ▸ hnear⟩

theorem exp_lt (acc : Accurate fmt u tiny big) (hw : w.isFinite) (hb : Real.exp (real w) < big) :
    (exp w).isFinite ∧ Near u tiny (Real.exp (real w)) (real (exp w)) ∧ 0 ≤ real (exp w) := by
  rcases exp_cases acc hw with h | ⟨-, -, h⟩
  · exact h
  · linarith

/-- `ln(1 + exp x)` by way of the computed exponential. -/
theorem softplus_near (acc : AccurateLogs fmt u tiny big) (hw : w.isFinite)
    (hb : Real.exp (real w) < big)
    (hb2 : (1 + u) ^ 2 * Real.log (1 + Real.exp (real w)) + 2 * tiny < big) :
    Rel u 3 (Real.log (1 + Real.exp (real w))) ((1 + u) * (2 * tiny) + tiny) (ln1p (exp w))
      (Real.log (1 + Real.exp (real w))) := by
  have hu := acc.u_nonneg
  have hu4 := acc.u_le
  have ht := acc.tiny_nonneg
  have ht8 := acc.tiny_le
  obtain ⟨hf, hn, h0⟩ := exp_lt acc.toAccurate hw hb
  unfold Near at hn
  set a := Real.exp (real w) with ha
  have ha0 : 0 < a := Real.exp_pos _
  rw [abs_of_pos ha0] at hn
  set e := real (exp w : Fl fmt) with he
  obtain ⟨h1, h2⟩ := abs_le.mp hn
  have hL0 : 0 ≤ Real.log (1 + a) := Real.log_nonneg (by linarith)
  have hdiv : a / (1 + a) ≤ Real.log (1 + a) := by
    have := Real.one_sub_inv_le_log_of_pos (show 0 < 1 + a by linarith)
    rw [show a / (1 + a) = 1 - (1 + a)⁻¹ by field_simp; ring]
    exact this
  have hq : (u * a + tiny) / (1 + a) ≤ u * Real.log (1 + a) + tiny := by
    have h3 : (u * a + tiny) / (1 + a) = u * (a / (1 + a)) + tiny / (1 + a) := by ring
    rw [h3]
    have h4 := mul_le_mul_of_nonneg_left hdiv hu
    have h5 : tiny / (1 + a) ≤ tiny := div_le_self ht (by linarith)
    linarith
  have hmove : |Real.log (1 + e) - Real.log (1 + a)| ≤ ((1 + u) ^ 2 - 1) * Real.log (1 + a) + 2 * tiny := by
    have key : ∀ s t : ℝ, 0 < s → 0 < t → Real.log s - Real.log t ≤ (s - t) / t := by
      intro s t hs ht
      rw [← Real.log_div hs.ne' ht.ne']
      have h3 := Real.log_le_sub_one_of_pos (div_pos hs ht)
      have h4 : s / t - 1 = (s - t) / t := by field_simp
      rwa [h4] at h3
    have hsq : 0 ≤ u ^ 2 * Real.log (1 + a) := by positivity
    refine abs_le.mpr ⟨?_, ?_⟩
    · have h3 := key (1 + a) (1 + e) (by linarith) (by linarith)
      have h4 : (1 + a - (1 + e)) / (1 + e) ≤ (u * a + tiny) / ((1 + a) / 2) := by
        refine div_le_div₀ (by positivity) (by linarith) (by linarith) ?_
        have : u * a ≤ 1 / 4 * a := mul_le_mul_of_nonneg_right hu4 ha0.le
        linarith
      have h5 : (u * a + tiny) / ((1 + a) / 2) = 2 * ((u * a + tiny) / (1 + a)) := by field_simp
      rw [h5] at h4
      nlinarith
    · have h3 := key (1 + e) (1 + a) (by linarith) (by linarith)
      have h4 : (1 + e - (1 + a)) / (1 + a) ≤ (u * a + tiny) / (1 + a) :=
        div_le_div_of_nonneg_right (by linarith) (by linarith)
      have : 0 ≤ u * Real.log (1 + a) := by positivity
      nlinarith
  have hlt : Real.log (1 + e) < big := by
    have := (abs_le.mp hmove).2
    linarith
  obtain ⟨hf', hn'⟩ := ln1p_near acc hf h0 hlt
  exact Rel.round hu hf' hn' (by rw [abs_of_nonneg hL0]) hmove

/-- `ln(1 + exp x)` for a negative `x`. -/
theorem softplus_neg_near (acc : AccurateLogs fmt u tiny big) (hw : w.isFinite) (h0 : real w ≤ 0) :
    Rel u 2 1 ((1 + u) * tiny + tiny) (ln1p (exp w)) (Real.log (1 + Real.exp (real w))) := by
  have hu := acc.u_nonneg
  have hu4 := acc.u_le
  have ht := acc.tiny_nonneg
  have ht8 := acc.tiny_le
  have hbig := acc.big_ge
  have ha1 : Real.exp (real w) ≤ 1 := Real.exp_le_one_iff.mpr h0
  obtain ⟨hf, hn, h0'⟩ := exp_lt acc.toAccurate hw (by linarith)
  unfold Near at hn
  set a := Real.exp (real w) with ha
  have ha0 : 0 < a := Real.exp_pos _
  rw [abs_of_pos ha0] at hn
  set e := real (exp w : Fl fmt) with he
  have hua : u * a ≤ u := mul_le_of_le_one_right hu ha1
  have hL0 : 0 ≤ Real.log (1 + a) := Real.log_nonneg (by linarith)
  have hL1 : Real.log (1 + a) ≤ 1 := by
    have := Real.log_le_sub_one_of_pos (show 0 < 1 + a by linarith)
    linarith
  have key : ∀ s t : ℝ, 0 ≤ s → 0 ≤ t → Real.log (1 + s) - Real.log (1 + t) ≤ |s - t| := by
    intro s t hs ht
    rw [← Real.log_div (by linarith) (by linarith)]
    have h3 := Real.log_le_sub_one_of_pos (div_pos (show 0 < 1 + s by linarith) (show 0 < 1 + t by linarith))
    have h4 : (1 + s) / (1 + t) - 1 = (s - t) / (1 + t) := by
      have : 1 + t ≠ 0 := by linarith
      field_simp
      ring
    rw [h4] at h3
    refine h3.trans ((div_le_div_of_nonneg_right (le_abs_self _) (by linarith)).trans ?_)
    exact div_le_self (abs_nonneg _) (by linarith)
  have hmove : |Real.log (1 + e) - Real.log (1 + a)| ≤ ((1 + u) ^ 1 - 1) * 1 + tiny := by
    have h1 := key e a h0' ha0.le
    have h2 := key a e ha0.le h0'
    rw [abs_sub_comm] at h2
    exact abs_le.mpr ⟨by linarith, by linarith⟩
  have hlt : Real.log (1 + e) < big := by
    have := (abs_le.mp hmove).2
    linarith
  obtain ⟨hf', hn'⟩ := ln1p_near acc hf h0' hlt
  exact Rel.round hu hf' hn' (by rw [abs_of_nonneg hL0]; exact hL1) hmove

/-! ### The log-likelihood of one observation at the computed natural parameter -/

theorem Rel.fin5 (hu : 0 ≤ u) {k : ℕ} {S T v c : ℝ} (hk : k ≤ 5) (h : Rel u k S T z v) (hc : T ≤ c) :
    z.isFinite ∧ |real z - v| ≤ ((1 + u) ^ 5 - 1) * S + c :=
  ⟨h.fin, (h.mono hu hk hc).err⟩

theorem pow5_le (hu : 0 ≤ u) {k : ℕ} {S : ℝ} (hk : k ≤ 5) (hS : 0 ≤ S) :
    (1 + u) ^ k * S ≤ (1 + u) ^ 5 * S :=
  mul_le_mul_of_nonneg_right (pow_le_pow_right₀ (by linarith) hk) hS

theorem le_pow5 (hu : 0 ≤ u) {S : ℝ} (hS : 0 ≤ S) : S ≤ (1 + u) ^ 5 * S :=
  le_mul_of_one_le_left hS (one_le_pow₀ (by linarith))

theorem gamma_like_near (acc : AccurateLogs fmt u tiny big) (hy : y.isFinite) (hw : w.isFinite) :
   real w < 0 →
    (1 + u) ^ 5 * (|real y * real w| + |-Real.log (-real w)|) + 6 * tiny < big →
    (y * w - -ln (-w) : Fl fmt).isFinite ∧
    |real (y * w - -ln (-w) : Fl fmt) - (real y * real w - -Real.log (-real w))| ≤
      ((1 + u) ^ 5 - 1) * (|real y * real w| + |-Real.log (-real w)|) + 6 * tiny := by
  have hu := acc.u_nonneg
  have hu4 := acc.u_le
  have ht := acc.tiny_nonneg
  have ht8 := acc.tiny_le
  have hbig := acc.big_ge
  have acc' := acc.toAccurate
  have hut : u * tiny ≤ 1 / 4 * tiny := mul_le_mul_of_nonneg_right hu4 ht
  have hut0 : 0 ≤ u * tiny := mul_nonneg hu ht
  have huut : u * (u * tiny) ≤ 1 / 4 * (u * tiny) := mul_le_mul_of_nonneg_right hu4 hut0
  intro hw0 hb
  rw [abs_neg] at hb ⊢
  obtain ⟨hnf, hnr⟩ := real_neg hw
  have hs0 := abs_nonneg (real y * real w)
  have hs1 := abs_nonneg (Real.log (-real w))
  have e0 := le_pow5 hu hs0
  have e1 := le_pow5 hu hs1
  have e2 := pow5_le hu (k := 1) (by norm_num) hs0
  have e3 := pow5_le hu (k := 1) (by norm_num) hs1
  have r1 := mul_comm_near acc' hy hw (by nlinarith)
  obtain ⟨h1, h2⟩ := ln_near acc hnf (by rw [hnr]; linarith) (by rw [hnr]; nlinarith)
  rw [hnr] at h2
  have r2 := Rel.round hu (k := 0) (S := |Real.log (-real w)|) (T := 0) h1 h2 le_rfl (by simp)
  rw [mul_zero, zero_add, zero_add] at r2
  have r3 := r1.sub acc' r2.neg (by nlinarith)
  exact Rel.fin5 hu (by norm_num) r3 (by nlinarith)

theorem invGauss_like_near (acc : AccurateLogs fmt u tiny big) (hy : y.isFinite) (hw : w.isFinite) :
   real w < 0 → 2 * |real w| + 1 < big →
    (1 + u) ^ 5 * (|real y * real w| + |-Real.sqrt (-2 * real w)|)
      + (6 + 2 / Real.sqrt (-2 * real w - 2 * 0)) * tiny < big →
    (y * w - -sqrt (-two * w) : Fl fmt).isFinite ∧
    |real (y * w - -sqrt (-two * w) : Fl fmt) - (real y * real w - -Real.sqrt (-2 * real w))| ≤
      ((1 + u) ^ 5 - 1) * (|real y * real w| + |-Real.sqrt (-2 * real w)|)
        + (6 + 2 / Real.sqrt (-2 * real w - 2 * 0)) * tiny := by
  have hu := acc.u_nonneg
  have hu4 := acc.u_le
  have ht := acc.tiny_nonneg
  have ht8 := acc.tiny_le
  have hbig := acc.big_ge
  have acc' := acc.toAccurate
  have hut : u * tiny ≤ 1 / 4 * tiny := mul_le_mul_of_nonneg_right hu4 ht
  have hut0 : 0 ≤ u * tiny := mul_nonneg hu ht
  have huut : u * (u * tiny) ≤ 1 / 4 * (u * tiny) := mul_le_mul_of_nonneg_right hu4 hut0
  intro hw0 hw2 hb
  rw [abs_of_neg hw0] at hw2
  rw [mul_zero, sub_zero] at hb ⊢
  rw [abs_neg] at hb ⊢
  obtain ⟨htf, htr⟩ := two_near acc'
  obtain ⟨hnf, hnr⟩ := real_neg htf
  rw [htr] at hnr
  set t := -2 * real w with htd
  have ht0 : 0 < t := by linarith
  obtain ⟨hf1, hn1⟩ := mul_near acc' hnf hw (by rw [hnr, abs_of_pos ht0]; linarith)
  rw [hnr] at hn1
  unfold Near at hn1
  rw [abs_of_pos ht0] at hn1
  have hz0 : 0 ≤ real (-two * w : Fl fmt) := by
    have := neg_two_mul hw.1 (by rw [val_real hw]; exact_mod_cast hw0)
    have h0 := this.2.1
    rw [val_real hf1] at h0
    exact_mod_cast h0
  set q := Real.sqrt t with hq
  have hq0 : 0 < q := Real.sqrt_pos.mpr ht0
  have hqq : q * q = t := Real.mul_self_sqrt ht0.le
  rw [abs_of_pos hq0] at hb ⊢
  have hmove : |Real.sqrt (real (-two * w : Fl fmt)) - q| ≤ ((1 + u) ^ 1 - 1) * q + tiny / q := by
    refine (sqrt_lipschitz hz0 ht0).trans ?_
    rw [div_le_iff₀ hq0]
    have : (((1 + u) ^ 1 - 1) * q + tiny / q) * q = u * t + tiny := by
      rw [← hqq]; field_simp; ring
    rw [this]
    exact hn1
  have htq : 0 ≤ tiny / q := by positivity
  have huq : u * (tiny / q) ≤ 1 / 4 * (tiny / q) := mul_le_mul_of_nonneg_right hu4 htq
  have huuq : u * (u * (tiny / q)) ≤ 1 / 4 * (u * (tiny / q)) :=
    mul_le_mul_of_nonneg_right hu4 (mul_nonneg hu htq)
  have e2q : 2 / q * tiny = 2 * (tiny / q) := by ring
  have hs0 := abs_nonneg (real y * real w)
  have e0 := le_pow5 hu hs0
  have e1 := le_pow5 hu hq0.le
  have e2 := pow5_le hu (k := 1) (by norm_num) hq0.le
  have e3 := pow5_le hu (k := 2) (by norm_num) hq0.le
  have e4 := pow5_le hu (k := 2) (by norm_num) hs0
  have r1 := mul_comm_near acc' hy hw (by nlinarith)
  obtain ⟨hf2, hn2⟩ := sqrt_near acc' hf1 hz0 (by
    have := (abs_le.mp hmove).2
    nlinarith)
  have r2 := Rel.round hu hf2 hn2 (abs_of_pos hq0).le hmove
  have r3 := (r1.mono hu (by norm_num : 1 ≤ 2) le_rfl).sub acc' r2.neg (by nlinarith)
  exact Rel.fin5 hu (by norm_num) r3 (by nlinarith)

theorem logit_like_near (acc : AccurateLogs fmt u tiny big) (hy : y.isFinite) (hw : w.isFinite) :
   0 ≤ real y ∧ real y ≤ 1 →
    (1 + u) ^ 5 * (|real w| + 1) + (6 + 2 * (|real w| + 0)) * tiny < big →
    (logisticLogLikeNatural y w : Fl fmt).isFinite ∧
    |real (logisticLogLikeNatural y w : Fl fmt)
        - (real y * real w - Real.log (1 + Real.exp (real w)))| ≤
      ((1 + u) ^ 5 - 1) * (|real w| + 1) + (6 + 2 * (|real w| + 0)) * tiny := by
  have hu := acc.u_nonneg
  have hu4 := acc.u_le
  have ht := acc.tiny_nonneg
  have ht8 := acc.tiny_le
  have hbig := acc.big_ge
  have acc' := acc.toAccurate
  have hut : u * tiny ≤ 1 / 4 * tiny := mul_le_mul_of_nonneg_right hu4 ht
  have hut0 : 0 ≤ u * tiny := mul_nonneg hu ht
  have huut : u * (u * tiny) ≤ 1 / 4 * (u * tiny) := mul_le_mul_of_nonneg_right hu4 hut0
  rintro ⟨hy0, hy1⟩ hb
  have hw0 := abs_nonneg (real w)
  have hwt : 0 ≤ |real w| * tiny := mul_nonneg hw0 ht
  have huwt : u * (|real w| * tiny) ≤ 1 / 4 * (|real w| * tiny) := mul_le_mul_of_nonneg_right hu4 hwt
  have huuwt : u * (u * (|real w| * tiny)) ≤ 1 / 4 * (u * (|real w| * tiny)) :=
    mul_le_mul_of_nonneg_right hu4 (mul_nonneg hu hwt)
  have e0 := le_pow5 hu hw0
  have e1 := le_pow5 hu zero_le_one
  have e2 := pow5_le hu (k := 2) (by norm_num) hw0
  have e3 := pow5_le hu (k := 2) (S := 1) (by norm_num) (by norm_num)
  have e4 := pow5_le hu (k := 1) (by norm_num) hw0
  -- the split form, with a share `c` of the response and `t = -|w|`
  have split : ∀ (c t : Fl fmt) (c' : ℝ), Rel u 1 1 tiny c c' → t.isFinite → real t ≤ 0 →
      |real t| = |real w| → (c * t - ln1p (exp t) : Fl fmt).isFinite ∧
      |real (c * t - ln1p (exp t) : Fl fmt) - (real t * c' - Real.log (1 + Real.exp (real t)))| ≤
        ((1 + u) ^ 5 - 1) * (|real w| + 1) + (6 + 2 * (|real w| + 0)) * tiny := by
    intro c t c' hc htf ht0 htw
    have r1 := hc.mul_right acc' htf rfl (by rw [htw]; nlinarith)
    rw [htw] at r1
    have r2 := softplus_neg_near acc htf ht0
    have r1 := r1.mono hu (le_refl 2) le_rfl
    have r3 := r1.sub acc' r2 (by nlinarith)
    rw [mul_one] at r3
    exact Rel.fin5 hu (by norm_num) r3 (by nlinarith)
  unfold logisticLogLikeNatural
  by_cases hlt : real w < 0
  · have hl : lt w (0 : Fl fmt) = true := by
      rw [lt_iff]
      refine ⟨hw.1, real_zero.1.1, ?_⟩
      rw [val_real hw, val_real real_zero.1, real_zero.2]
      exact_mod_cast hlt
    rw [hl]
    have hr : Rel u 1 1 tiny y (real y) :=
      ⟨hy, by rw [abs_of_nonneg hy0]; exact hy1, by rw [sub_self, abs_zero]; simp; linarith⟩
    have := split y w _ hr hw hlt.le rfl
    rwa [mul_comm (real w)] at this
  · have hl : lt w (0 : Fl fmt) = false := by
      rw [Bool.eq_false_iff, Ne, lt_iff]
      rintro ⟨-, -, h⟩
      rw [val_real hw, val_real real_zero.1, real_zero.2] at h
      exact hlt (by exact_mod_cast h)
    rw [hl]
    obtain ⟨hnf, hnr⟩ := real_neg hw
    have hone := real_one (fmt := fmt)
    have hr : Rel u 1 1 tiny (1 - y) (1 - real y) := by
      obtain ⟨hyf, hyr⟩ := real_neg hy
      obtain ⟨h1, h2⟩ := add_near acc' hone.1 hyf (by
        rw [hone.2, hyr]
        rw [abs_of_nonneg (by linarith)]
        linarith)
      rw [hone.2, hyr, ← sub_eq_add_neg] at h2
      have := Rel.round hu (k := 0) (S := 1) (T := 0) (v := 1 - real y) h1 h2
        (by rw [abs_of_nonneg (by linarith)]; linarith) (by simp)
      rw [mul_zero, zero_add, zero_add] at this
      exact this
    have := split (1 - y) (-w) _ hr hnf (by rw [hnr]; linarith) (by rw [hnr, abs_neg])
    rw [hnr] at this
    have hid : -real w * (1 - real y) - Real.log (1 + Real.exp (-real w))
        = real y * real w - Real.log (1 + Real.exp (real w)) := by
      have h1 : 1 + Real.exp (real w) = Real.exp (real w) * (1 + Real.exp (-real w)) := by
        rw [mul_add, ← Real.exp_add]; simp; ring
      rw [h1, Real.log_mul (Real.exp_pos _).ne' (by positivity), Real.log_exp]
      ring
    rwa [hid] at this

theorem linear_like_near (acc : AccurateLogs fmt u tiny big) (hy : y.isFinite) (hw : w.isFinite)
    (hwb : |real w| < big)
    (hb : (1 + u) ^ 5 * (|real y * real w| + |real w ^ 2 / 2|) + (6 + 2 * (|real w| + 0)) * tiny < big) :
    (y * w - half * w * w : Fl fmt).isFinite ∧ |real (y * w - half * w * w : Fl fmt) -
      (real y * real w - real w ^ 2 / 2)| ≤
      ((1 + u) ^ 5 - 1) * (|real y * real w| + |real w ^ 2 / 2|) + (6 + 2 * (|real w| + 0)) * tiny := by
  have hu := acc.u_nonneg
  have hu4 := acc.u_le
  have ht := acc.tiny_nonneg
  have ht8 := acc.tiny_le
  have hbig := acc.big_ge
  have acc' := acc.toAccurate
  have hut : u * tiny ≤ 1 / 4 * tiny := mul_le_mul_of_nonneg_right hu4 ht
  have hut0 : 0 ≤ u * tiny := mul_nonneg hu ht
  have huut : u * (u * tiny) ≤ 1 / 4 * (u * tiny) := mul_le_mul_of_nonneg_right hu4 hut0
  obtain ⟨hh, hhr⟩ := half_near acc
  have hs0 := abs_nonneg (real y * real w)
  have hs1 := abs_nonneg (real w ^ 2 / 2)
  have hw0 := abs_nonneg (real w)
  have hwt : 0 ≤ |real w| * tiny := mul_nonneg hw0 ht
  have huwt : u * (|real w| * tiny) ≤ 1 / 4 * (|real w| * tiny) := mul_le_mul_of_nonneg_right hu4 hwt
  have huuwt : u * (u * (|real w| * tiny)) ≤ 1 / 4 * (u * (|real w| * tiny)) :=
    mul_le_mul_of_nonneg_right hu4 (mul_nonneg hu hwt)
  have e0 := le_pow5 hu hs0
  have e1 := le_pow5 hu hs1
  have e2 := pow5_le hu (k := 2) (by norm_num) hs1
  have e3 := pow5_le hu (k := 1) (by norm_num) hs0
  have e4 := pow5_le hu (k := 2) (by norm_num) hs0
  have e5 := pow5_le hu (k := 1) (by norm_num) hs1
  have r1 := mul_comm_near acc' hy hw (by nlinarith)
  have r2 : Rel u 1 |1 / 2 * real w| tiny (half * w : Fl fmt) (1 / 2 * real w) := by
    have := mul_comm_near acc' hh hw (by
      rw [hhr, abs_mul, abs_of_pos (by norm_num : (0 : ℝ) < 1 / 2)]; linarith)
    rwa [hhr] at this
  have hsq : |real w| * |1 / 2 * real w| = |real w ^ 2 / 2| := by
    rw [← abs_mul]; congr 1; ring
  have r3 := r2.mul_right acc' hw rfl (by
    rw [mul_add, mul_left_comm, hsq]
    nlinarith)
  rw [hsq, show real w * (1 / 2 * real w) = real w ^ 2 / 2 by ring] at r3
  have r4 := (r1.mono hu (by norm_num : 1 ≤ 2) le_rfl).sub acc' r3 (by nlinarith)
  exact Rel.fin5 hu (by norm_num) r4 (by nlinarith)

theorem binomial_like_near (acc : AccurateLogs fmt u tiny big) {N : ℕ} (hy : y.isFinite)
    (hw : w.isFinite) (hN : 1 ≤ N) (hNr : fmt.rnd (N : ℝ) = (N : ℝ)) (hfe : Real.exp (real w) < big)
    (hb : (1 + u) ^ 5 * (|real y * real w| + |N * Real.log (1 + Real.exp (real w))|)
      + (6 + 8 * N) * tiny < big) :
    (y * w - ofNat N * ln1p (exp w) : Fl fmt).isFinite ∧
      |real (y * w - ofNat N * ln1p (exp w) : Fl fmt)
        - (real y * real w - N * Real.log (1 + Real.exp (real w)))| ≤
      ((1 + u) ^ 5 - 1) * (|real y * real w| + |N * Real.log (1 + Real.exp (real w))|)
        + (6 + 8 * N) * tiny := by
  have hu := acc.u_nonneg
  have hu4 := acc.u_le
  have ht := acc.tiny_nonneg
  have ht8 := acc.tiny_le
  have hbig := acc.big_ge
  have acc' := acc.toAccurate
  have hut : u * tiny ≤ 1 / 4 * tiny := mul_le_mul_of_nonneg_right hu4 ht
  have hut0 : 0 ≤ u * tiny := mul_nonneg hu ht
  have huut : u * (u * tiny) ≤ 1 / 4 * (u * tiny) := mul_le_mul_of_nonneg_right hu4 hut0
  set L := Real.log (1 + Real.exp (real w)) with hL
  have hL0 : 0 ≤ L := Real.log_nonneg (by linarith [Real.exp_pos (real w)])
  have hNf : (ofNat N : Fl fmt).isFinite ∧ real (ofNat N : Fl fmt) = N :=
    finite_of_val (isNaN_num _) hNr
  have hN1 : (1 : ℝ) ≤ N := by exact_mod_cast hN
  have hNL0 : 0 ≤ N * L := by positivity
  rw [abs_of_nonneg hNL0] at hb ⊢
  have hs0 := abs_nonneg (real y * real w)
  have hNt : tiny ≤ N * tiny := le_mul_of_one_le_left ht hN1
  have hNt0 : 0 ≤ N * tiny := by positivity
  have huNt : u * (N * tiny) ≤ 1 / 4 * (N * tiny) := mul_le_mul_of_nonneg_right hu4 hNt0
  have huuNt : u * (u * (N * tiny)) ≤ 1 / 4 * (u * (N * tiny)) :=
    mul_le_mul_of_nonneg_right hu4 (mul_nonneg hu hNt0)
  have huuuNt : u * (u * (u * (N * tiny))) ≤ 1 / 4 * (u * (u * (N * tiny))) :=
    mul_le_mul_of_nonneg_right hu4 (mul_nonneg hu (mul_nonneg hu hNt0))
  have hLN : L ≤ N * L := le_mul_of_one_le_left hL0 hN1
  have e0 := le_pow5 hu hs0
  have e1 := le_pow5 hu hNL0
  have e2 := pow5_le hu (k := 2) (by norm_num) hL0
  have e3 := pow5_le hu (k := 3) (by norm_num) hNL0
  have e4 := pow5_le hu (k := 4) (by norm_num) hNL0
  have e5 := pow5_le hu (k := 4) (by norm_num) hs0
  have e6 : (1 + u) ^ 5 * L ≤ (1 + u) ^ 5 * (N * L) := mul_le_mul_of_nonneg_left hLN (by positivity)
  have r1 := mul_comm_near acc' hy hw (by nlinarith)
  have r2 := softplus_near acc hw hfe (by rw [← hL]; nlinarith)
  rw [← hL] at r2
  have r3 := r2.mul acc' hNf.1 hNf.2 (by
    rw [abs_of_nonneg (by linarith)]
    have : (N : ℝ) * ((1 + u) ^ 3 * L + ((1 + u) * (2 * tiny) + tiny))
      = (1 + u) ^ 3 * (N * L) + (3 * (N * tiny) + 2 * (u * (N * tiny))) := by ring
    rw [this]
    nlinarith)
  rw [abs_of_nonneg (by linarith : (0 : ℝ) ≤ N)] at r3
  have hT : (1 + u) * (N * ((1 + u) * (2 * tiny) + tiny)) + tiny
      = 3 * (N * tiny) + 5 * (u * (N * tiny)) + 2 * (u * (u * (N * tiny))) + tiny := by ring
  rw [hT] at r3
  have r4 := (r1.mono hu (by norm_num : 1 ≤ 4) le_rfl).sub acc' r3 (by nlinarith)
  exact Rel.fin5 hu (by norm_num) r4 (by nlinarith)

theorem poisson_like_near (acc : AccurateLogs fmt u tiny big) (hy : y.isFinite) (hw : w.isFinite)
    (hf : Real.exp (real w) < big)
    (hb : (1 + u) ^ 5 * (|real y * real w| + |Real.exp (real w)|) + 6 * tiny < big) :
    (y * w - exp w : Fl fmt).isFinite ∧
      |real (y * w - exp w : Fl fmt) - (real y * real w - Real.exp (real w))| ≤
      ((1 + u) ^ 5 - 1) * (|real y * real w| + |Real.exp (real w)|) + 6 * tiny := by
  have hu := acc.u_nonneg
  have hu4 := acc.u_le
  have ht := acc.tiny_nonneg
  have ht8 := acc.tiny_le
  have hbig := acc.big_ge
  have acc' := acc.toAccurate
  have hut : u * tiny ≤ 1 / 4 * tiny := mul_le_mul_of_nonneg_right hu4 ht
  have hut0 : 0 ≤ u * tiny := mul_nonneg hu ht
  have huut : u * (u * tiny) ≤ 1 / 4 * (u * tiny) := mul_le_mul_of_nonneg_right hu4 hut0
  have hs0 := abs_nonneg (real y * real w)
  have hs1 := abs_nonneg (Real.exp (real w))
  have e0 := le_pow5 hu hs0
  have e1 := le_pow5 hu hs1
  have e2 := pow5_le hu (k := 1) (by norm_num) hs0
  have e3 := pow5_le hu (k := 1) (by norm_num) hs1
  have r1 := mul_comm_near acc' hy hw (by nlinarith)
  obtain ⟨h1, h2, -⟩ := exp_lt acc' hw hf
  have r2 := Rel.round hu (k := 0) (S := |Real.exp (real w)|) (T := 0) h1 h2 le_rfl (by simp)
  rw [mul_zero, zero_add, zero_add] at r2
  have r3 := r1.sub acc' r2 (by nlinarith)
  exact Rel.fin5 hu (by norm_num) r3 (by nlinarith)

theorem likeNatural_near (acc : AccurateLogs fmt u tiny big) (fam : Family) (hy : y.isFinite)
    (hw : w.isFinite) (hwb : |real w| < big)
    (hb : (1 + u) ^ 5 * likeSize fam (real y) (real w) + likeUnderflow 0 fam (real w) * tiny < big)
    (hf : match fam with
      | .linear => True
      | .logisticLogit | .logisticCloglog => 0 ≤ real y ∧ real y ≤ 1
      | .poisson => Real.exp (real w) < big
      | .binomial N => 1 ≤ N ∧ fmt.rnd (N : ℝ) = (N : ℝ) ∧ Real.exp (real w) < big
      | .exponentialNegRec | .exponentialLog | .gammaNegRec | .gammaLog => real w < 0
      | .invGaussNegRecSq | .invGaussLog => real w < 0 ∧ 2 * |real w| + 1 < big) :
    (fam.glm.logLikeNatural y w : Fl fmt).isFinite ∧
      |real (fam.glm.logLikeNatural y w : Fl fmt) - (real y * real w - cumulant fam (real w))| ≤
        ((1 + u) ^ 5 - 1) * likeSize fam (real y) (real w) + likeUnderflow 0 fam (real w) * tiny := by
  cases fam with
  | linear => exact linear_like_near acc hy hw hwb hb
  | logisticLogit => exact logit_like_near acc hy hw hf hb
  | logisticCloglog => exact logit_like_near acc hy hw hf hb
  | binomial N => exact binomial_like_near acc hy hw hf.1 hf.2.1 hf.2.2 hb
  | poisson => exact poisson_like_near acc hy hw hf hb
  | exponentialNegRec => exact gamma_like_near acc hy hw hf hb
  | exponentialLog => exact gamma_like_near acc hy hw hf hb
  | gammaNegRec => exact gamma_like_near acc hy hw hf hb
  | gammaLog => exact gamma_like_near acc hy hw hf hb
  | invGaussNegRecSq => exact invGauss_like_near acc hy hw hf.1 hf.2 hb
  | invGaussLog => exact invGauss_like_near acc hy hw hf.1 hf.2 hb

end Fl
end GLM
