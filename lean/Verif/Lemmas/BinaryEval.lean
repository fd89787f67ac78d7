/-
  Evaluation of floating-point operations on given numbers.
-/
import Verif.Lemmas.Accuracy

namespace GLM
open Spec Fl

theorem roundEven_to {x : ℝ} {k : ℤ} (h : |x - k| < 1 / 2 ∨ (|x - k| ≤ 1 / 2 ∧ Even k)) :
    roundEven x = k := by
  have hle : |x - k| ≤ 1 / 2 := by
    rcases h with h | h
    · exact h.le
    · exact h.1
  rw [abs_le] at hle
  have hfl := Int.floor_le x
  have hfl' := Int.lt_floor_add_one x
  have hcases : ⌊x⌋ = k ∨ ⌊x⌋ = k - 1 := by
    have h1 : ⌊x⌋ < k + 1 := by
      have : (⌊x⌋ : ℝ) < k + 1 := by linarith
      exact_mod_cast this
    have h2 : k - 2 < ⌊x⌋ := by
      have : (k : ℝ) - 2 < ⌊x⌋ := by linarith
      exact_mod_cast this
    omega
  rcases hcases with hf | hf
  · unfold roundEven
    rw [hf]
    by_cases h1 : x - k < 1 / 2
    · rw [if_pos h1]
    · rw [if_neg h1, if_neg (by linarith)]
      rcases h with h | h
      · rw [abs_lt] at h; exact absurd h.2 h1
      · rw [if_pos h.2]
  · unfold roundEven
    rw [hf]
    push_cast
    by_cases h1 : 1 / 2 < x - (k - 1)
    · rw [if_neg (by linarith), if_pos h1]; ring
    · rcases h with h | h
      · rw [abs_lt] at h; exact absurd (by linarith [h.1]) h1
      · rw [if_neg (by linarith), if_neg h1, if_neg ?_]
        · ring
        · rw [Int.even_sub_one]; exact not_not.mpr h.2

theorem roundBits_to {p : ℕ} {emin e k : ℤ} {v : ℝ} (h1 : (2 : ℝ) ^ e ≤ v) (h2 : v < (2 : ℝ) ^ (e + 1))
    (he : emin ≤ e)
    (hk : |v / 2 ^ (e - (p - 1 : ℤ)) - k| < 1 / 2 ∨ (|v / 2 ^ (e - (p - 1 : ℤ)) - k| ≤ 1 / 2 ∧ Even k)) :
    roundBits p emin v = 2 ^ (e - (p - 1 : ℤ)) * k := by
  have hv : 0 < v := lt_of_lt_of_le (by positivity) h1
  have hlog : Int.log 2 |v| = e := by
    rw [abs_of_pos hv]
    have a : e ≤ Int.log 2 v := (Int.zpow_le_iff_le_log (by norm_num) hv).mp (by exact_mod_cast h1)
    have b : Int.log 2 v < e + 1 := (Int.lt_zpow_iff_log_lt (by norm_num) hv).mp (by exact_mod_cast h2)
    omega
  unfold roundBits ulp
  rw [hlog, max_eq_left he, roundEven_to hk]

/-- Rounding a positive number of `f64` range to an integer multiple of its last place. -/
theorem rnd_binary64 {order : SumSite → (n : ℕ) → SumOrder n} {e k : ℤ} {v r : ℝ} (h1 : (2 : ℝ) ^ e ≤ v)
    (h2 : v < (2 : ℝ) ^ (e + 1)) (he : -1022 ≤ e) (he' : e ≤ 1000)
    (hk : |v / 2 ^ (e - 52) - k| < 1 / 2 ∨ (|v / 2 ^ (e - 52) - k| ≤ 1 / 2 ∧ Even k))
    (hr : (2 : ℝ) ^ (e - 52) * k = r) :
    (binary64 order).rnd (v : EReal) = (r : EReal) := by
  have hb : roundBits 53 (-1022) v = r := by
    rw [← hr]
    have := roundBits_to (p := 53) (emin := -1022) (k := k) h1 h2 he (by norm_num at hk ⊢; exact hk)
    rw [this]; norm_num
  have hv : 0 < v := lt_of_lt_of_le (by positivity) h1
  have h0 : 0 ≤ r := hb ▸ roundBits_nonneg hv.le
  have hq : (0 : ℝ) < 2 ^ (e - 52) := by positivity
  have hqe : (2 : ℝ) ^ (e - 52) ≤ 2 ^ (e + 1) := zpow_le_zpow_right₀ (by norm_num) (by omega)
  have hlt : r < 2 ^ (1024 : ℤ) := by
    have k1 : (k : ℝ) ≤ v / 2 ^ (e - 52) + 1 / 2 := by
      have : |v / 2 ^ (e - 52) - k| ≤ 1 / 2 := by
        rcases hk with h | h
        · exact h.le
        · exact h.1
      rw [abs_le] at this
      linarith [this.1]
    have k2 : r ≤ v + 2 ^ (e - 52) * (1 / 2) := by
      rw [← hr]
      refine (mul_le_mul_of_nonneg_left k1 hq.le).trans (le_of_eq ?_)
      rw [mul_add, mul_div_cancel₀ _ hq.ne']
    have k3 : (2 : ℝ) ^ (e + 1) * 2 ≤ 2 ^ (1024 : ℤ) := by
      rw [← zpow_add_one₀ (by norm_num)]
      exact zpow_le_zpow_right₀ (by norm_num) (by omega)
    generalize (2 : ℝ) ^ (1024 : ℤ) = B at k3 ⊢
    linarith
  change roundBinary 53 (-1022) 1023 (v : EReal) = _
  rw [roundBinary_coe, hb]
  have e1 : (2 : ℝ) ^ ((1023 : ℤ) + 1) = 2 ^ (1024 : ℤ) := rfl
  rw [e1]
  have hpos : (0 : ℝ) < 2 ^ (1024 : ℤ) := by positivity
  generalize (2 : ℝ) ^ (1024 : ℤ) = B at hlt hpos ⊢
  rw [if_neg (not_le.mpr hlt), if_neg (by linarith)]

/-- The value stands for the real number `v`. -/
def Is {fmt : FloatFormat} (x : Fl fmt) (v : ℝ) : Prop := x.isFinite ∧ real x = v

section
variable {fmt : FloatFormat} {x y : Fl fmt} {v w r : ℝ}

theorem Is.zero : Is (0 : Fl fmt) 0 := real_zero
theorem Is.one : Is (1 : Fl fmt) 1 := real_one
theorem Is.num (v : ℝ) : Is (num (v : EReal) : Fl fmt) v := real_num v

theorem Is.add (hx : Is x v) (hy : Is y w) (h : fmt.rnd ((v + w : ℝ) : EReal) = (r : EReal)) :
    Is (x + y) r := by
  have hn : ¬ (x + y).isNaN := by
    rw [isNaN_add]
    rintro (h | h | ⟨h, -⟩ | ⟨h, -⟩)
    · exact hx.1.1 h
    · exact hy.1.1 h
    · exact hx.1.2.1 h
    · exact hx.1.2.2 h
  exact finite_of_val hn (by
    rw [val_add hn, val_real hx.1, val_real hy.1, ← EReal.coe_add, hx.2, hy.2, h])

theorem Is.sub (hx : Is x v) (hy : Is y w) (h : fmt.rnd ((v - w : ℝ) : EReal) = (r : EReal)) :
    Is (x - y) r := by
  have hn : ¬ (x - y).isNaN := by
    rw [isNaN_sub]
    rintro (h | h | ⟨h, -⟩ | ⟨h, -⟩)
    · exact hx.1.1 h
    · exact hy.1.1 h
    · exact hx.1.2.1 h
    · exact hx.1.2.2 h
  exact finite_of_val hn (by
    rw [val_sub hn, val_real hx.1, val_real hy.1, ← EReal.coe_sub, hx.2, hy.2, h])

theorem Is.mul (hx : Is x v) (hy : Is y w) (h : fmt.rnd ((v * w : ℝ) : EReal) = (r : EReal)) :
    Is (x * y) r := by
  have hn : ¬ (x * y).isNaN := by
    rw [isNaN_mul]
    rintro (h | h | ⟨-, h | h⟩ | ⟨h | h, -⟩)
    · exact hx.1.1 h
    · exact hy.1.1 h
    · exact hy.1.2.1 h
    · exact hy.1.2.2 h
    · exact hx.1.2.1 h
    · exact hx.1.2.2 h
  exact finite_of_val hn (by
    rw [val_mul hn, val_real hx.1, val_real hy.1, ← EReal.coe_mul, hx.2, hy.2, h])

theorem Is.div (hx : Is x v) (hy : Is y w) (h0 : w ≠ 0)
    (h : fmt.rnd ((v / w : ℝ) : EReal) = (r : EReal)) : Is (x / y) r := by
  have hy0 : y.val ≠ 0 := by
    rw [val_real hy.1, hy.2]; exact_mod_cast h0
  have hn : ¬ (x / y).isNaN := by
    rw [isNaN_div]
    rintro (h | h | ⟨-, h⟩ | ⟨h | h, -⟩)
    · exact hx.1.1 h
    · exact hy.1.1 h
    · exact hy0 h
    · exact hx.1.2.1 h
    · exact hx.1.2.2 h
  exact finite_of_val hn (by
    rw [val_div hn hy0, val_real hx.1, val_real hy.1, ← EReal.coe_div, hx.2, hy.2, h])

theorem Is.sqrt (hx : Is x v) (h0 : 0 ≤ v) (h : fmt.rnd ((√v : ℝ) : EReal) = (r : EReal)) :
    Is (Scalar.sqrt x) r := by
  have hn : ¬ (Scalar.sqrt x).isNaN := by
    rw [isNaN_sqrt]
    rintro (h | h)
    · exact hx.1.1 h
    · rw [val_real hx.1, hx.2] at h
      exact absurd (by exact_mod_cast h) (not_lt.mpr h0)
  refine finite_of_val hn ?_
  rw [val_sqrt hn, val_real hx.1, hx.2]
  unfold esqrt
  rw [if_neg (EReal.coe_ne_top _), EReal.toReal_coe, h]

theorem Is.gt (hx : Is x v) (hy : Is y w) (h : w < v) : Scalar.gt x y = true := by
  rw [gt_iff, val_real hx.1, val_real hy.1, hx.2, hy.2]
  exact ⟨hx.1.1, hy.1.1, by exact_mod_cast h⟩

theorem Is.not_gt (hx : Is x v) (hy : Is y w) (h : v ≤ w) : Scalar.gt x y = false := by
  rw [← Bool.not_eq_true, gt_iff, val_real hx.1, val_real hy.1, hx.2, hy.2]
  rintro ⟨-, -, h'⟩
  exact absurd (by exact_mod_cast h') (not_lt.mpr h)

end

theorem eq_num {fmt : FloatFormat} {x : Fl fmt} {v : EReal} (h : ¬ x.isNaN) (hv : x.val = v) (h0 : v ≠ 0) :
    x = num v := by
  cases x with
  | nan s => exact absurd trivial h
  | negZero => exact absurd hv.symm h0
  | num w => exact congrArg num hv

theorem sqrt_one_fl {fmt : FloatFormat} : Scalar.sqrt (1 : Fl fmt) = 1 := by
  have h : ¬ (Scalar.sqrt (1 : Fl fmt)).isNaN := by
    rw [isNaN_sqrt]
    rintro (h | h)
    · exact h
    · exact absurd h (not_lt.mpr (zero_le_one (α := EReal)))
  refine eq_num h ?_ one_ne_zero
  rw [val_sqrt h]
  have : esqrt ((1 : Fl fmt).val) = 1 := by
    change esqrt 1 = 1
    unfold esqrt
    rw [if_neg (by exact EReal.coe_ne_top 1), EReal.toReal_one, Real.sqrt_one]
    rfl
  rw [this, fmt.rnd_one]

end GLM
