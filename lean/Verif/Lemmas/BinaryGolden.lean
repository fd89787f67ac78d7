/-
  The golden-section sequence `x, rnd(x * g), rnd(rnd(x * g) * g), …` in a binary format: it shrinks
  by an eighth per step until it reaches the least positive number of the format, where it stays.
-/
import Verif.Lemmas.Binary

namespace GLM

variable {p : ℕ} {emin emax : ℤ}

/-- The least positive number of the format. -/
noncomputable def least (p : ℕ) (emin : ℤ) : ℝ := 2 ^ (emin - (p - 1 : ℤ))

theorem least_pos : 0 < least p emin := by unfold least; positivity

theorem least_le_ulp (v : ℝ) : ∃ d : ℕ, ulp p emin v = least p emin * 2 ^ d := by
  obtain ⟨d, hd⟩ := Int.le.dest (le_max_right (Int.log 2 |v|) emin)
  refine ⟨d, ?_⟩
  unfold ulp least
  rw [← hd, ← zpow_natCast, ← zpow_add₀ (by norm_num)]
  congr 1; ring

/-- Every number of the format is a multiple of the least positive one. -/
theorem roundBits_multiple (v : ℝ) : ∃ k : ℤ, roundBits p emin v = least p emin * k := by
  obtain ⟨d, hd⟩ := least_le_ulp (p := p) (emin := emin) v
  refine ⟨2 ^ d * roundEven (v / ulp p emin v), ?_⟩
  unfold roundBits
  rw [hd]; push_cast; ring

/-- The error of rounding is at most half a unit in the last place. -/
theorem roundBits_near (v : ℝ) : |roundBits p emin v - v| ≤ ulp p emin v / 2 := by
  have hu := ulp_pos (p := p) (emin := emin) v
  have h := roundEven_near (v / ulp p emin v)
  unfold roundBits
  have h1 : ulp p emin v * (roundEven (v / ulp p emin v) : ℝ) - v
      = -(ulp p emin v * (v / ulp p emin v - roundEven (v / ulp p emin v))) := by
    field_simp
    ring
  rw [h1, abs_neg, abs_mul, abs_of_pos hu]
  calc ulp p emin v * |v / ulp p emin v - roundEven (v / ulp p emin v)|
      ≤ ulp p emin v * (1 / 2) := mul_le_mul_of_nonneg_left h hu.le
    _ = _ := by ring

theorem ulp_le {v x : ℝ} (hv : 0 < v) (h : v ≤ x) :
    ulp p emin v ≤ max (x / 2 ^ (p - 1 : ℤ)) (least p emin) := by
  unfold ulp least
  rcases le_total emin (Int.log 2 |v|) with he | he
  · rw [max_eq_left he]
    refine le_max_of_le_left ?_
    rw [zpow_sub₀ (by norm_num)]
    refine div_le_div_of_nonneg_right (le_trans ?_ h) (by positivity)
    have := Int.zpow_log_le_self (b := 2) (by norm_num) (abs_pos.mpr hv.ne')
    rw [abs_of_pos hv] at this ⊢
    exact_mod_cast this
  · rw [max_eq_right he]
    exact le_max_right _ _

/-- The golden-section constant of the line search, before rounding. -/
noncomputable def golden : ℝ := 618033988749894 / 10 ^ 15

theorem golden_bounds : 1 / 2 < golden ∧ golden < 5 / 8 := by unfold golden; constructor <;> norm_num

theorem pow_bits (hp : 4 ≤ p) : (8 : ℝ) ≤ 2 ^ (p - 1 : ℤ) := by
  have h : (3 : ℤ) ≤ (p : ℤ) - 1 := by omega
  calc (8 : ℝ) = 2 ^ (3 : ℤ) := by norm_num
    _ ≤ _ := zpow_le_zpow_right₀ (by norm_num) h

theorem roundBits_sixteenth (hp : 4 ≤ p) (he : emin ≤ -1) {j : ℤ} (h1 : 8 ≤ j) (h2 : j < 16) :
    roundBits p emin ((j : ℝ) / 16) = (j : ℝ) / 16 := by
  have h1' : (8 : ℝ) ≤ j := by exact_mod_cast h1
  have h2' : (j : ℝ) < 16 := by exact_mod_cast h2
  have hlog : Int.log 2 |(j : ℝ) / 16| = -1 := by
    rw [abs_of_pos (by linarith)]
    have hpos : (0 : ℝ) < j / 16 := by linarith
    have a1 := (Int.zpow_le_iff_le_log (b := 2) (by norm_num) hpos (x := -1)).mp (by
      push_cast; rw [zpow_neg_one]; linarith)
    have a2 := (Int.lt_zpow_iff_log_lt (b := 2) (by norm_num) hpos (x := 0)).mp (by
      push_cast; rw [zpow_zero]; linarith)
    omega
  refine roundBits_of_int (j := (2 ^ (p - 4) : ℕ) * j) ?_
  unfold ulp
  rw [hlog, max_eq_left he]
  have : (2 : ℝ) ^ ((-1 : ℤ) - (p - 1 : ℤ)) * ((2 ^ (p - 4) : ℕ) : ℝ) = 1 / 16 := by
    push_cast
    rw [← zpow_natCast, ← zpow_add₀ (by norm_num), Nat.cast_sub hp]
    push_cast
    rw [show ((-1 : ℤ) - ((p : ℤ) - 1) + ((p : ℤ) - 4)) = -4 by ring]
    norm_num
  push_cast at this ⊢
  rw [← mul_assoc, this]
  ring

theorem rounded_golden (hp : 4 ≤ p) (he : emin ≤ -1) :
    9 / 16 ≤ roundBits p emin golden ∧ roundBits p emin golden ≤ 5 / 8 := by
  have h1 := roundBits_sixteenth (p := p) (emin := emin) hp he (j := 9) (by norm_num) (by norm_num)
  have h2 := roundBits_sixteenth (p := p) (emin := emin) hp he (j := 10) (by norm_num) (by norm_num)
  have h3 := roundBits_mono (p := p) (emin := emin) (by omega)
    (show ((9 : ℤ) : ℝ) / 16 ≤ golden by unfold golden; norm_num)
  have h4 := roundBits_mono (p := p) (emin := emin) (by omega)
    (show golden ≤ ((10 : ℤ) : ℝ) / 16 by unfold golden; norm_num)
  rw [h1] at h3
  rw [h2] at h4
  push_cast at h3 h4
  constructor
  · exact h3
  · linarith

/-- One step of the sequence shrinks a number of the format that is not the least one. -/
theorem golden_step (hp : 4 ≤ p) (he : emin ≤ -1) {x : ℝ} (hx : 2 * least p emin ≤ x) :
    roundBits p emin (x * roundBits p emin golden) ≤ 7 / 8 * x := by
  obtain ⟨h1, h2⟩ := rounded_golden hp he
  have hl := least_pos (p := p) (emin := emin)
  have hx0 : 0 < x := by linarith
  set g := roundBits p emin golden with hg
  have hg0 : 0 < g := by linarith
  have hn := roundBits_near (p := p) (emin := emin) (x * g)
  have hu := ulp_le (p := p) (emin := emin) (v := x * g) (x := x) (by positivity) (by nlinarith)
  have hu2 : ulp p emin (x * g) ≤ x / 2 := by
    refine hu.trans (max_le ?_ (by linarith))
    have := pow_bits hp
    rw [div_le_iff₀ (by positivity)]
    nlinarith
  have := (abs_le.mp hn).2
  nlinarith

/-- The least positive number of the format stays where it is. -/
theorem golden_stays (hp : 4 ≤ p) (he : emin ≤ -1) :
    roundBits p emin (least p emin * roundBits p emin golden) = least p emin := by
  obtain ⟨h1, h2⟩ := rounded_golden hp he
  have hl := least_pos (p := p) (emin := emin)
  set g := roundBits p emin golden with hg
  have hg0 : 0 < g := by linarith
  have hu : ulp p emin (least p emin * g) = least p emin := by
    have hlog : Int.log 2 |least p emin * g| ≤ emin := by
      have hpos : 0 < least p emin * g := by positivity
      rw [abs_of_pos hpos]
      have hlt : least p emin * g < (2 : ℝ) ^ emin := by
        have h3 : least p emin ≤ 2 ^ emin :=
          zpow_le_zpow_right₀ (by norm_num) (by omega)
        nlinarith
      exact ((Int.lt_zpow_iff_log_lt (b := 2) (by norm_num) hpos (x := emin)).mp
        (by exact_mod_cast hlt)).le
    unfold ulp
    rw [max_eq_right hlog]
    rfl
  have hr : roundEven g = 1 := by
    have hfl : ⌊g⌋ = 0 := by rw [Int.floor_eq_iff]; push_cast; constructor <;> linarith
    rw [roundEven_above (by rw [hfl]; push_cast; linarith), hfl]; norm_num
  unfold roundBits
  rw [hu, mul_div_cancel_left₀ _ hl.ne', hr]
  simp

/-- Above the least positive number of the format, the next number is twice as large. -/
theorem two_least_le {x : ℝ} (hx : roundBits p emin x = x) (h : least p emin < x) :
    2 * least p emin ≤ x := by
  obtain ⟨k, hk⟩ := roundBits_multiple (p := p) (emin := emin) x
  have hl := least_pos (p := p) (emin := emin)
  rw [hx] at hk
  rw [hk] at h ⊢
  have h1 : (1 : ℝ) < k := by nlinarith
  have h2 : (2 : ℤ) ≤ k := by
    have : (1 : ℤ) < k := by exact_mod_cast h1
    omega
  have h3 : (2 : ℝ) ≤ k := by exact_mod_cast h2
  nlinarith

theorem roundBits_least (hp : 1 ≤ p) : roundBits p emin (least p emin) = least p emin := by
  refine roundBits_of_int (j := 1) ?_
  have hlog : Int.log 2 |least p emin| ≤ emin := by
    unfold least
    rw [abs_of_pos (by positivity)]
    have := Int.log_zpow (R := ℝ) (b := 2) (by norm_num) (emin - (p - 1 : ℤ))
    push_cast at this
    rw [this]; omega
  unfold ulp
  rw [max_eq_right hlog]
  unfold least
  push_cast; ring

end GLM
