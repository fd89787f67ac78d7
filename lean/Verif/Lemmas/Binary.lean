/-
  The binary formats, with library functions that are rounded correctly, are floating-point formats
  in the sense of `FloatFormat`.
-/
import Verif.Lemmas.Ieee
import Mathlib.Algebra.Order.Floor.Ring
import Mathlib.Analysis.SpecialFunctions.Log.Basic

namespace GLM

/-! ### Rounding to an integer -/

theorem roundEven_intCast (k : ℤ) : roundEven (k : ℝ) = k := by
  unfold roundEven
  rw [Int.floor_intCast]
  simp

theorem roundEven_ge_floor (x : ℝ) : ⌊x⌋ ≤ roundEven x := by
  unfold roundEven
  split
  · exact le_rfl
  · split
    · omega
    · split <;> omega

theorem roundEven_le_floor (x : ℝ) : roundEven x ≤ ⌊x⌋ + 1 := by
  unfold roundEven
  split
  · omega
  · split
    · omega
    · split <;> omega

theorem roundEven_below {x : ℝ} (h : x - ⌊x⌋ < 1 / 2) : roundEven x = ⌊x⌋ := by
  unfold roundEven; rw [if_pos h]

theorem roundEven_above {x : ℝ} (h : 1 / 2 < x - ⌊x⌋) : roundEven x = ⌊x⌋ + 1 := by
  unfold roundEven; rw [if_neg (by linarith), if_pos h]

theorem roundEven_tie {x : ℝ} (h : x - ⌊x⌋ = 1 / 2) :
    roundEven x = if Even ⌊x⌋ then ⌊x⌋ else ⌊x⌋ + 1 := by
  unfold roundEven; rw [if_neg (by linarith), if_neg (by linarith)]

theorem roundEven_mono : Monotone roundEven := by
  intro x y h
  have hxu := roundEven_le_floor x
  have hyl := roundEven_ge_floor y
  rcases lt_or_eq_of_le (Int.floor_le_floor h) with hf | hf
  · omega
  · have hf' : (⌊x⌋ : ℝ) = ⌊y⌋ := by rw [hf]
    rcases lt_trichotomy (x - ⌊x⌋) (1 / 2) with h1 | h1 | h1
    · rw [roundEven_below h1]; omega
    · rcases lt_trichotomy (y - ⌊y⌋) (1 / 2) with h2 | h2 | h2
      · linarith
      · rw [roundEven_tie h1, roundEven_tie h2, hf]
      · rw [roundEven_above h2]; omega
    · rw [roundEven_above (x := y) (by linarith)]; omega

theorem roundEven_neg (x : ℝ) : roundEven (-x) = -roundEven x := by
  by_cases hx : (⌊x⌋ : ℝ) = x
  · rw [← hx, ← Int.cast_neg, roundEven_intCast, roundEven_intCast]
  · have hlt : (⌊x⌋ : ℝ) < x := lt_of_le_of_ne (Int.floor_le x) hx
    have hfl : ⌊-x⌋ = -⌊x⌋ - 1 := by
      rw [Int.floor_eq_iff]
      push_cast
      constructor
      · linarith [Int.lt_floor_add_one x]
      · linarith
    have hfr : -x - ⌊-x⌋ = 1 - (x - ⌊x⌋) := by rw [hfl]; push_cast; ring
    rcases lt_trichotomy (x - ⌊x⌋) (1 / 2) with h | h | h
    · rw [roundEven_above (x := -x) (by linarith), roundEven_below h, hfl]; ring
    · rw [roundEven_tie (x := -x) (by linarith), roundEven_tie h, hfl]
      by_cases he : Even ⌊x⌋
      · rw [if_neg (by rw [Int.even_sub_one, even_neg]; tauto), if_pos he]; ring
      · rw [if_pos (by rw [Int.even_sub_one, even_neg]; tauto), if_neg he]; ring
    · rw [roundEven_below (x := -x) (by linarith), roundEven_above h, hfl]; ring

theorem roundEven_near (x : ℝ) : |x - roundEven x| ≤ 1 / 2 := by
  have h1 := Int.floor_le x
  have h2 := Int.lt_floor_add_one x
  rw [abs_le]
  unfold roundEven
  split
  · constructor <;> linarith
  · split
    · push_cast; constructor <;> linarith
    · split
      · constructor <;> linarith
      · push_cast; constructor <;> linarith

/-! ### Rounding to a number of bits -/

variable {p : ℕ} {emin emax : ℤ}

theorem ulp_pos (v : ℝ) : 0 < ulp p emin v := by unfold ulp; positivity

theorem ulp_neg (v : ℝ) : ulp p emin (-v) = ulp p emin v := by unfold ulp; rw [abs_neg]

theorem roundBits_neg (v : ℝ) : roundBits p emin (-v) = -roundBits p emin v := by
  unfold roundBits
  rw [ulp_neg, neg_div, roundEven_neg]
  push_cast; ring

theorem roundBits_zero : roundBits p emin 0 = 0 := by
  unfold roundBits
  rw [zero_div]
  have := roundEven_intCast 0
  rw [Int.cast_zero] at this
  rw [this]; simp

theorem roundBits_of_int {v : ℝ} {j : ℤ} (h : v = ulp p emin v * j) : roundBits p emin v = v := by
  have hq := (ulp_pos (p := p) (emin := emin) v).ne'
  unfold roundBits
  have : v / ulp p emin v = j := by
    rw [div_eq_iff hq, mul_comm]; exact h
  rw [this, roundEven_intCast]
  exact h.symm

theorem roundBits_nonneg {v : ℝ} (h : 0 ≤ v) : 0 ≤ roundBits p emin v := by
  have hq := ulp_pos (p := p) (emin := emin) v
  unfold roundBits
  refine mul_nonneg hq.le ?_
  have := roundEven_mono (div_nonneg h hq.le)
  have h0 := roundEven_intCast 0
  rw [Int.cast_zero] at h0
  rw [h0] at this
  exact_mod_cast this

/-- The exponent under which `v` is rounded. -/
theorem lt_exponent (v : ℝ) : |v| < (2 : ℝ) ^ (max (Int.log 2 |v|) emin + 1) := by
  have h := Int.lt_zpow_succ_log_self (b := 2) (by norm_num) |v|
  refine lt_of_lt_of_le h ?_
  push_cast
  exact zpow_le_zpow_right₀ (by norm_num) (by gcongr; exact le_max_left _ _)

theorem roundBits_le_exponent (v : ℝ) :
    roundBits p emin v ≤ (2 : ℝ) ^ (max (Int.log 2 |v|) emin + 1) := by
  have hq := ulp_pos (p := p) (emin := emin) v
  have hk : roundEven (v / ulp p emin v) ≤ (2 ^ p : ℕ) := by
    have h1 : v / ulp p emin v ≤ ((2 ^ p : ℕ) : ℤ) := by
      rw [div_le_iff₀ hq]
      refine (le_abs_self v).trans ((lt_exponent (emin := emin) v).le.trans (le_of_eq ?_))
      unfold ulp
      push_cast
      rw [← zpow_natCast, ← zpow_add₀ (by norm_num)]
      congr 1; ring
    have := roundEven_mono h1
    rwa [roundEven_intCast] at this
  unfold roundBits
  calc ulp p emin v * (roundEven (v / ulp p emin v) : ℝ)
      ≤ ulp p emin v * ((2 ^ p : ℕ) : ℝ) := by
        refine mul_le_mul_of_nonneg_left ?_ hq.le
        exact_mod_cast hk
    _ = _ := by
        unfold ulp
        push_cast
        rw [← zpow_natCast, ← zpow_add₀ (by norm_num)]
        congr 1; ring

theorem exponent_le_roundBits (hp : 1 ≤ p) {v : ℝ} (hv : 0 < v) (he : emin ≤ Int.log 2 |v|) :
    (2 : ℝ) ^ (Int.log 2 |v|) ≤ roundBits p emin v := by
  have hq := ulp_pos (p := p) (emin := emin) v
  have hk : ((2 ^ (p - 1) : ℕ) : ℤ) ≤ roundEven (v / ulp p emin v) := by
    have h1 : (((2 ^ (p - 1) : ℕ) : ℤ) : ℝ) ≤ v / ulp p emin v := by
      rw [le_div_iff₀ hq]
      have h2 := Int.zpow_log_le_self (b := 2) (by norm_num) (abs_pos.mpr hv.ne')
      rw [abs_of_pos hv] at h2 he
      refine le_trans (le_of_eq ?_) h2
      unfold ulp
      rw [abs_of_pos hv, max_eq_left he]
      push_cast
      rw [← zpow_natCast, ← zpow_add₀ (by norm_num)]
      congr 1
      rw [Nat.cast_sub hp]; push_cast; ring
    have := roundEven_mono h1
    rwa [roundEven_intCast] at this
  unfold roundBits
  calc (2 : ℝ) ^ (Int.log 2 |v|) = ulp p emin v * ((2 ^ (p - 1) : ℕ) : ℝ) := by
        unfold ulp
        rw [max_eq_left he]
        push_cast
        rw [← zpow_natCast, ← zpow_add₀ (by norm_num)]
        congr 1
        rw [Nat.cast_sub hp]; push_cast; ring
    _ ≤ _ := by
        refine mul_le_mul_of_nonneg_left ?_ hq.le
        exact_mod_cast hk

theorem roundBits_mono_nonneg (hp : 1 ≤ p) {v w : ℝ} (hv : 0 ≤ v) (h : v ≤ w) :
    roundBits p emin v ≤ roundBits p emin w := by
  rcases hv.eq_or_lt with rfl | hv
  · rw [roundBits_zero]; exact roundBits_nonneg h
  have hw : 0 < w := hv.trans_le h
  have hlog : Int.log 2 |v| ≤ Int.log 2 |w| := by
    rw [abs_of_pos hv, abs_of_pos hw]
    exact Int.log_mono_right hv h
  rcases (max_le_max_right emin hlog).eq_or_lt with he | he
  · have hu : ulp p emin v = ulp p emin w := by unfold ulp; rw [he]
    have hq := ulp_pos (p := p) (emin := emin) w
    unfold roundBits
    rw [hu]
    refine mul_le_mul_of_nonneg_left ?_ hq.le
    exact_mod_cast roundEven_mono (div_le_div_of_nonneg_right h hq.le)
  · have hw' : emin ≤ Int.log 2 |w| := by
      by_contra hc
      rw [max_eq_right (not_le.mp hc).le] at he
      exact absurd he (not_lt.mpr (le_max_right _ _))
    refine (roundBits_le_exponent v).trans (le_trans ?_ (exponent_le_roundBits hp hw hw'))
    refine zpow_le_zpow_right₀ (by norm_num) ?_
    rw [max_eq_left hw'] at he
    omega

theorem roundBits_mono (hp : 1 ≤ p) : Monotone (roundBits p emin) := by
  intro v w h
  rcases le_total 0 v with hv | hv
  · exact roundBits_mono_nonneg hp hv h
  · rcases le_total 0 w with hw | hw
    · have h1 : 0 ≤ roundBits p emin (-v) := roundBits_nonneg (by linarith)
      rw [roundBits_neg] at h1
      linarith [roundBits_nonneg (p := p) (emin := emin) hw]
    · have := roundBits_mono_nonneg (p := p) (emin := emin) hp (neg_nonneg.mpr hw)
        (neg_le_neg h)
      rw [roundBits_neg, roundBits_neg] at this
      linarith

theorem roundBits_idem_nonneg (hp : 1 ≤ p) {v : ℝ} (hv : 0 ≤ v) :
    roundBits p emin (roundBits p emin v) = roundBits p emin v := by
  rcases (roundBits_nonneg (p := p) (emin := emin) hv).eq_or_lt with h0 | hpos
  · rw [← h0, roundBits_zero]
  set r := roundBits p emin v with hr
  set e := max (Int.log 2 |v|) emin with he
  have hle : r ≤ (2 : ℝ) ^ (e + 1) := roundBits_le_exponent v
  rcases hle.eq_or_lt with heq | hlt
  · have hlog : Int.log 2 |r| = e + 1 := by
      rw [heq, abs_of_pos (by positivity)]
      exact_mod_cast Int.log_zpow (R := ℝ) (b := 2) (by norm_num) (e + 1)
    refine roundBits_of_int (j := (2 ^ (p - 1) : ℕ)) ?_
    unfold ulp
    rw [hlog, max_eq_left (by have := le_max_right (Int.log 2 |v|) emin; omega), heq]
    push_cast
    rw [← zpow_natCast, ← zpow_add₀ (by norm_num)]
    congr 1
    rw [Nat.cast_sub hp]; push_cast; ring
  · have hlog : Int.log 2 |r| ≤ e := by
      rw [abs_of_pos hpos]
      have := (Int.lt_zpow_iff_log_lt (b := 2) (by norm_num) hpos (x := e + 1)).mp
        (by exact_mod_cast hlt)
      omega
    have hm : max (Int.log 2 |r|) emin ≤ e := max_le hlog (le_max_right _ _)
    obtain ⟨d, hd⟩ := Int.le.dest hm
    refine roundBits_of_int (j := (2 ^ d : ℕ) * roundEven (v / ulp p emin v)) ?_
    conv_lhs => rw [hr]; unfold roundBits
    push_cast
    rw [← mul_assoc]
    congr 1
    unfold ulp
    rw [← he, ← hd, ← zpow_natCast, ← zpow_add₀ (by norm_num)]
    congr 1; ring

theorem roundBits_idem (hp : 1 ≤ p) (v : ℝ) :
    roundBits p emin (roundBits p emin v) = roundBits p emin v := by
  rcases le_total 0 v with hv | hv
  · exact roundBits_idem_nonneg hp hv
  · have := roundBits_idem_nonneg (p := p) (emin := emin) hp (neg_nonneg.mpr hv)
    rw [roundBits_neg, roundBits_neg] at this
    linarith

theorem roundBits_one (hp : 1 ≤ p) (h : emin ≤ 0) : roundBits p emin 1 = 1 := by
  refine roundBits_of_int (j := (2 ^ (p - 1) : ℕ)) ?_
  unfold ulp
  rw [abs_one, Int.log_one_right, max_eq_left h]
  push_cast
  rw [← zpow_natCast, ← zpow_add₀ (by norm_num), Nat.cast_sub hp]
  push_cast
  rw [show (0 - ((p : ℤ) - 1) + ((p : ℤ) - 1)) = 0 by ring, zpow_zero]

/-- Powers of two from the least normal number are representable. -/
theorem roundBits_zpow (hp : 1 ≤ p) {e : ℤ} (h : emin ≤ e) :
    roundBits p emin ((2 : ℝ) ^ e) = 2 ^ e := by
  refine roundBits_of_int (j := (2 ^ (p - 1) : ℕ)) ?_
  have hlog : Int.log 2 |(2 : ℝ) ^ e| = e := by
    rw [abs_of_pos (by positivity)]
    exact_mod_cast Int.log_zpow (R := ℝ) (b := 2) (by norm_num) e
  unfold ulp
  rw [hlog, max_eq_left h]
  push_cast
  rw [← zpow_natCast, ← zpow_add₀ (by norm_num), Nat.cast_sub hp]
  push_cast
  congr 1; ring

/-! ### Rounding with overflow -/

theorem roundBinary_top : roundBinary p emin emax ⊤ = ⊤ := rfl
theorem roundBinary_bot : roundBinary p emin emax ⊥ = ⊥ := rfl
theorem roundBinary_coe (v : ℝ) : roundBinary p emin emax (v : EReal) =
    if (2 : ℝ) ^ (emax + 1) ≤ roundBits p emin v then (⊤ : EReal)
    else if roundBits p emin v ≤ -(2 : ℝ) ^ (emax + 1) then ⊥
    else (roundBits p emin v : ℝ) := rfl

theorem roundBinary_mono (hp : 1 ≤ p) : Monotone (roundBinary p emin emax) := by
  intro v w h
  induction v with
  | bot => rw [roundBinary_bot]; exact bot_le
  | top => rw [top_le_iff.mp h]
  | coe v =>
    induction w with
    | bot => exact absurd h (by simp)
    | top => rw [roundBinary_top]; exact le_top
    | coe w =>
      have hr := roundBits_mono (p := p) (emin := emin) hp (EReal.coe_le_coe_iff.mp h)
      rw [roundBinary_coe, roundBinary_coe]
      split
      · rw [if_pos (by linarith)]
      · split
        · exact bot_le
        · split
          · exact le_top
          · rw [if_neg (by linarith)]
            exact EReal.coe_le_coe_iff.mpr hr

theorem roundBinary_idem (hp : 1 ≤ p) (v : EReal) :
    roundBinary p emin emax (roundBinary p emin emax v) = roundBinary p emin emax v := by
  induction v with
  | bot => rfl
  | top => rfl
  | coe v =>
    rw [roundBinary_coe]
    split
    · rfl
    · split
      · rfl
      · rw [roundBinary_coe, roundBits_idem hp, if_neg ‹_›, if_neg ‹_›]

theorem roundBinary_neg (v : EReal) :
    roundBinary p emin emax (-v) = -roundBinary p emin emax v := by
  have hpos : (0 : ℝ) < 2 ^ (emax + 1) := by positivity
  induction v with
  | bot => rfl
  | top => rfl
  | coe v =>
    rw [← EReal.coe_neg, roundBinary_coe, roundBinary_coe, roundBits_neg]
    by_cases h1 : (2 : ℝ) ^ (emax + 1) ≤ roundBits p emin v
    · rw [if_neg (by linarith), if_pos (by linarith), if_pos h1]; rfl
    · by_cases h2 : roundBits p emin v ≤ -(2 : ℝ) ^ (emax + 1)
      · rw [if_pos (by linarith), if_neg h1, if_pos h2]; rfl
      · rw [if_neg (by linarith), if_neg (by linarith), if_neg h1, if_neg h2]; rfl

theorem roundBinary_one (hp : 1 ≤ p) (h : emin ≤ 0) (h' : 0 ≤ emax) :
    roundBinary p emin emax 1 = 1 := by
  have hgt : (1 : ℝ) < 2 ^ (emax + 1) := one_lt_zpow₀ (by norm_num) (by omega)
  rw [← EReal.coe_one, roundBinary_coe, roundBits_one hp h, if_neg (by linarith),
    if_neg (by linarith)]

/-! ### The formats -/

theorem eexp_coe (v : ℝ) : eexp (v : EReal) = (Real.exp v : ℝ) := rfl
theorem eexpm1_coe (v : ℝ) : eexpm1 (v : EReal) = (Real.exp v - 1 : ℝ) := rfl
theorem eln_coe (v : ℝ) : eln (v : EReal) = if v ≤ 0 then (⊥ : EReal) else (Real.log v : ℝ) := rfl
theorem eln1p_coe (v : ℝ) :
    eln1p (v : EReal) = if v ≤ -1 then (⊥ : EReal) else (Real.log (1 + v) : ℝ) := rfl

theorem eexp_nonneg (v : EReal) : 0 ≤ eexp v := by
  induction v with
  | bot => exact le_rfl
  | top => exact le_top
  | coe v => rw [eexp_coe]; exact EReal.coe_nonneg.mpr (Real.exp_pos v).le

theorem eexp_le_one {v : EReal} (h : v ≤ 0) : eexp v ≤ 1 := by
  induction v with
  | bot => exact zero_le_one
  | top => simp at h
  | coe v =>
    have h' : v ≤ 0 := by exact_mod_cast h
    rw [eexp_coe]
    exact_mod_cast Real.exp_le_one_iff.mpr h'

theorem one_le_eexp {v : EReal} (h : 0 ≤ v) : 1 ≤ eexp v := by
  induction v with
  | bot => simp at h
  | top => exact le_top
  | coe v =>
    have h' : 0 ≤ v := by exact_mod_cast h
    rw [eexp_coe]
    exact_mod_cast Real.one_le_exp h'

theorem eexp_mono : Monotone eexp := by
  intro v w h
  induction v with
  | bot => exact eexp_nonneg w
  | top => rw [top_le_iff.mp h]
  | coe v =>
    induction w with
    | bot => simp at h
    | top => exact le_top
    | coe w =>
      rw [eexp_coe, eexp_coe]
      exact_mod_cast Real.exp_le_exp.mpr (EReal.coe_le_coe_iff.mp h)

theorem eexpm1_mono : Monotone eexpm1 := by
  intro v w h
  induction v with
  | bot =>
    induction w with
    | bot => exact le_rfl
    | top => exact le_top
    | coe w =>
      rw [eexpm1_coe]
      change (-1 : EReal) ≤ _
      have : (-1 : ℝ) ≤ Real.exp w - 1 := by linarith [Real.exp_pos w]
      have h2 := EReal.coe_le_coe_iff.mpr this
      rwa [EReal.coe_neg, EReal.coe_one] at h2
  | top => rw [top_le_iff.mp h]
  | coe v =>
    induction w with
    | bot => simp at h
    | top => exact le_top
    | coe w =>
      rw [eexpm1_coe, eexpm1_coe]
      exact_mod_cast sub_le_sub_right (Real.exp_le_exp.mpr (EReal.coe_le_coe_iff.mp h)) 1

theorem eexpm1_zero : eexpm1 0 = 0 := by
  rw [← EReal.coe_zero, eexpm1_coe]; simp

theorem neg_one_le_eexpm1 (v : EReal) : -1 ≤ eexpm1 v :=
  (eexpm1_mono (bot_le : ⊥ ≤ v))

theorem eln_nonneg {v : EReal} (h : 1 ≤ v) : 0 ≤ eln v := by
  induction v with
  | bot => exact absurd h (by decide)
  | top => exact le_top
  | coe v =>
    have h' : 1 ≤ v := by exact_mod_cast h
    rw [eln_coe, if_neg (by linarith)]
    exact_mod_cast Real.log_nonneg h'

theorem eln_nonpos {v : EReal} (h : v ≤ 1) : eln v ≤ 0 := by
  induction v with
  | bot => exact bot_le
  | top => exact absurd h (by decide)
  | coe v =>
    have h' : v ≤ 1 := by exact_mod_cast h
    rw [eln_coe]
    split
    · exact bot_le
    · exact_mod_cast Real.log_nonpos (by linarith) h'

theorem eln1p_nonneg {v : EReal} (h : 0 ≤ v) : 0 ≤ eln1p v := by
  induction v with
  | bot => simp at h
  | top => exact le_top
  | coe v =>
    have h' : 0 ≤ v := by exact_mod_cast h
    rw [eln1p_coe, if_neg (by linarith)]
    exact_mod_cast Real.log_nonneg (by linarith)

theorem eln1p_nonpos {v : EReal} (h : v ≤ 0) : eln1p v ≤ 0 := by
  induction v with
  | bot => exact bot_le
  | top => simp at h
  | coe v =>
    have h' : v ≤ 0 := by exact_mod_cast h
    rw [eln1p_coe]
    split
    · exact bot_le
    · exact_mod_cast Real.log_nonpos (by linarith) (by linarith)

theorem eln1p_le {v : EReal} (h : 0 ≤ v) : eln1p v ≤ v := by
  induction v with
  | bot => simp at h
  | top => exact le_top
  | coe v =>
    have h' : 0 ≤ v := by exact_mod_cast h
    rw [eln1p_coe, if_neg (by linarith)]
    have := Real.log_le_sub_one_of_pos (show 0 < 1 + v by linarith)
    exact_mod_cast (show Real.log (1 + v) ≤ v by linarith)

/-- The binary format with `p` bits of precision and exponents from `emin` to `emax`, rounding to
nearest with ties to even, with correctly rounded library functions. -/
noncomputable def binary (p : ℕ) (emin emax : ℤ) (hp : 1 ≤ p) (hmin : emin ≤ 0) (hmax : 0 ≤ emax)
    (nanNeg : Bool) (order : SumSite → (n : ℕ) → SumOrder n) : FloatFormat :=
  have mono := roundBinary_mono (p := p) (emin := emin) (emax := emax) hp
  have one : roundBinary p emin emax 1 = 1 := roundBinary_one hp hmin hmax
  have neg := roundBinary_neg (p := p) (emin := emin) (emax := emax)
  have zero : roundBinary p emin emax 0 = 0 := by
    rw [← EReal.coe_zero, roundBinary_coe, roundBits_zero]
    have hpos : (0 : ℝ) < 2 ^ (emax + 1) := by positivity
    rw [if_neg (by linarith), if_neg (by linarith)]
  { rnd := roundBinary p emin emax
    rnd_mono := mono
    rnd_idem := roundBinary_idem hp
    rnd_neg := neg
    rnd_one := one
    rnd_top := rfl
    exp := fun v => roundBinary p emin emax (eexp v)
    exp_nonneg := fun v => zero ▸ mono (eexp_nonneg v)
    exp_le_one := fun v h => by
      conv_rhs => rw [← one]
      exact mono (eexp_le_one h)
    one_le_exp := fun v h => by
      conv_lhs => rw [← one]
      exact mono (one_le_eexp h)
    exp_top := rfl
    exp_bot := zero
    expm1 := fun v => roundBinary p emin emax (eexpm1 v)
    neg_one_le_expm1 := fun v => by
      have h1 := neg 1
      rw [one] at h1
      rw [← h1]
      exact mono (neg_one_le_eexpm1 v)
    expm1_nonpos := fun v h => by
      conv_rhs => rw [← zero]
      exact mono (eexpm1_zero ▸ eexpm1_mono h)
    expm1_nonneg := fun v h => by
      conv_lhs => rw [← zero]
      exact mono (by conv_lhs => rw [← eexpm1_zero]
                     exact eexpm1_mono h)
    expm1_top := rfl
    ln := fun v => roundBinary p emin emax (eln v)
    ln_nonneg := fun v h => by
      conv_lhs => rw [← zero]
      exact mono (eln_nonneg h)
    ln_nonpos := fun v h => by
      conv_rhs => rw [← zero]
      exact mono (eln_nonpos h)
    ln_zero := by
      rw [← EReal.coe_zero, eln_coe, if_pos le_rfl]; rfl
    ln_top := rfl
    ln1p := fun v => roundBinary p emin emax (eln1p v)
    ln1p_nonneg := fun v h => by
      conv_lhs => rw [← zero]
      exact mono (eln1p_nonneg h)
    ln1p_nonpos := fun v h => by
      conv_rhs => rw [← zero]
      exact mono (eln1p_nonpos h)
    ln1p_le := fun v h => mono (eln1p_le h)
    nanNeg := nanNeg
    order := order }

/-- `f64` on a processor whose invalid operations give a positive not-a-number, with any order of
summation (left to right unless another one is given). -/
noncomputable def binary64
    (order : SumSite → (n : ℕ) → SumOrder n := fun _ => SumOrder.left) : FloatFormat :=
  binary 53 (-1022) 1023 (by norm_num) (by norm_num) (by norm_num) false order

/-- `f32` on a processor whose invalid operations give a positive not-a-number, with any order of
summation (left to right unless another one is given). -/
noncomputable def binary32
    (order : SumSite → (n : ℕ) → SumOrder n := fun _ => SumOrder.left) : FloatFormat :=
  binary 24 (-126) 127 (by norm_num) (by norm_num) (by norm_num) false order

end GLM
