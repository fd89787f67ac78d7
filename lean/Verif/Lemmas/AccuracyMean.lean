/-
  Error bounds of the inverse links.
-/
import Verif.Lemmas.Accuracy
import Verif.Props.Rounding
import Mathlib.Analysis.Calculus.MeanValue
import Mathlib.Analysis.Calculus.Deriv.Inv
import Mathlib.Analysis.SpecialFunctions.ExpDeriv

namespace GLM
open Spec

/-! ### How much the exact means move with the predictor -/

theorem sigmoid_lipschitz (a c : ℝ) :
    |1 / (1 + Real.exp (-a)) - 1 / (1 + Real.exp (-c))| ≤ |a - c| / 4 := by
  have hd : ∀ x : ℝ, HasDerivAt (fun x : ℝ => (1 + Real.exp (-x))⁻¹)
      (Real.exp (-x) / (1 + Real.exp (-x)) ^ 2) x := by
    intro x
    have h1 : HasDerivAt (fun x : ℝ => 1 + Real.exp (-x)) (-Real.exp (-x)) x := by
      have := ((hasDerivAt_neg x).exp).const_add 1
      simpa using this
    have := h1.fun_inv (by positivity)
    rwa [neg_neg] at this
  have hb : ∀ x : ℝ, ‖Real.exp (-x) / (1 + Real.exp (-x)) ^ 2‖ ≤ 1 / 4 := by
    intro x
    rw [Real.norm_eq_abs, abs_of_nonneg (by positivity), div_le_iff₀ (by positivity)]
    nlinarith [sq_nonneg (1 - Real.exp (-x))]
  have := convex_univ.norm_image_sub_le_of_norm_hasDerivWithin_le (𝕜 := ℝ)
    (fun x _ => (hd x).hasDerivWithinAt) (fun x _ => hb x) (Set.mem_univ c) (Set.mem_univ a)
  simp only [Real.norm_eq_abs, ← one_div] at this
  linarith

theorem cloglog_lipschitz (a c : ℝ) :
    |Real.exp (-Real.exp a) - Real.exp (-Real.exp c)| ≤ |a - c| / 2 := by
  have hd : ∀ x : ℝ, HasDerivAt (fun x : ℝ => Real.exp (-Real.exp x))
      (Real.exp (-Real.exp x) * -Real.exp x) x := fun x => ((Real.hasDerivAt_exp x).neg).exp
  have hb : ∀ x : ℝ, ‖Real.exp (-Real.exp x) * -Real.exp x‖ ≤ 1 / 2 := by
    intro x
    rw [Real.norm_eq_abs, mul_neg, abs_neg, abs_of_nonneg (by positivity), Real.exp_neg]
    have h1 := Real.quadratic_le_exp_of_nonneg (Real.exp_pos x).le
    rw [inv_mul_le_iff₀ (Real.exp_pos _)]
    nlinarith [sq_nonneg (Real.exp x - 1)]
  have := convex_univ.norm_image_sub_le_of_norm_hasDerivWithin_le (𝕜 := ℝ)
    (fun x _ => (hd x).hasDerivWithinAt) (fun x _ => hb x) (Set.mem_univ c) (Set.mem_univ a)
  simp only [Real.norm_eq_abs] at this
  linarith

theorem exp_move {w η B : ℝ} (h : |w - η| ≤ B) :
    Real.exp w ≤ Real.exp B * Real.exp η ∧
      |Real.exp w - Real.exp η| ≤ (Real.exp B - 1) * Real.exp η := by
  obtain ⟨h1, h2⟩ := abs_le.mp h
  have e1 : Real.exp w ≤ Real.exp B * Real.exp η := by
    rw [← Real.exp_add]; exact Real.exp_le_exp.mpr (by linarith)
  refine ⟨e1, abs_le.mpr ⟨?_, by linarith⟩⟩
  have e2 : Real.exp η ≤ Real.exp B * Real.exp w := by
    rw [← Real.exp_add]; exact Real.exp_le_exp.mpr (by linarith)
  have hB : 1 ≤ Real.exp B := Real.one_le_exp ((abs_nonneg _).trans h)
  rcases le_total (Real.exp η) (Real.exp w) with h' | h'
  · have : 0 ≤ (Real.exp B - 1) * Real.exp η := mul_nonneg (by linarith) (Real.exp_pos _).le
    linarith
  · have : (Real.exp B - 1) * Real.exp w ≤ (Real.exp B - 1) * Real.exp η :=
      mul_le_mul_of_nonneg_left h' (by linarith)
    linarith

namespace Fl
open Scalar
variable {fmt : FloatFormat} {u tiny big : ℝ} {w : Fl fmt}

/-! ### Logit links -/

theorem exp_cases (acc : Accurate fmt u tiny big) (hw : w.isFinite) :
    ((exp w).isFinite ∧ Near u tiny (Real.exp (real w)) (real (exp w)) ∧ 0 ≤ real (exp w)) ∨
      (¬ (exp w).isNaN ∧ (exp w).val = ⊤ ∧ big ≤ Real.exp (real w)) := by
  have hn : ¬ (exp w).isNaN := by rw [isNaN_exp]; exact hw.1
  have hv : (exp w).val = fmt.exp (real w : EReal) := by rw [val_exp hw.1, val_real hw]
  rcases acc.exp_near (real w) with ⟨r, hr, hnear⟩ | ⟨ht, hb⟩
  · obtain ⟨h1, h2⟩ := finite_of_val hn (hv.trans hr)
    refine Or.inl ⟨h1, h2 ▸ hnear, ?_⟩
    rw [h2]
    have := fmt.exp_nonneg (real w : EReal)
    rw [hr] at this
    exact_mod_cast this
  · exact Or.inr ⟨hn, hv.trans ht, hb⟩

theorem logit_near (acc : Accurate fmt u tiny big) {N : ℕ} (hN : 1 ≤ N)
    (hr : fmt.rnd (N : ℝ) = (N : ℝ)) (hw : w.isFinite) :
    ((linkBinLogit N).funcInv w : Fl fmt).isFinite ∧
      |real ((linkBinLogit N).funcInv w : Fl fmt) - N / (1 + Real.exp (-real w))| ≤
        N * (3 * u + 3 * tiny + 2 / big) := by
  have hu := acc.u_nonneg
  have ht := acc.tiny_nonneg
  have hb : 0 < big := by linarith [acc.big_ge]
  have hN1 : (1 : ℝ) ≤ N := by exact_mod_cast hN
  set e := Real.exp (-real w) with he
  have he0 : 0 < e := Real.exp_pos _
  obtain ⟨hwn, hwr⟩ := real_neg hw
  have hin := within_binLogit (fmt := fmt) hN (by rw [hr]; exact EReal.coe_ne_top _) hw.1
  rw [hr] at hin
  set m : Fl fmt := (linkBinLogit N).funcInv w with hm
  have hmf : m.isFinite := by
    refine ⟨hin.1, fun h => ?_, fun h => ?_⟩
    · have := hin.2.2; rw [h] at this; exact EReal.coe_ne_top _ (top_le_iff.mp this)
    · have := hin.2.1; rw [h] at this; exact absurd this (by simp)
  refine ⟨hmf, ?_⟩
  obtain ⟨hsn, hs1⟩ := one_add_exp hw.1
  have hm' : m = num ((N : ℝ) : EReal) / (1 + exp (-w)) := by
    rw [hm, ← hr]; rfl
  have hmv : m.val = fmt.rnd (((N : ℝ) : EReal) / (1 + exp (-w)).val) := by
    have hn : ¬ (num ((N : ℝ) : EReal) / (1 + exp (-w)) : Fl fmt).isNaN := hm' ▸ hin.1
    rw [hm', val_div hn (zero_lt_one.trans_le hs1).ne']; rfl
  -- the case of a denominator that is too large
  have hover : (1 + exp (-w)).val = ⊤ → big ≤ (1 + u + tiny) * (1 + e) →
      |real m - N / (1 + e)| ≤ N * (3 * u + 3 * tiny + 2 / big) := by
    intro htop hbe
    have h0 : real m = 0 := by
      have : m.val = ((0 : ℝ) : EReal) := by
        rw [hmv, htop, EReal.div_top, fmt.rnd_zero]; rfl
      unfold real; rw [this]; rfl
    rw [h0, zero_sub, abs_neg, abs_of_nonneg (by positivity), div_eq_mul_one_div]
    refine mul_le_mul_of_nonneg_left ?_ (by linarith)
    have h1 : 1 / (1 + e) ≤ (1 + u + tiny) / big := by
      rw [div_le_div_iff₀ (by positivity) hb]; linarith
    have h2 : (1 + u + tiny) / big ≤ 2 / big := by
      refine div_le_div_of_nonneg_right ?_ hb.le
      linarith [acc.u_le, acc.tiny_le]
    linarith
  rcases exp_cases acc hwn with ⟨hef, hen, hep⟩ | ⟨hen, hev, hbe⟩
  · rw [hwr, ← he] at hen
    set e' := real (exp (-w) : Fl fmt) with he'
    have hv : (1 + exp (-w)).val = fmt.rnd ((1 + e' : ℝ) : EReal) := by
      rw [val_add hsn, val_real hef, ← he', EReal.coe_add]; rfl
    unfold Near at hen
    rw [abs_of_pos he0] at hen
    obtain ⟨hen1, hen2⟩ := abs_le.mp hen
    rcases acc.rnd_near (1 + e') with ⟨s, hs, hsnear⟩ | ⟨htop, hbe⟩ | ⟨hbot, -⟩
    · have hsv : (1 + exp (-w)).val = (s : EReal) := hv.trans hs
      have hs1' : 1 ≤ s := by rw [hsv] at hs1; exact_mod_cast hs1
      have hmv' : m.val = fmt.rnd ((N / s : ℝ) : EReal) := by
        rw [hmv, hsv, EReal.coe_div]
      unfold Near at hsnear
      rw [abs_of_pos (by linarith : (0 : ℝ) < 1 + e')] at hsnear
      have hmn : Near u tiny (N / s) (real m) := by
        rcases acc.rnd_near (N / s) with ⟨r, h1, h2⟩ | ⟨h1, -⟩ | ⟨h1, -⟩
        · have : real m = r := by unfold real; rw [hmv', h1]; rfl
          rw [this]; exact h2
        · exact absurd (hmv'.trans h1) hmf.2.1
        · exact absurd (hmv'.trans h1) hmf.2.2
      unfold Near at hmn
      have hNs : |(N : ℝ) / s| ≤ N := by
        rw [abs_of_nonneg (by positivity)]
        exact div_le_self (by linarith) hs1'
      have hA : |real m - N / s| ≤ N * (u + tiny) := by
        refine hmn.trans ?_
        have := mul_le_mul_of_nonneg_left hNs hu
        nlinarith
      have hB : |1 / s - 1 / (1 + e')| ≤ u + tiny := by
        have hpos : 0 < s * (1 + e') := by positivity
        have heq : 1 / s - 1 / (1 + e') = -(s - (1 + e')) / (s * (1 + e')) := by
          have : s ≠ 0 := by linarith
          field_simp
          ring
        rw [heq, abs_div, abs_neg, abs_of_pos hpos, div_le_iff₀ hpos]
        refine hsnear.trans ?_
        nlinarith [mul_nonneg hu hep, mul_nonneg ht hep, mul_nonneg hu (by linarith : 0 ≤ s - 1),
          mul_nonneg ht (by linarith : 0 ≤ s - 1),
          mul_nonneg (mul_nonneg hu hep) (by linarith : 0 ≤ s - 1),
          mul_nonneg (mul_nonneg ht hep) (by linarith : 0 ≤ s - 1)]
      have hC : |1 / (1 + e') - 1 / (1 + e)| ≤ u + tiny := by
        have hpos : 0 < (1 + e') * (1 + e) := by positivity
        have heq : 1 / (1 + e') - 1 / (1 + e) = -(e' - e) / ((1 + e') * (1 + e)) := by
          field_simp
          ring
        rw [heq, abs_div, abs_neg, abs_of_pos hpos, div_le_iff₀ hpos]
        refine hen.trans ?_
        nlinarith [mul_nonneg hu hep, mul_nonneg ht hep, mul_nonneg hu he0.le, mul_nonneg ht he0.le,
          mul_nonneg (mul_nonneg hu hep) he0.le, mul_nonneg (mul_nonneg ht hep) he0.le]
      have heq : real m - N / (1 + e) = (real m - N / s) + (N * (1 / s - 1 / (1 + e')) +
          N * (1 / (1 + e') - 1 / (1 + e))) := by ring
      rw [heq]
      refine (abs_add_le _ _).trans ?_
      have h1 := abs_add_le (N * (1 / s - 1 / (1 + e'))) (N * (1 / (1 + e') - 1 / (1 + e)))
      rw [abs_mul, abs_mul, abs_of_pos (by linarith : (0 : ℝ) < N)] at h1
      have h2 := mul_le_mul_of_nonneg_left hB (by linarith : (0 : ℝ) ≤ N)
      have h3 := mul_le_mul_of_nonneg_left hC (by linarith : (0 : ℝ) ≤ N)
      have h4 : 0 ≤ (N : ℝ) * (2 / big) := by positivity
      nlinarith
    · refine hover (hv.trans htop) ?_
      nlinarith [mul_nonneg ht he0.le]
    · exfalso
      rw [hv, hbot] at hs1
      exact absurd hs1 (by decide)
  · rw [hwr, ← he] at hbe
    refine hover ?_ (by nlinarith [mul_nonneg ht he0.le])
    rw [val_add hsn, hev]
    have : (1 : Fl fmt).val + ⊤ = ⊤ := EReal.add_top_of_ne_bot (by simp; decide)
    rw [this, fmt.rnd_top]

/-! ### The complementary log-log link -/

theorem exp_neg_move {e e' : ℝ} (hu : 0 ≤ u) (hu4 : u ≤ 1 / 4) (ht : 0 ≤ tiny) (ht8 : tiny ≤ 1 / 8)
    (he : 0 < e) (he' : 0 ≤ e') (h : |e' - e| ≤ u * e + tiny) :
    |Real.exp (-e') - Real.exp (-e)| ≤ u + 2 * tiny := by
  obtain ⟨h1, h2⟩ := abs_le.mp h
  have hexp : ∀ a c : ℝ, Real.exp (-a) - Real.exp (-c) ≤ (c - a) * Real.exp (-a) := by
    intro a c
    have h3 := Real.add_one_le_exp (a - c)
    have h4 : Real.exp (-c) = Real.exp (a - c) * Real.exp (-a) := by
      rw [← Real.exp_add]; congr 1; ring
    rw [h4]
    nlinarith [Real.exp_pos (-a)]
  have hte : tiny * Real.exp (-e') ≤ tiny := by
    have : Real.exp (-e') ≤ 1 := Real.exp_le_one_iff.mpr (by linarith)
    exact mul_le_of_le_one_right ht this
  refine abs_le.mpr ⟨?_, ?_⟩
  · have h3 := hexp e e'
    have h4 : (e' - e) * Real.exp (-e) ≤ (u * e + tiny) * Real.exp (-e) :=
      mul_le_mul_of_nonneg_right h2 (Real.exp_pos _).le
    have h5 : e * Real.exp (-e) ≤ 1 := by
      rw [Real.exp_neg, mul_inv_le_iff₀ (Real.exp_pos _), one_mul]
      linarith [Real.add_one_le_exp e]
    have h6 : Real.exp (-e) ≤ 1 := Real.exp_le_one_iff.mpr (by linarith)
    have h7 := mul_le_mul_of_nonneg_left h5 hu
    have h8 := mul_le_mul_of_nonneg_left h6 ht
    nlinarith
  · have h3 := hexp e' e
    have h4 : (e - e') * Real.exp (-e') ≤ (u * e + tiny) * Real.exp (-e') :=
      mul_le_mul_of_nonneg_right (by linarith) (Real.exp_pos _).le
    have h5 : e * Real.exp (-e') ≤ 1 := by
      rw [Real.exp_neg, mul_inv_le_iff₀ (Real.exp_pos _), one_mul]
      have h6 := Real.quadratic_le_exp_of_nonneg he'
      have h7 : 3 / 4 * e ≤ e' + 1 / 8 := by nlinarith
      nlinarith [sq_nonneg (e' - 1 / 3)]
    have h7 := mul_le_mul_of_nonneg_left h5 hu
    nlinarith

theorem cloglog_near (acc : Accurate fmt u tiny big) (hw : w.isFinite) :
    (linkCloglog.funcInv w : Fl fmt).isFinite ∧
      |real (linkCloglog.funcInv w : Fl fmt) - (1 - Real.exp (-Real.exp (real w)))| ≤
        2 * u + 3 * tiny + 1 / big := by
  have hu := acc.u_nonneg
  have ht := acc.tiny_nonneg
  have hb : 0 < big := by linarith [acc.big_ge]
  have hin := within_cloglog (fmt := fmt) hw.1
  set m : Fl fmt := linkCloglog.funcInv w with hm
  have hmf : m.isFinite := by
    refine ⟨hin.1, fun h => ?_, fun h => ?_⟩
    · have := hin.2.2; rw [h] at this; exact absurd this (by decide)
    · have := hin.2.1; rw [h] at this; exact absurd this (by simp)
  refine ⟨hmf, ?_⟩
  set e := Real.exp (real w) with he
  have he0 : 0 < e := Real.exp_pos _
  have hen : ¬ (-(exp w) : Fl fmt).isNaN := by rw [isNaN_neg, isNaN_exp]; exact hw.1
  have hmv : m.val = -fmt.expm1 (-(exp w : Fl fmt).val) := by
    change (-(expm1 (-(exp w))) : Fl fmt).val = _
    rw [val_neg, val_expm1 hen, val_neg]
  rcases exp_cases acc hw with ⟨hef, hnear, hep⟩ | ⟨-, hev, hbe⟩
  · rw [← he] at hnear
    set e' := real (exp w : Fl fmt) with he'
    unfold Near at hnear
    rw [abs_of_pos he0] at hnear
    rw [val_real hef, ← he', ← EReal.coe_neg] at hmv
    obtain ⟨r, hr, hrn⟩ := acc.expm1_near (-e') (by linarith)
    have hmr : real m = -r := by
      unfold real; rw [hmv, hr, ← EReal.coe_neg]; rfl
    unfold Near at hrn
    have hle1 : Real.exp (-e') ≤ 1 := Real.exp_le_one_iff.mpr (by linarith)
    have hpos := Real.exp_pos (-e')
    have hab : |Real.exp (-e') - 1| ≤ 1 := abs_le.mpr ⟨by linarith, by linarith⟩
    have h1 := mul_le_mul_of_nonneg_left hab hu
    have h2 := exp_neg_move hu acc.u_le ht acc.tiny_le he0 hep hnear
    rw [hmr]
    have heq : -r - (1 - Real.exp (-e)) =
        -((r - (Real.exp (-e') - 1)) + (Real.exp (-e') - Real.exp (-e))) := by ring
    rw [heq, abs_neg]
    refine (abs_add_le _ _).trans ?_
    have : 0 ≤ 1 / big := by positivity
    linarith
  · rw [← he] at hbe
    rw [hev, EReal.neg_top, acc.expm1_bot, neg_neg] at hmv
    have hmr : real m = 1 := by
      unfold real; rw [hmv]; rfl
    rw [hmr]
    have h1 : Real.exp (-e) ≤ 1 / big := by
      rw [Real.exp_neg, ← one_div]
      exact one_div_le_one_div_of_le hb (hbe.trans (by linarith [Real.add_one_le_exp e]))
    have h2 := Real.exp_pos (-e)
    rw [show (1 : ℝ) - (1 - Real.exp (-e)) = Real.exp (-e) by ring, abs_of_pos h2]
    linarith

/-! ### Log links -/

theorem exp_near_move (acc : Accurate fmt u tiny big) (hw : w.isFinite) {η B : ℝ}
    (h : |real w - η| ≤ B) (hb : Real.exp (η + B) < big) :
    (exp w).isFinite ∧ |real (exp w : Fl fmt) - Real.exp η| ≤
      ((1 + u) * Real.exp B - 1) * Real.exp η + tiny := by
  obtain ⟨h1, h2⟩ := exp_move h
  rcases exp_cases acc hw with ⟨hf, hn, -⟩ | ⟨-, -, hbe⟩
  · refine ⟨hf, ?_⟩
    unfold Near at hn
    rw [abs_of_pos (Real.exp_pos _)] at hn
    have h3 := abs_add_le (real (exp w : Fl fmt) - Real.exp (real w)) (Real.exp (real w) - Real.exp η)
    rw [sub_add_sub_cancel] at h3
    have h4 := mul_le_mul_of_nonneg_left h1 acc.u_nonneg
    linarith
  · rw [Real.exp_add] at hb
    linarith

/-! ### Reciprocal links -/

theorem one_div_move {s t d : ℝ} (ht : 0 < t) (hd : d < t) (h : |s - t| ≤ d) :
    0 < s ∧ 1 / s ≤ 1 / (t - d) ∧ |1 / s - 1 / t| ≤ d / (t * (t - d)) := by
  obtain ⟨h1, h2⟩ := abs_le.mp h
  have hs : 0 < s := by linarith
  have htd : 0 < t - d := by linarith
  refine ⟨hs, one_div_le_one_div_of_le htd (by linarith), ?_⟩
  have heq : 1 / s - 1 / t = -(s - t) / (t * s) := by
    field_simp
    ring
  rw [heq, abs_div, abs_neg, abs_of_pos (by positivity : 0 < t * s)]
  have hd0 : 0 ≤ d := (abs_nonneg _).trans h
  exact div_le_div₀ hd0 h (by positivity) (mul_le_mul_of_nonneg_left (by linarith) ht.le)

/-- The reciprocal of a value near a positive number. -/
theorem recip_near (acc : Accurate fmt u tiny big) {s : Fl fmt} (hs : s.isFinite) {t d : ℝ}
    (ht : 0 < t) (hd : d < t) (h : |real s - t| ≤ d) (hb : 1 / (t - d) < big) :
    (recip s).isFinite ∧ |real (recip s) - 1 / t| ≤ (u * t + d) / (t * (t - d)) + tiny := by
  obtain ⟨h0, h1, h2⟩ := one_div_move ht hd h
  have hone := real_one (fmt := fmt)
  have hle : |real (1 : Fl fmt) / real s| < big := by
    rw [hone.2, abs_of_pos (by positivity)]; linarith
  obtain ⟨hf, hn⟩ := div_near acc hone.1 hs h0.ne' hle
  refine ⟨hf, ?_⟩
  unfold Near at hn
  rw [hone.2, abs_of_pos (by positivity : 0 < 1 / real s)] at hn
  have h3 := abs_add_le (real (1 / s) - 1 / real s) (1 / real s - 1 / t)
  rw [sub_add_sub_cancel] at h3
  have h4 := mul_le_mul_of_nonneg_left h1 acc.u_nonneg
  have htd : 0 < t - d := by linarith
  have heq : (u * t + d) / (t * (t - d)) = u * (1 / (t - d)) + d / (t * (t - d)) := by
    field_simp
  change |real (1 / s) - 1 / t| ≤ _
  rw [heq]
  linarith

theorem negRec_near (acc : Accurate fmt u tiny big) (hw : w.isFinite) {η B : ℝ}
    (h : |real w - η| ≤ B) (hB : B < -η) (hb : 1 / (-η - B) < big) :
    (linkNegRec.funcInv w : Fl fmt).isFinite ∧
      |real (linkNegRec.funcInv w : Fl fmt) - -1 / η| ≤ (u * -η + B) / (-η * (-η - B)) + tiny := by
  have hB0 : 0 ≤ B := (abs_nonneg _).trans h
  have hη : 0 < -η := by linarith
  have h' : |-real w - -η| ≤ B := by rw [← abs_neg]; convert h using 2; ring
  obtain ⟨h0, h1, h2⟩ := one_div_move hη hB h'
  have hone := real_one (fmt := fmt)
  have hle : |real (1 : Fl fmt) / real w| < big := by
    rw [hone.2, ← abs_neg, ← div_neg, abs_of_pos (by positivity)]; linarith
  obtain ⟨hf, hn⟩ := div_near acc hone.1 hw (by linarith) hle
  obtain ⟨hf', hr'⟩ := real_neg hf
  refine ⟨hf', ?_⟩
  change |real (-(1 / w)) - _| ≤ _
  unfold Near at hn
  rw [hone.2, ← abs_neg (1 / real w), ← div_neg, abs_of_pos (by positivity : 0 < 1 / -real w)] at hn
  have h3 := abs_add_le (-(real (1 / w) - 1 / real w)) (1 / -real w - 1 / -η)
  rw [abs_neg] at h3
  have heq : -(real (1 / w) - 1 / real w) + (1 / -real w - 1 / -η) = real (-(1 / w)) - -1 / η := by
    rw [hr', div_neg, div_neg, neg_div]; ring
  rw [heq] at h3
  have h4 := mul_le_mul_of_nonneg_left h1 acc.u_nonneg
  have htd : 0 < -η - B := by linarith
  have heq : (u * -η + B) / (-η * (-η - B)) = u * (1 / (-η - B)) + B / (-η * (-η - B)) := by
    have : η ≠ 0 := by linarith
    field_simp
    ring
  rw [heq]
  linarith

theorem sqrt_near (acc : Accurate fmt u tiny big) {x : Fl fmt} (hx : x.isFinite) (h0 : 0 ≤ real x)
    (hb : Real.sqrt (real x) < big) :
    (sqrt x).isFinite ∧ Near u tiny (Real.sqrt (real x)) (real (sqrt x)) := by
  have hn : ¬ (sqrt x).isNaN := by
    rw [isNaN_sqrt]
    rintro (h | h)
    · exact hx.1 h
    · rw [val_real hx] at h
      exact absurd (by exact_mod_cast h : real x < 0) (not_lt.mpr h0)
  have hv : (sqrt x).val = fmt.rnd (Real.sqrt (real x) : ℝ) := by
    rw [val_sqrt hn]
    unfold esqrt
    rw [if_neg hx.2.1]; rfl
  obtain ⟨r, hr, hnear⟩ := rnd_lt acc (v := Real.sqrt (real x))
    (by rwa [abs_of_nonneg (Real.sqrt_nonneg _)])
  obtain ⟨h1, h2⟩ := finite_of_val hn (hv.trans hr)
  exact ⟨h1, h2 ▸ hnear⟩

theorem negRecSq_near (acc : Accurate fmt u tiny big) (hw : w.isFinite) {η B : ℝ}
    (h : |real w - η| ≤ B) (hB : B < -η) (hb : -2 * η + 2 * B < big)
    (hσ : rootError u tiny B η < 1)
    (hb' : 1 / ((1 - rootError u tiny B η) * Real.sqrt (-2 * η)) < big) :
    (linkNegRecSq.funcInv w : Fl fmt).isFinite ∧
      |real (linkNegRecSq.funcInv w : Fl fmt) - 1 / Real.sqrt (-2 * η)| ≤
        (rootError u tiny B η + u) / ((1 - rootError u tiny B η) * Real.sqrt (-2 * η)) + tiny := by
  have hu := acc.u_nonneg
  have hu4 := acc.u_le
  have ht := acc.tiny_nonneg
  have ht8 := acc.tiny_le
  have hbig := acc.big_ge
  have hB0 : 0 ≤ B := (abs_nonneg _).trans h
  obtain ⟨hw1, hw2⟩ := abs_le.mp h
  have htwo : (two : Fl fmt).isFinite ∧ real (two : Fl fmt) = 2 := by
    refine finite_of_val (isNaN_num _) ?_
    change fmt.rnd ((2 : ℕ) : ℝ) = _
    have := acc.rnd_two
    push_cast
    exact_mod_cast this
  obtain ⟨hn2, hr2⟩ := real_neg htwo.1
  rw [htwo.2] at hr2
  have hpos : 0 < -2 * real w := by linarith
  have hlt : |real (-two : Fl fmt) * real w| < big := by
    rw [hr2, abs_of_pos hpos]; linarith
  obtain ⟨hf, hnear⟩ := mul_near acc hn2 hw hlt
  unfold Near at hnear
  rw [hr2, abs_of_pos hpos] at hnear
  set t := -2 * η with htd
  have ht0 : 0 < t := by linarith
  set t' := real (-two * w : Fl fmt) with ht'
  set D := 2 * B + u * (t + 2 * B) + tiny with hD
  have hdev : |t' - t| ≤ D := by
    have h3 := abs_add_le (t' - -2 * real w) (-2 * real w - t)
    rw [sub_add_sub_cancel] at h3
    have h4 : |-2 * real w - t| ≤ 2 * B := by
      rw [htd, ← mul_sub, abs_mul, abs_of_neg (by norm_num : (-2 : ℝ) < 0)]
      linarith
    have h5 : u * (-2 * real w) ≤ u * (t + 2 * B) := mul_le_mul_of_nonneg_left (by linarith) hu
    linarith
  set q := Real.sqrt t with hq
  have hq0 : 0 < q := Real.sqrt_pos.mpr ht0
  have hqq : q * q = t := Real.mul_self_sqrt ht0.le
  set σ := rootError u tiny B η with hσd
  have hσe : σ = (1 + D / t) * (1 + u) - 1 + tiny / q := rfl
  have hρ0 : 0 ≤ D / t := div_nonneg ((abs_nonneg _).trans hdev) ht0.le
  have htq : 0 ≤ tiny / q := by positivity
  have hρ1 : D / t < 1 := by
    have := mul_nonneg hρ0 hu
    nlinarith
  have hDt : D < t := by rwa [div_lt_one ht0] at hρ1
  obtain ⟨hd1, hd2⟩ := abs_le.mp hdev
  have ht'0 : 0 < t' := by linarith
  have hs0 := Real.sqrt_nonneg t'
  have hss : Real.sqrt t' * Real.sqrt t' = t' := Real.mul_self_sqrt ht'0.le
  have hsb : Real.sqrt t' < big := by
    have h6 : t' ≤ 5 / 4 * big + 1 / 8 := by
      have : u * (t + 2 * B) ≤ 1 / 4 * (t + 2 * B) := mul_le_mul_of_nonneg_right hu4 (by linarith)
      linarith
    nlinarith [sq_nonneg (Real.sqrt t' - 1)]
  obtain ⟨hsf, hsn⟩ := sqrt_near acc hf ht'0.le hsb
  unfold Near at hsn
  rw [← ht', abs_of_nonneg hs0] at hsn
  have hroot : |Real.sqrt t' - q| ≤ D / t * q := by
    have h7 : (Real.sqrt t' - q) * (Real.sqrt t' + q) = t' - t := by
      linear_combination hss - hqq
    have h8 : |Real.sqrt t' - q| * (Real.sqrt t' + q) = |t' - t| := by
      rw [← h7, abs_mul, abs_of_pos (by linarith : 0 < Real.sqrt t' + q)]
    have h9 : |Real.sqrt t' - q| * q ≤ D := by
      have := mul_nonneg (abs_nonneg (Real.sqrt t' - q)) hs0
      nlinarith
    have h10 : D / t * q = D / q := by
      rw [← hqq]; field_simp
    rw [h10, le_div_iff₀ hq0]
    exact h9
  have hfin : |real (sqrt (-two * w) : Fl fmt) - q| ≤ σ * q := by
    have h11 := abs_add_le (real (sqrt (-two * w) : Fl fmt) - Real.sqrt t') (Real.sqrt t' - q)
    rw [sub_add_sub_cancel] at h11
    have h12 : Real.sqrt t' ≤ (1 + D / t) * q := by
      have := (abs_le.mp hroot).2
      linarith
    have h13 := mul_le_mul_of_nonneg_left h12 hu
    have h14 : σ * q = ((1 + D / t) * (1 + u) - 1) * q + tiny := by
      rw [hσe, add_mul, div_mul_cancel₀ _ hq0.ne']
    rw [h14]
    nlinarith
  have hσq : σ * q < q := mul_lt_of_lt_one_left hq0 hσ
  have heq : q - σ * q = (1 - σ) * q := by ring
  obtain ⟨hrf, hrn⟩ := recip_near acc hsf hq0 hσq hfin (by rw [heq]; exact hb')
  refine ⟨hrf, hrn.trans (le_of_eq ?_)⟩
  rw [heq]
  have h1σ : 0 < 1 - σ := by linarith
  clear_value σ q
  congr 1
  rw [← add_mul, add_comm u σ, ← mul_comm q, mul_div_mul_left _ _ hq0.ne']

end Fl
end GLM
