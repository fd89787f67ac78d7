/-
  C105 in simple terms, for logistic regression, and examples.
-/
import Verif.Props.InfoAccuracy
import Verif.Spec.InfoF64
import Verif.Props.ScaleModerate
import Verif.Props.LikeAccuracyF64

namespace GLM
open Spec Scalar Fl

/-! ### Errors in units of `q` -/

section
variable {u tiny q : ℝ}

theorem rounding_le {e v a m S : ℝ} (hu : 0 ≤ u) (huq : u ≤ q) (hu1 : u ≤ 1 / 1000) (ha : 0 ≤ a)
    (hS : 0 ≤ S) (ht : tiny ≤ q * S) (he : e ≤ a * (q * S)) (hv : |v| ≤ m * S) :
    afterRounding u tiny e v ≤ (a * (1001 / 1000) + m + 1) * (q * S) := by
  have hq := hu.trans huq
  have h1 : u * |v| ≤ m * (q * S) := by
    calc u * |v| ≤ q * (m * S) := mul_le_mul huq hv (abs_nonneg _) hq
      _ = m * (q * S) := by ring
  have h2 : u * e ≤ 1 / 1000 * (a * (q * S)) := by
    calc u * e ≤ u * (a * (q * S)) := mul_le_mul_of_nonneg_left he hu
      _ ≤ 1 / 1000 * (a * (q * S)) := mul_le_mul_of_nonneg_right hu1 (by positivity)
  unfold afterRounding
  rw [mul_add]
  linarith

theorem product_le {e d v w a c m l S T : ℝ} (hq : 0 ≤ q) (hq1 : q ≤ 1 / 1000) (ha : 0 ≤ a) (hc : 0 ≤ c)
    (hm : 0 ≤ m) (hS : 0 ≤ S) (hT : 0 ≤ T) (hd0 : 0 ≤ d) (he : e ≤ a * (q * S)) (hd : d ≤ c * (q * T)) (hv : |v| ≤ m * S) (hw : |w| ≤ l * T) :
    productError e d v w ≤ (a * l + m * c + a * c / 1000) * (q * (S * T)) := by
  unfold productError
  have h1 : e * |w| ≤ a * l * (q * (S * T)) := by
    calc e * |w| ≤ a * (q * S) * (l * T) := mul_le_mul he hw (abs_nonneg _) (by positivity)
      _ = _ := by ring
  have h2 : |v| * d ≤ m * c * (q * (S * T)) := by
    calc |v| * d ≤ m * S * (c * (q * T)) := mul_le_mul hv hd hd0 (by positivity)
      _ = _ := by ring
  have h3 : e * d ≤ a * c / 1000 * (q * (S * T)) := by
    calc e * d ≤ a * (q * S) * (c * (q * T)) := mul_le_mul he hd hd0 (by positivity)
      _ = a * c * (q * (S * T)) * q := by ring
      _ ≤ a * c * (q * (S * T)) * (1 / 1000) := mul_le_mul_of_nonneg_left hq1 (by positivity)
      _ = _ := by ring
  linarith

theorem times_le {e d v w a c m l S T : ℝ} (hu : 0 ≤ u) (huq : u ≤ q) (hq1 : q ≤ 1 / 1000)
    (ha : 0 ≤ a) (hc : 0 ≤ c) (hm : 0 ≤ m) (hl : 0 ≤ l) (hS : 0 ≤ S) (hT : 0 ≤ T)
    (hd0 : 0 ≤ d) (ht : tiny ≤ q * (S * T)) (he : e ≤ a * (q * S)) (hd : d ≤ c * (q * T))
    (hv : |v| ≤ m * S) (hw : |w| ≤ l * T) :
    timesError u tiny e d v w ≤
      ((a * l + m * c + a * c / 1000) * (1001 / 1000) + m * l + 1) * (q * (S * T)) := by
  have hp := product_le (hu.trans huq) hq1 ha hc hm hS hT hd0 he hd hv hw
  refine rounding_le hu huq (huq.trans hq1) (by positivity) (by positivity) ht hp ?_
  rw [abs_mul]
  calc |v| * |w| ≤ m * S * (l * T) := mul_le_mul hv hw (abs_nonneg _) (by positivity)
    _ = _ := by ring

theorem dot_le {fmt : FloatFormat} {site : SumSite} {N D : ℕ} {e d v w : Fin N → ℝ} {a c m l S T : ℝ}
    (hu : 0 ≤ u) (hDq : D * u ≤ q) (hq1 : q ≤ 1 / 1000) (ht0 : 0 ≤ tiny)
    (hdep : (fmt.order site N).tree.depth 1 ≤ D) (hops : (fmt.order site N).tree.ops 1 ≤ D) (hN : 1 ≤ N)
    (ha : 0 ≤ a) (hc : 0 ≤ c) (hm : 0 ≤ m) (hl : 0 ≤ l) (hS : 0 ≤ S) (hT : 0 ≤ T) (he0 : ∀ i, 0 ≤ e i)
    (hd0 : ∀ i, 0 ≤ d i) (ht : tiny ≤ u * (S * T)) (he : ∀ i, e i ≤ a * (q * S))
    (hd : ∀ i, d i ≤ c * (q * T)) (hv : ∀ i, |v i| ≤ m * S) (hw : ∀ i, |w i| ≤ l * T) :
    dotError fmt u tiny site e d v w ≤ ((a * l + m * c + a * c / 1000) * (1002 / 1000)
        + 1001 / 1000 * (m * l) + 1002 / 1000) * (q * (N * (S * T))) ∧
      ∑ i, |v i * w i| ≤ m * l * (N * (S * T)) := by
  have hDu : (0 : ℝ) ≤ D * u := by positivity
  have hq := hDu.trans hDq
  have hNr : (1 : ℝ) ≤ N := by exact_mod_cast hN
  set P := a * l + m * c + a * c / 1000 with hP
  have hP0 : 0 ≤ P := by positivity
  have hterm : ∑ i, (e i * (|w i| + d i) + |v i| * d i) ≤ P * (q * (N * (S * T))) := by
    have : ∀ i, e i * (|w i| + d i) + |v i| * d i ≤ P * (q * (S * T)) := fun i => by
      have := product_le hq hq1 ha hc hm hS hT (hd0 i) (he i) (hd i) (hv i) (hw i)
      unfold productError at this
      rw [← hP] at this
      linarith
    calc _ ≤ ∑ _i : Fin N, P * (q * (S * T)) := Finset.sum_le_sum fun i _ => this i
      _ = N * (P * (q * (S * T))) := by simp
      _ = _ := by ring
  have hterm0 : 0 ≤ ∑ i, (e i * (|w i| + d i) + |v i| * d i) := Finset.sum_nonneg fun i _ => by
    have := he0 i
    have := hd0 i
    positivity
  have hsize : ∑ i, |v i * w i| ≤ m * l * (N * (S * T)) := by
    calc _ ≤ ∑ _i : Fin N, m * S * (l * T) := Finset.sum_le_sum fun i _ => by
          rw [abs_mul]; exact mul_le_mul (hv i) (hw i) (abs_nonneg _) (by positivity)
      _ = N * (m * S * (l * T)) := by simp
      _ = _ := by ring
  have hsize0 : 0 ≤ ∑ i, |v i * w i| := Finset.sum_nonneg fun i _ => abs_nonneg _
  refine ⟨?_, hsize⟩
  obtain ⟨p1, p2⟩ := pow_near (D := D) hu (hDq.trans hq1)
  unfold dotError sumError
  generalize (fmt.order site N).tree.depth 1 = d0 at *
  generalize (fmt.order site N).tree.ops 1 = k0 at *
  generalize ∑ i, (e i * (|w i| + d i) + |v i| * d i) = E at *
  generalize ∑ i, |v i * w i| = Z at *
  have hpow : (1 + u) ^ d0 ≤ (1 + u) ^ D := pow_le_pow_right₀ (by linarith) hdep
  have hpow1 : 1 ≤ (1 + u) ^ d0 := one_le_pow₀ (by linarith)
  have hk : (k0 : ℝ) ≤ D := by exact_mod_cast hops
  set U := N * (S * T) with hU
  have hST : S * T ≤ U := le_mul_of_one_le_left (by positivity) hNr
  have hU0 : 0 ≤ U := by positivity
  have h1 : ((1 + u) ^ d0 - 1) * (Z + E) ≤ 1001 / 1000 * q * (m * l * U + P * (q * U)) :=
    mul_le_mul (by linarith) (add_le_add hsize hterm) (by positivity) (by positivity)
  have h2 : (k0 : ℝ) * (1 + u) ^ d0 * tiny ≤ D * (1002 / 1000) * (u * U) :=
    mul_le_mul (mul_le_mul hk (by linarith) (by linarith) (by positivity))
      (ht.trans (mul_le_mul_of_nonneg_left hST hu)) ht0 (by positivity)
  have h3 : (D : ℝ) * (1002 / 1000) * (u * U) ≤ 1002 / 1000 * (q * U) := by
    calc (D : ℝ) * (1002 / 1000) * (u * U) = 1002 / 1000 * (D * u * U) := by ring
      _ ≤ 1002 / 1000 * (q * U) := by
        have := mul_le_mul_of_nonneg_right hDq hU0
        linarith
  have hPU : 0 ≤ P * (q * U) := by positivity
  have h4 : q * (P * (q * U)) ≤ 1 / 1000 * (P * (q * U)) := mul_le_mul_of_nonneg_right hq1 hPU
  have h5 : 1001 / 1000 * q * (m * l * U + P * (q * U))
      ≤ 1001 / 1000 * (m * l) * (q * U) + 2 / 1000 * (P * (q * U)) := by
    have : 1001 / 1000 * q * (m * l * U + P * (q * U))
        = 1001 / 1000 * (m * l) * (q * U) + 1001 / 1000 * (q * (P * (q * U))) := by ring
    rw [this]
    linarith
  linarith

end

/-- A quotient by a number `V` that is small, but not as small as the errors. -/
theorem inverse_unit {q V r e d : ℝ} (q0 : 0 ≤ q) (V0 : 0 < V) (V1 : V ≤ 1 / 4)
    (hV : 40 * q ≤ V) (hr : |r| ≤ 1) (e1 : e ≤ 10 * q) (d0 : 0 ≤ d) (d1 : d ≤ 19 * q) :
    d < V ∧ quotientError e d r V ≤ 431 / 10 * (q * (1 / V ^ 2)) ∧ |r / V| ≤ 1 / 4 * (1 / V ^ 2) := by
  have hd : d < V := by nlinarith
  have h1 : |r / V| ≤ 1 / V := by
    rw [abs_div, abs_of_pos V0]
    exact div_le_div_of_nonneg_right hr V0.le
  have h2 : 1 / V ≤ 1 / 4 * (1 / V ^ 2) := by
    rw [div_le_iff₀ V0]
    have : 1 / 4 * (1 / V ^ 2) * V = 1 / (4 * V) := by field_simp
    rw [this, le_div_iff₀ (by positivity)]
    linarith
  refine ⟨hd, ?_, h1.trans h2⟩
  unfold quotientError
  rw [abs_of_pos V0, div_le_iff₀ (by linarith)]
  have h3 : e + |r / V| * d ≤ 10 * q + 1 / V * (19 * q) :=
    add_le_add e1 (mul_le_mul h1 d1 d0 (by positivity))
  have h4 : V * (21 / 40) ≤ V - d := by linarith
  have h5 : 431 / 10 * (q * (1 / V ^ 2)) * (V * (21 / 40)) ≤ 431 / 10 * (q * (1 / V ^ 2)) * (V - d) :=
    mul_le_mul_of_nonneg_left h4 (by positivity)
  have h6 : 431 / 10 * (q * (1 / V ^ 2)) * (V * (21 / 40)) = 9051 / 400 * q * (1 / V) := by
    field_simp; ring
  have h7 : 4 ≤ 1 / V := by
    rw [le_div_iff₀ V0]; linarith
  have h8 : q * 4 ≤ q * (1 / V) := mul_le_mul_of_nonneg_left h7 q0
  linarith

/-- Powers of the inverse `g` of the square root of `V`. -/
theorem root_units {V : ℝ} (V0 : 0 < V) (V1 : V ≤ 1 / 4) : ∃ g : ℝ, 2 ≤ g ∧ 4 * g ≤ g ^ 3 ∧
    4 * g ^ 2 ≤ g ^ 4 ∧ 8 ≤ g ^ 3 ∧ 16 ≤ g ^ 4 ∧ 1 / V = g ^ 2 ∧ 1 / V ^ 2 = g ^ 4 ∧ Real.sqrt (1 / V) = g ∧
    1 / Real.sqrt V ^ 3 = g ^ 3 := by
  have hs0 : 0 < Real.sqrt V := Real.sqrt_pos.mpr V0
  have hs1 : Real.sqrt V ≤ 1 / 2 := by
    rw [Real.sqrt_le_left (by norm_num)]
    linarith
  have hss : Real.sqrt V ^ 2 = V := Real.sq_sqrt V0.le
  have g2 : 2 ≤ 1 / Real.sqrt V := by
    rw [le_div_iff₀ hs0]; linarith
  have eV1 : 1 / V = (1 / Real.sqrt V) ^ 2 := by rw [div_pow, hss, one_pow]
  have eV2 : 1 / V ^ 2 = (1 / Real.sqrt V) ^ 4 := by
    rw [div_pow, one_pow, show (4 : ℕ) = 2 * 2 from rfl, pow_mul, hss]
  have eR : Real.sqrt (1 / V) = 1 / Real.sqrt V := by rw [Real.sqrt_div zero_le_one, Real.sqrt_one]
  have eR3 : 1 / Real.sqrt V ^ 3 = (1 / Real.sqrt V) ^ 3 := by rw [div_pow, one_pow]
  have sq : 4 ≤ (1 / Real.sqrt V) ^ 2 := by nlinarith
  refine ⟨1 / Real.sqrt V, g2, ?_, ?_, ?_, ?_, eV1, eV2, eR, eR3⟩
  all_goals generalize 1 / Real.sqrt V = g at *
  · have := mul_le_mul_of_nonneg_right sq (by linarith : 0 ≤ g)
    calc 4 * g ≤ g ^ 2 * g := this
      _ = g ^ 3 := by ring
  · have := mul_le_mul_of_nonneg_right sq (sq_nonneg g)
    calc 4 * g ^ 2 ≤ g ^ 2 * g ^ 2 := this
      _ = g ^ 4 := by ring
  · have := mul_le_mul_of_nonneg_right sq (by linarith : 0 ≤ g)
    calc 8 ≤ 4 * g := by linarith
      _ ≤ g ^ 2 * g := this
      _ = g ^ 3 := by ring
  · have := mul_le_mul_of_nonneg_right sq (sq_nonneg g)
    calc 16 ≤ 4 * g ^ 2 := by linarith
      _ ≤ g ^ 2 * g ^ 2 := this
      _ = g ^ 4 := by ring

/-- The steps of a Pearson residual with the variance `V`. -/
theorem pearson_unit {big V r e d : ℝ} (hu : 0 ≤ u) (q1 : u ≤ q) (hq1 : q ≤ 1 / 1000) (ht : 0 ≤ tiny)
    (htu : tiny ≤ u) (V0 : 0 < V) (V1 : V ≤ 1 / 4) (hV : 50 * q ≤ V) (hbV : 2 / V ^ 2 < big)
    (hr : |r| ≤ 1) (e0 : 0 ≤ e) (e1 : e ≤ 10 * q) (d0 : 0 ≤ d) (d1 : d ≤ 19 * q) :
    OverFits big 0 d 1 V ∧
    |1 / V| + overError u tiny 0 d 1 V < big ∧
    afterRounding u tiny (overError u tiny 0 d 1 V) (1 / V) < 1 / V ∧
    Real.sqrt (1 / V) + afterRounding u tiny (overError u tiny 0 d 1 V) (1 / V) / Real.sqrt (1 / V) < big ∧
    TimesFits big (afterRounding u tiny
      (afterRounding u tiny (overError u tiny 0 d 1 V) (1 / V) / Real.sqrt (1 / V)) (Real.sqrt (1 / V))) e
      (Real.sqrt (1 / V)) r ∧
    timesError u tiny (afterRounding u tiny
      (afterRounding u tiny (overError u tiny 0 d 1 V) (1 / V) / Real.sqrt (1 / V)) (Real.sqrt (1 / V))) e
      (Real.sqrt (1 / V)) r ≤ 52 * q / Real.sqrt V ^ 3 := by
  have q0 : 0 ≤ q := hu.trans q1
  have huq : u ≤ 1 / 1000 := q1.trans hq1
  obtain ⟨h1, h2, h3⟩ := inverse_unit (r := 1) (e := 0) q0 V0 V1 (by linarith) (by simp)
    (by linarith) d0 d1
  have hQ0 : 0 ≤ quotientError 0 d 1 V := by
    unfold quotientError
    exact div_nonneg (by positivity) (by rw [abs_of_pos V0]; linarith)
  obtain ⟨g, g2, g3, g4, g3', g4', eV1, eV2, eR, eR3⟩ := root_units V0 V1
  rw [eV2] at h2 h3
  have g0 : 0 < g := by linarith
  have hb4 : 2 * g ^ 4 < big := by
    have : 2 / V ^ 2 = 2 * g ^ 4 := by rw [← eV2]; ring
    rwa [this] at hbV
  have e52 : 52 * q / Real.sqrt V ^ 3 = 52 * (q * g ^ 3) := by rw [← eR3]; ring
  have hgV : 50 * (q * g ^ 4) ≤ g ^ 2 := by
    have : g ^ 2 * V = 1 := by rw [← eV1]; field_simp
    calc 50 * (q * g ^ 4) = 50 * q * (g ^ 4) := by ring
      _ ≤ V * g ^ 4 := mul_le_mul_of_nonneg_right hV (by positivity)
      _ = g ^ 2 * V * g ^ 2 := by ring
      _ = g ^ 2 := by rw [this, one_mul]
  have t3 : tiny ≤ q * g ^ 3 := (htu.trans q1).trans (le_mul_of_one_le_right q0 (by linarith))
  have t4 : tiny ≤ q * g ^ 4 := (htu.trans q1).trans (le_mul_of_one_le_right q0 (by linarith))
  have p3 : 0 ≤ q * g ^ 3 := by positivity
  have p4 : 0 ≤ q * g ^ 4 := by positivity
  have b3 : q * g ^ 3 ≤ 1 / 1000 * g ^ 3 := mul_le_mul_of_nonneg_right hq1 (by positivity)
  have b4 : q * g ^ 4 ≤ 1 / 1000 * g ^ 4 := mul_le_mul_of_nonneg_right hq1 (by positivity)
  have b34 : 2 * g ^ 3 ≤ g ^ 4 := by
    calc 2 * g ^ 3 ≤ g * g ^ 3 := mul_le_mul_of_nonneg_right g2 (by positivity)
      _ = g ^ 4 := by ring
  have A0 : 0 ≤ overError u tiny 0 d 1 V := hQ0.trans (rounded_ge hu ht hQ0)
  have A1 : overError u tiny 0 d 1 V ≤ 445 / 10 * (q * g ^ 4) := by
    refine (rounding_le (S := g ^ 4) (a := 431 / 10) (m := 1 / 4) hu q1 huq (by norm_num) (by positivity) t4
      h2 h3).trans ?_
    linarith
  have hfit : |1 / V| + quotientError 0 d 1 V < big := by linarith
  have hfit' : |1 / V| + overError u tiny 0 d 1 V < big := by linarith
  have C1 : afterRounding u tiny (overError u tiny 0 d 1 V) (1 / V) ≤ 458 / 10 * (q * g ^ 4) := by
    refine (rounding_le (S := g ^ 4) (a := 445 / 10) (m := 1 / 4) hu q1 huq (by norm_num) (by positivity) t4
      A1 h3).trans ?_
    linarith
  have C0 : 0 ≤ afterRounding u tiny (overError u tiny 0 d 1 V) (1 / V) := A0.trans (rounded_ge hu ht A0)
  rw [eR, e52]
  set C := afterRounding u tiny (overError u tiny 0 d 1 V) (1 / V) with hC
  have hCg : C < 1 / V := by
    rw [eV1]
    have : 0 < g ^ 2 := by positivity
    rcases p4.eq_or_lt with h | h
    · rw [← h] at C1; linarith
    · linarith
  have D1 : C / g ≤ 458 / 10 * (q * g ^ 3) := by
    rw [div_le_iff₀ g0]
    refine C1.trans (le_of_eq (by ring))
  have D0 : 0 ≤ C / g := by positivity
  have gabs : |g| ≤ 1 / 4 * g ^ 3 := by rw [abs_of_pos g0]; linarith
  have E1 : afterRounding u tiny (C / g) g ≤ 472 / 10 * (q * g ^ 3) := by
    refine (rounding_le (S := g ^ 3) (a := 458 / 10) (m := 1 / 4) hu q1 huq (by norm_num) (by positivity) t3
      D1 gabs).trans ?_
    linarith
  have P := product_le (S := g ^ 3) (T := 1) (a := 472 / 10) (c := 10) (m := 1 / 4) (l := 1) q0 hq1
    (by norm_num) (by norm_num) (by norm_num) (by positivity) zero_le_one e0 E1 (by linarith) gabs
    (by linarith) (w := r)
  have T := times_le (S := g ^ 3) (T := 1) (a := 472 / 10) (c := 10) (m := 1 / 4) (l := 1) hu q1 hq1
    (by norm_num) (by norm_num) (by norm_num) (by norm_num) (by positivity) zero_le_one e0 (by linarith)
    E1 (by linarith) gabs (by linarith) (tiny := tiny) (w := r)
  rw [mul_one] at P T
  refine ⟨⟨by rw [abs_of_pos V0]; exact h1, hfit⟩, hfit', hCg, ?_, ?_, ?_⟩
  · linarith
  · unfold TimesFits
    have : |g * r| ≤ 1 / 4 * g ^ 3 := by
      rw [abs_mul]
      calc |g| * |r| ≤ 1 / 4 * g ^ 3 * 1 := mul_le_mul gabs hr (abs_nonneg _) (by positivity)
        _ = _ := mul_one _
    linarith
  · refine T.trans ?_
    linarith

/-! ### Logistic regression -/

section
variable {fmt : FloatFormat} {u tiny big M X : ℝ} {n p D : ℕ} {b : Bool}
  {raw : Dataset (Fl fmt) n p false} {data : Dataset (Fl fmt) n p b} {β α : Vec (Fl fmt) (ncols b p)}

theorem logit_mean_mem (η : ℝ) : 0 < exactMean .logisticLogit η ∧ exactMean .logisticLogit η < 1 := by
  have := Real.exp_pos (-η)
  change 0 < 1 / (1 + Real.exp (-η)) ∧ 1 / (1 + Real.exp (-η)) < 1
  refine ⟨by positivity, ?_⟩
  rw [div_lt_one (by positivity)]
  linarith

namespace Spec.ModerateDesign

theorem size_nonneg (h : ModerateDesign u tiny big M X D raw b β) : 0 ≤ M :=
  (predSize_nonneg' (b := b) (x := raw.x) (off := raw.linearOffset) (β := β)
    (i := ⟨0, h.rows⟩)).trans (h.size _)

theorem units (h : ModerateDesign u tiny big M X D raw b β) (acc : Accurate fmt u tiny big) :
    0 ≤ D * u * (M + 1) ∧ u ≤ D * u * (M + 1) ∧ D * u ≤ D * u * (M + 1) ∧ D * u ≤ 1 / 1000 := by
  have hM := h.size_nonneg
  have hu := acc.u_nonneg
  have hD : (1 : ℝ) ≤ D := by exact_mod_cast h.pos
  have h1 : u ≤ D * u := le_mul_of_one_le_left hu hD
  have h2 : (D : ℝ) * u ≤ D * u * (M + 1) := le_mul_of_one_le_right (hu.trans h1) (by linarith)
  exact ⟨by positivity, h1.trans h2, h2, h2.trans h.small⟩

/-- The linear predictors. -/
theorem pred (h : ModerateDesign u tiny big M X D raw b β) (acc : Accurate fmt u tiny big) (i : Fin n) :
    PredFits u tiny big b raw.x raw.linearOffset β i ∧
    0 ≤ predError u tiny b raw.x raw.linearOffset β i ∧
    predError u tiny b raw.x raw.linearOffset β i ≤ 1002 / 1000 * (D * u * (M + 1)) := by
  obtain ⟨q0, q1, q2, q3⟩ := h.units acc
  have hu := acc.u_nonneg
  have ht := acc.tiny_nonneg
  have hM := h.size_nonneg
  have hs0 := predSize_nonneg' (b := b) (x := raw.x) (off := raw.linearOffset) (β := β) (i := i)
  have hB : predError u tiny b raw.x raw.linearOffset β i ≤ 1002 / 1000 * (D * u * (M + 1)) := by
    obtain ⟨p1, p2⟩ := pow_near hu q3
    unfold predError sumError
    have hdep := h.depth_pred i
    have hops := h.ops_pred i
    generalize predDepth fmt b n p raw.linearOffset i = d0 at *
    generalize predOps fmt b n p raw.linearOffset i = k0 at *
    have hpow : (1 + u) ^ d0 ≤ (1 + u) ^ D := pow_le_pow_right₀ (by linarith) hdep
    have hpow1 : 1 ≤ (1 + u) ^ d0 := one_le_pow₀ (by linarith)
    have hk : (k0 : ℝ) ≤ D := by exact_mod_cast hops
    have h1 : ((1 + u) ^ d0 - 1) * predSize b raw.x raw.linearOffset β i ≤ 1001 / 1000 * (D * u) * M :=
      mul_le_mul (by linarith) (h.size i) hs0 (by positivity)
    have h2 : (k0 : ℝ) * (1 + u) ^ d0 * tiny ≤ D * (1002 / 1000) * u :=
      mul_le_mul (mul_le_mul hk (by linarith) (by linarith) (by positivity)) h.tiny_le ht (by positivity)
    have : 0 ≤ D * u * M := by positivity
    linarith
  refine ⟨⟨h.x i, h.coef, fun o ho => h.offset o ho i, ?_⟩, sumError_nonneg hu ht hs0, hB⟩
  have := h.size i
  have := h.small
  have := h.big_size
  linarith

/-- The means, the variances and the information of the observations. -/
theorem info (h : ModerateDesign u tiny big M X D raw b β) (acc : Accurate fmt u tiny big) (i : Fin n) :
    InfoFits fmt u tiny big (predError u tiny b raw.x raw.linearOffset β i) .logisticLogit
      (exactPred b raw.x raw.linearOffset β i) ∧
    0 ≤ meanError u tiny big (predError u tiny b raw.x raw.linearOffset β i) .logisticLogit
      (exactPred b raw.x raw.linearOffset β i) ∧
    meanError u tiny big (predError u tiny b raw.x raw.linearOffset β i) .logisticLogit
      (exactPred b raw.x raw.linearOffset β i) ≤ 73 / 10 * (D * u * (M + 1)) ∧
    0 ≤ rowInfoError u tiny big .logisticLogit raw b β i ∧
    rowInfoError u tiny big .logisticLogit raw b β i ≤ 19 * (D * u * (M + 1)) ∧
    |rowInfo .logisticLogit raw b β i| ≤ 1 / 4 := by
  obtain ⟨q0, q1, q2, q3⟩ := h.units acc
  have hu := acc.u_nonneg
  have ht := acc.tiny_nonneg
  have htu := h.tiny_le
  have hq1 := h.small
  have hbig : 2 ≤ big := acc.big_ge
  obtain ⟨-, B0, B1⟩ := h.pred acc i
  have hinv : 2 / big ≤ u := by
    rw [div_le_iff₀ (by linarith)]; exact h.big_inv
  have hinv0 : 0 ≤ 2 / big := div_nonneg (by norm_num) (by linarith)
  set B := predError u tiny b raw.x raw.linearOffset β i with hB
  set η := exactPred b raw.x raw.linearOffset β i with hη
  have he : meanError u tiny big B .logisticLogit η = B / 4 + (3 * u + 3 * tiny + 2 / big) := rfl
  obtain ⟨m0, m1⟩ := logit_mean_mem η
  set μ := exactMean .logisticLogit η with hμ
  set e := meanError u tiny big B .logisticLogit η with hee
  set q := D * u * (M + 1) with hq
  have e0 : 0 ≤ e := by rw [he]; positivity
  have e1 : e ≤ 73 / 10 * q := by rw [he]; linarith
  have v0 : |μ| ≤ 1 * 1 := by rw [abs_of_pos m0]; linarith
  have v1 : |1 - μ| ≤ 1 * 1 := by rw [abs_of_pos (by linarith)]; linarith
  have huq : u ≤ 1 / 1000 := q1.trans hq1
  have d0 : 0 ≤ afterRounding u tiny e (1 - μ) := e0.trans (rounded_ge hu ht e0)
  have d1 := rounding_le (S := 1) (a := 73 / 10) (m := 1) hu q1 huq (by norm_num) (by norm_num)
    (by linarith) (by linarith) v1 (e := e) (tiny := tiny)
  have P := product_le (S := 1) (T := 1) (a := 73 / 10) (c := 74 / 10 + 2) (m := 1) (l := 1) q0 hq1 (by norm_num)
    (by norm_num) (by norm_num) (by norm_num) (by norm_num) d0 (by linarith) (by linarith) v0 v1 (e := e)
  have T := times_le (S := 1) (T := 1) (a := 73 / 10) (c := 74 / 10 + 2) (m := 1) (l := 1) hu q1 hq1 (by norm_num)
    (by norm_num) (by norm_num) (by norm_num) (by norm_num) (by norm_num) d0 (by linarith) (by linarith)
    (by linarith) v0 v1 (e := e) (tiny := tiny)
  have hvar : rowInfo .logisticLogit raw b β i = μ * (1 - μ) := by
    change (1 : ℝ) ^ 2 * (μ * (1 - μ)) = _
    ring
  have hrow : rowInfoError u tiny big .logisticLogit raw b β i
      = timesError u tiny e (afterRounding u tiny e (1 - μ)) μ (1 - μ) := rfl
  have hpe : 0 ≤ productError e (afterRounding u tiny e (1 - μ)) μ (1 - μ) := by
    unfold productError; positivity
  refine ⟨⟨trivial, trivial, ⟨?_, ?_⟩, trivial⟩, e0, e1, ?_, ?_, ?_⟩
  · linarith
  · unfold TimesFits
    have : |μ * (1 - μ)| ≤ 1 := by
      rw [abs_mul]; exact mul_le_one₀ (by linarith) (abs_nonneg _) (by linarith)
    linarith
  · rw [hrow]; exact hpe.trans (rounded_ge hu ht hpe)
  · rw [hrow]; linarith
  · rw [hvar, abs_of_nonneg (mul_nonneg m0.le (by linarith))]
    nlinarith [sq_nonneg (μ - 1 / 2)]

theorem wt (h : ModerateDesign u tiny big M X D raw b β) (i : Fin n) :
    freq (exactData raw) i = 1 ∧ varWt (exactData raw) i = 1 ∧ totalWt (exactData raw) i = 1 := by
  have h1 : freq (exactData raw) i = 1 := by simp [freq, exactData, h.freqs]
  have h2 : varWt (exactData raw) i = 1 := by simp [varWt, exactData, h.weights]
  refine ⟨h1, h2, ?_⟩
  unfold totalWt
  rw [h1, h2, one_mul]

/-- The information matrix. -/
theorem fisher (h : ModerateDesign u tiny big M X D raw b β) (acc : Accurate fmt u tiny big)
    {l2 : Fl fmt} (f2 : l2.isFinite) (h2 : ¬ 0 < real l2) (j k : Fin (ncols b p)) :
    FisherFits u tiny big .logisticLogit raw b l2 β j k ∧
    0 ≤ fisherError u tiny big .logisticLogit raw b (real l2) β j k ∧
    fisherError u tiny big .logisticLogit raw b (real l2) β j k ≤ 25 * (D * u * (M + 1) * (n * X ^ 2)) ∧
    |exactInfo .logisticLogit raw b (real l2) β j k| ≤ 1 / 4 * (n * X ^ 2) := by
  obtain ⟨q0, q1, q2, q3⟩ := h.units acc
  have hu := acc.u_nonneg
  have ht := acc.tiny_nonneg
  have htu := h.tiny_le
  have hq1 := h.small
  have hX := h.one_le
  have hX0 : 0 ≤ X := by linarith
  have huq : u ≤ 1 / 1000 := q1.trans hq1
  have hn : (1 : ℝ) ≤ n := by exact_mod_cast h.rows
  set q := D * u * (M + 1) with hq
  have htX : tiny ≤ q * X := by
    have := le_mul_of_one_le_right q0 hX
    linarith
  have hXX : X ≤ X ^ 2 := by nlinarith
  have hnX : X ^ 2 ≤ n * X ^ 2 := le_mul_of_one_le_left (sq_nonneg X) hn
  -- the weighted columns
  have hcol : ∀ i, 0 ≤ colError u tiny raw b i j ∧ colError u tiny raw b i j ≤ 401 / 100 * (q * X) := by
    intro i
    obtain ⟨w1, w2, w3⟩ := h.wt i
    unfold colError
    rw [w1, w2, w3, abs_one, one_mul, mul_one]
    have hx := h.entries i j
    have a0 : 0 ≤ afterRounding u tiny 0 (exactDesign raw b i j) := rounded_ge hu ht le_rfl
    have a1 := rounding_le (S := X) (a := 0) (m := 1) hu q1 huq (by norm_num) hX0 htX
      (by linarith) (by linarith) (e := 0) (v := exactDesign raw b i j)
    have a2 := rounding_le (S := X) (a := 2) (m := 1) hu q1 huq (by norm_num) hX0 htX
      (by linarith) (by linarith) (e := afterRounding u tiny 0 (exactDesign raw b i j))
      (v := exactDesign raw b i j)
    have : 0 ≤ q * X := by positivity
    exact ⟨a0.trans (rounded_ge hu ht a0), by linarith⟩
  -- the terms
  have hterm : ∀ i, TimesFits big (colError u tiny raw b i j)
        (rowInfoError u tiny big .logisticLogit raw b β i)
        (exactDesign raw b i j * totalWt (exactData raw) i) (rowInfo .logisticLogit raw b β i) ∧
      0 ≤ infoColError u tiny big .logisticLogit raw b β j i ∧
      infoColError u tiny big .logisticLogit raw b β j i ≤ 215 / 10 * (q * X) ∧
      |exactDesign raw b i j * totalWt (exactData raw) i * rowInfo .logisticLogit raw b β i| ≤ 1 / 4 * X := by
    intro i
    obtain ⟨-, -, -, i0, i1, i2⟩ := h.info acc i
    obtain ⟨c0, c1⟩ := hcol i
    have hx := h.entries i j
    rw [(h.wt i).2.2, mul_one]
    unfold infoColError
    rw [(h.wt i).2.2, mul_one]
    have P := product_le (S := X) (T := 1) (a := 401 / 100) (c := 19) (m := 1) (l := 1 / 4) q0 hq1 (by norm_num)
      (by norm_num) (by norm_num) hX0 (by norm_num) i0 c1 (by linarith) (by linarith) (by linarith)
      (v := exactDesign raw b i j) (w := rowInfo .logisticLogit raw b β i)
    have T := times_le (S := X) (T := 1) (a := 401 / 100) (c := 19) (m := 1) (l := 1 / 4) hu q1 hq1 (by norm_num)
      (by norm_num) (by norm_num) (by norm_num) hX0 (by norm_num) i0 (by linarith) c1 (by linarith)
      (by linarith) (by linarith) (v := exactDesign raw b i j) (w := rowInfo .logisticLogit raw b β i)
      (tiny := tiny)
    have hP0 : 0 ≤ productError (colError u tiny raw b i j) (rowInfoError u tiny big .logisticLogit raw b β i)
        (exactDesign raw b i j) (rowInfo .logisticLogit raw b β i) := by unfold productError; positivity
    have hv : |exactDesign raw b i j * rowInfo .logisticLogit raw b β i| ≤ 1 / 4 * X := by
      rw [abs_mul, mul_comm (1 / 4 : ℝ)]
      exact mul_le_mul hx i2 (abs_nonneg _) hX0
    have hqX : q * X ≤ 1 / 1000 * X := mul_le_mul_of_nonneg_right hq1 hX0
    have hqX0 : 0 ≤ q * X := by positivity
    refine ⟨?_, hP0.trans (rounded_ge hu ht hP0), ?_, hv⟩
    · unfold TimesFits
      have := h.big_sq
      linarith
    · linarith
  -- the sum
  have hdot := dot_le (fmt := fmt) (site := .matMat (ncols b p) (ncols b p) j k) (N := n) (D := D)
    (e := infoColError u tiny big .logisticLogit raw b β j) (d := fun _ => 0)
    (v := fun i => exactDesign raw b i j * totalWt (exactData raw) i * rowInfo .logisticLogit raw b β i)
    (w := fun i => exactDesign raw b i k) (a := 215 / 10) (c := 0) (m := 1 / 4) (l := 1) (S := X) (T := X)
    (tiny := tiny) hu q2 hq1 ht (h.depth j k) (h.ops j k) h.rows (by norm_num) le_rfl (by norm_num)
    (by norm_num) hX0 hX0 (fun i => (hterm i).2.1) (fun _ => le_rfl)
    (by
      have : (1 : ℝ) ≤ X * X := by nlinarith
      have := le_mul_of_one_le_right hu this
      linarith)
    (fun i => (hterm i).2.2.1) (fun _ => by simp) (fun i => (hterm i).2.2.2)
    (fun i => by rw [one_mul]; exact h.entries i k)
  have e : dotError fmt u tiny (.matMat (ncols b p) (ncols b p) j k)
      (infoColError u tiny big .logisticLogit raw b β j) (fun _ => 0)
      (fun i => exactDesign raw b i j * totalWt (exactData raw) i * rowInfo .logisticLogit raw b β i)
      (fun i => exactDesign raw b i k) = dataInfoError u tiny big .logisticLogit raw b β j k := by
    unfold dotError dataInfoError infoTermError infoSize
    simp only [add_zero, mul_zero]
  rw [e] at hdot
  obtain ⟨s1, s2⟩ := hdot
  have s2 : infoSize .logisticLogit raw b β j k ≤ _ := s2
  rw [← pow_two] at s1 s2
  set U := n * X ^ 2 with hU
  have hU1 : 1 ≤ U := by nlinarith
  have hU0 : 0 ≤ U := by linarith
  have hqU : q * U ≤ 1 / 1000 * U := mul_le_mul_of_nonneg_right hq1 hU0
  have hqU0 : 0 ≤ q * U := by positivity
  have s1' : dataInfoError u tiny big .logisticLogit raw b β j k ≤ 228 / 10 * (q * U) := by linarith
  have hr : ridgeMat (real l2) (fun _ => 1) b j k = (0 : ℝ) := by
    have : ridgeMat (real l2) (fun _ : Fin p => 1) b = Matrix.diagonal (strength b (real l2)) := by
      unfold ridgeMat strength
      simp only [one_pow, mul_one]
    rw [this, Matrix.diagonal_apply, strength_zero (not_lt.mp h2), ite_self]
  have hex : exactInfo .logisticLogit raw b (real l2) β j k
      = ∑ i, exactDesign raw b i j * totalWt (exactData raw) i * rowInfo .logisticLogit raw b β i
          * exactDesign raw b i k := by
    unfold exactInfo
    rw [hr, add_zero, exact_fisher]
  have hsz : |exactInfo .logisticLogit raw b (real l2) β j k| ≤ 1 / 4 * U := by
    rw [hex]
    refine (Finset.abs_sum_le_sum_abs _ _).trans (s2.trans (le_of_eq (by ring)))
  have hE0 : 0 ≤ dataInfoError u tiny big .logisticLogit raw b β j k := by
    have h1 : 0 ≤ infoTermError u tiny big .logisticLogit raw b β j k :=
      Finset.sum_nonneg fun i _ => mul_nonneg (hterm i).2.1 (abs_nonneg _)
    have h2 : 0 ≤ infoSize .logisticLogit raw b β j k := Finset.sum_nonneg fun _ _ => abs_nonneg _
    exact add_nonneg h1 (sumError_nonneg hu ht (by positivity))
  have hb := h.big_sq
  have R := rounding_le (S := U) (a := 228 / 10) (m := 1 / 4) hu q1 huq (by norm_num) hU0
    (by
      have := le_mul_of_one_le_right q0 hU1
      linarith) s1' hsz (tiny := tiny)
  refine ⟨⟨fun w hw => by simp [h.weights] at hw, fun w hw => by simp [h.freqs] at hw, f2,
    fun i => (h.pred acc i).1, fun i => (h.info acc i).1, fun i => ?_, fun i => ?_,
    fun i => (hterm i).1, ?_, ?_⟩, hE0.trans (rounded_ge hu ht hE0), ?_, hsz⟩
  · rw [(h.wt i).1, mul_one]
    have := h.entries i j
    linarith
  · rw [(h.wt i).2.2, mul_one]
    have := h.entries i j
    have := (hcol i).2
    have : q * X ≤ 1 / 1000 * X := mul_le_mul_of_nonneg_right hq1 hX0
    linarith
  · linarith
  · linarith
  · refine le_trans R ?_
    linarith

/-- Wald's statistic. -/
theorem wald {δ : ℝ} (h : ModerateDesign u tiny big M X D raw b α) (acc : Accurate fmt u tiny big)
    (hs : ModerateShift fmt u tiny big X δ D n β α) {l2 : Fl fmt} (f2 : l2.isFinite) (h2 : ¬ 0 < real l2) :
    WaldFits u tiny big .logisticLogit raw b l2 β α ∧
    waldError u tiny big .logisticLogit raw b (real l2) β α ≤
      29 * (D * u * (M + 1)) * ((ncols b p : ℝ) ^ 2 * (n * X ^ 2) * δ ^ 2) := by
  obtain ⟨q0, q1, q2, q3⟩ := h.units acc
  have hu := acc.u_nonneg
  have ht := acc.tiny_nonneg
  have hq1 := h.small
  have hX := h.one_le
  have huq : u ≤ 1 / 1000 := q1.trans hq1
  have hn : (1 : ℝ) ≤ n := by exact_mod_cast h.rows
  have hk : (1 : ℝ) ≤ (ncols b p : ℝ) := by exact_mod_cast hs.cols
  have hδ : 0 ≤ δ := (abs_nonneg _).trans (hs.shift ⟨0, hs.cols⟩)
  have hF := h.fisher acc f2 h2
  set q := D * u * (M + 1) with hq
  have hU1 : 1 ≤ n * X ^ 2 := by nlinarith
  have hbr := hs.big_row
  have hbs := hs.big_sq
  set U := n * X ^ 2 with hU
  have hU0 : 0 ≤ U := by linarith
  have t1 := hs.tiny_le
  have t2 := hs.tiny_sq
  -- the shift
  have hd : ∀ j, 0 ≤ afterRounding u tiny 0 (shiftAt β α j) ∧
      afterRounding u tiny 0 (shiftAt β α j) ≤ 2 * (q * δ) := by
    intro j
    refine ⟨rounded_ge hu ht le_rfl, ?_⟩
    have := rounding_le (S := δ) (a := 0) (m := 1) hu q1 huq le_rfl hδ
      (t1.trans (mul_le_mul_of_nonneg_right q1 hδ)) (by linarith) (by rw [one_mul]; exact hs.shift j)
      (e := 0) (v := shiftAt β α j)
    linarith
  have hUδ : δ ≤ U * δ := le_mul_of_one_le_left hδ hU1
  -- the rows
  have hrow := fun j : Fin (ncols b p) => dot_le (fmt := fmt) (site := .matVec (ncols b p) j) (N := ncols b p)
    (D := D) (e := fisherError u tiny big .logisticLogit raw b (real l2) α j)
    (d := fun k => afterRounding u tiny 0 (shiftAt β α k))
    (v := exactInfo .logisticLogit raw b (real l2) α j) (w := shiftAt β α)
    (a := 25) (c := 2) (m := 1 / 4) (l := 1) (S := U) (T := δ) (tiny := tiny) hu q2 hq1 ht (hs.depth j)
    (hs.ops j) hs.cols (by norm_num) (by norm_num) (by norm_num) (by norm_num) hU0 hδ
    (fun k => (hF j k).2.1) (fun k => (hd k).1) (t1.trans (mul_le_mul_of_nonneg_left hUδ hu))
    (fun k => (hF j k).2.2.1) (fun k => (hd k).2) (fun k => (hF j k).2.2.2)
    (fun k => by rw [one_mul]; exact hs.shift k)
  set K : ℝ := (ncols b p : ℝ) with hK
  set R := K * (U * δ) with hR
  have hR0 : 0 ≤ R := by positivity
  have hqR : q * R ≤ 1 / 1000 * R := mul_le_mul_of_nonneg_right hq1 hR0
  have hqR0 : 0 ≤ q * R := by positivity
  have hrowE : ∀ j, 0 ≤ waldRowError u tiny big .logisticLogit raw b (real l2) β α j ∧
      waldRowError u tiny big .logisticLogit raw b (real l2) β α j ≤ 27 * (q * R) := by
    intro j
    have h1 := (hrow j).1
    refine ⟨?_, by unfold waldRowError; linarith⟩
    unfold waldRowError dotError
    have hE : 0 ≤ ∑ k, (fisherError u tiny big .logisticLogit raw b (real l2) α j k
        * (|shiftAt β α k| + afterRounding u tiny 0 (shiftAt β α k))
        + |exactInfo .logisticLogit raw b (real l2) α j k| * afterRounding u tiny 0 (shiftAt β α k)) :=
      Finset.sum_nonneg fun k _ => by
        have := (hF j k).2.1
        have := (hd k).1
        positivity
    have hZ : 0 ≤ ∑ k, |exactInfo .logisticLogit raw b (real l2) α j k * shiftAt β α k| :=
      Finset.sum_nonneg fun _ _ => abs_nonneg _
    exact add_nonneg hE (sumError_nonneg hu ht (add_nonneg hZ hE))
  have hrowV : ∀ j, |∑ k, exactInfo .logisticLogit raw b (real l2) α j k * shiftAt β α k| ≤ 1 / 4 * R := by
    intro j
    refine (Finset.abs_sum_le_sum_abs _ _).trans ((hrow j).2.trans (le_of_eq (by ring)))
  -- the total
  have htot := dot_le (fmt := fmt) (site := .dot) (N := ncols b p)
    (D := D) (e := fun k => afterRounding u tiny 0 (shiftAt β α k))
    (d := waldRowError u tiny big .logisticLogit raw b (real l2) β α) (v := shiftAt β α)
    (w := fun j => ∑ k, exactInfo .logisticLogit raw b (real l2) α j k * shiftAt β α k)
    (a := 2) (c := 27) (m := 1) (l := 1 / 4) (S := δ) (T := R) (tiny := tiny) hu q2 hq1 ht hs.dotDepth
    hs.dotOps hs.cols (by norm_num) (by norm_num) (by norm_num) (by norm_num) hδ hR0
    (fun k => (hd k).1) (fun j => (hrowE j).1)
    (by
      have : δ ^ 2 ≤ δ * R := by
        have : δ ≤ R := hUδ.trans (le_mul_of_one_le_left (by positivity) hk)
        nlinarith
      exact t2.trans (mul_le_mul_of_nonneg_left this hu))
    (fun k => (hd k).2) (fun j => (hrowE j).2) (fun k => by rw [one_mul]; exact hs.shift k) hrowV
  obtain ⟨s1, s2⟩ := htot
  have eW : K * (δ * R) = K ^ 2 * U * δ ^ 2 := by rw [hR]; ring
  rw [← hK, eW] at s1 s2
  set W := K ^ 2 * U * δ ^ 2 with hW
  have hW0 : 0 ≤ W := by positivity
  have hqW : q * W ≤ 1 / 1000 * W := mul_le_mul_of_nonneg_right hq1 hW0
  have hqW0 : 0 ≤ q * W := by positivity
  have hWb : W < big := lt_of_eq_of_lt (by rw [hW]; ring) hbs
  refine ⟨⟨hs.finite, fun j => (hs.shift j).trans_lt hs.big_gt, fun j k => (hF j k).1, fun j => ?_, ?_⟩, ?_⟩
  · have h1 := (hrow j).1
    have h2 := (hrow j).2
    unfold DotFits
    linarith
  · unfold DotFits
    linarith
  · unfold waldError
    linarith

/-- The response residual. -/
theorem resid (h : ModerateDesign u tiny big M X D raw b β) (acc : Accurate fmt u tiny big) {i : Fin n}
    (hy : (raw.y i).isFinite) (hy0 : 0 ≤ real (raw.y i)) (hy1 : real (raw.y i) ≤ 1) :
    ResidFits u tiny big .logisticLogit raw b β i ∧
    |rowResid .logisticLogit raw b β i| ≤ 1 ∧
    0 ≤ rowResidError u tiny big .logisticLogit raw b β i ∧
    rowResidError u tiny big .logisticLogit raw b β i ≤ 10 * (D * u * (M + 1)) := by
  obtain ⟨q0, q1, q2, q3⟩ := h.units acc
  have hu := acc.u_nonneg
  have ht := acc.tiny_nonneg
  have htu := h.tiny_le
  have hq1 := h.small
  have hM := h.size_nonneg
  have hb := h.big_size
  have huq : u ≤ 1 / 1000 := q1.trans hq1
  obtain ⟨fi, e0, e1, -, -, -⟩ := h.info acc i
  obtain ⟨m0, m1⟩ := logit_mean_mem (exactPred b raw.x raw.linearOffset β i)
  have hr : |rowResid .logisticLogit raw b β i| ≤ 1 := by
    unfold rowResid rowMean
    rw [abs_le]
    constructor <;> linarith
  have R := rounding_le (S := 1) (a := 73 / 10) (m := 1) hu q1 huq (by norm_num) (by norm_num)
    (by linarith) (by linarith) (by linarith) (e := meanError u tiny big
      (predError u tiny b raw.x raw.linearOffset β i) .logisticLogit
      (exactPred b raw.x raw.linearOffset β i)) (v := rowResid .logisticLogit raw b β i) (tiny := tiny)
  refine ⟨⟨hy, (h.pred acc i).1, trivial, by linarith⟩, hr, e0.trans (rounded_ge hu ht e0), ?_⟩
  refine le_trans R ?_
  linarith

/-- The variance. -/
theorem var (h : ModerateDesign u tiny big M X D raw b β) (acc : Accurate fmt u tiny big) (i : Fin n) :
    0 < rowVar .logisticLogit raw b β i ∧ rowVar .logisticLogit raw b β i ≤ 1 / 4 ∧
    rowInfo .logisticLogit raw b β i = rowVar .logisticLogit raw b β i ∧
    0 ≤ rowVarError u tiny big .logisticLogit raw b β i ∧
    rowVarError u tiny big .logisticLogit raw b β i ≤ 19 * (D * u * (M + 1)) := by
  obtain ⟨-, -, -, i0, i1, i2⟩ := h.info acc i
  obtain ⟨m0, m1⟩ := logit_mean_mem (exactPred b raw.x raw.linearOffset β i)
  have e : rowInfo .logisticLogit raw b β i = rowVar .logisticLogit raw b β i := by
    change (1 : ℝ) ^ 2 * rowVar .logisticLogit raw b β i = _
    ring
  have hp : 0 < rowVar .logisticLogit raw b β i := mul_pos m0 (by unfold rowMean; linarith)
  refine ⟨hp, ?_, e, i0, i1⟩
  rwa [e, abs_of_pos hp] at i2

/-- The working residual. -/
theorem working (h : ModerateDesign u tiny big M X D raw b β) (acc : Accurate fmt u tiny big) {i : Fin n}
    (hy : (raw.y i).isFinite) (hy0 : 0 ≤ real (raw.y i)) (hy1 : real (raw.y i) ≤ 1)
    (hV : 40 * (D * u * (M + 1)) ≤ rowVar .logisticLogit raw b β i)
    (hbV : 2 / rowVar .logisticLogit raw b β i ^ 2 < big) :
    WorkingFits u tiny big .logisticLogit raw b β i ∧
    workingError u tiny big .logisticLogit raw b β i ≤
      45 * (D * u * (M + 1)) / rowVar .logisticLogit raw b β i ^ 2 := by
  obtain ⟨q0, q1, q2, q3⟩ := h.units acc
  have hu := acc.u_nonneg
  have ht := acc.tiny_nonneg
  have htu := h.tiny_le
  have hq1 := h.small
  have huq : u ≤ 1 / 1000 := q1.trans hq1
  obtain ⟨fr, r1, e0, e1⟩ := h.resid acc hy hy0 hy1
  obtain ⟨V0, V1, eI, -, -⟩ := h.var acc i
  obtain ⟨fi, -, -, d0, d1, -⟩ := h.info acc i
  have hwork : rowWork .logisticLogit raw b β i = rowResid .logisticLogit raw b β i := by
    change 1 * rowResid .logisticLogit raw b β i = _
    rw [one_mul]
  have hworkE : rowWorkError u tiny big .logisticLogit raw b β i
      = rowResidError u tiny big .logisticLogit raw b β i := rfl
  have hM := h.size_nonneg
  have hb := h.big_size
  have hQ := inverse_unit q0 V0 V1 hV r1 e1 d0 d1
  set q := D * u * (M + 1) with hq
  set V := rowVar .logisticLogit raw b β i with hVd
  have g1 : 16 ≤ 1 / V ^ 2 := by
    rw [le_div_iff₀ (by positivity)]
    nlinarith
  have R := rounding_le (S := 1 / V ^ 2) (a := 431 / 10) (m := 1 / 4) hu q1 huq (by norm_num) (by positivity)
    (by nlinarith) hQ.2.1 hQ.2.2 (tiny := tiny)
  refine ⟨⟨fr, fi, ?_, ?_⟩, ?_⟩
  · rw [hwork, hworkE]
    linarith
  · rw [hwork, hworkE, eI]
    refine ⟨?_, ?_⟩
    · rw [abs_of_pos V0]; exact hQ.1
    · have := hQ.2.1
      have := hQ.2.2
      have h3 : q * (1 / V ^ 2) ≤ 1 / 1000 * (1 / V ^ 2) := mul_le_mul_of_nonneg_right hq1 (by positivity)
      have h4 : 2 / V ^ 2 = 2 * (1 / V ^ 2) := by ring
      rw [h4] at hbV
      linarith
  · unfold workingError
    rw [hwork, hworkE, eI]
    have h4 : 45 * q / V ^ 2 = 45 * (q * (1 / V ^ 2)) := by ring
    rw [h4]
    have : 0 ≤ q * (1 / V ^ 2) := by positivity
    have R' : overError u tiny (rowResidError u tiny big .logisticLogit raw b β i)
        (rowInfoError u tiny big .logisticLogit raw b β i) (rowResid .logisticLogit raw b β i) V ≤ _ := R
    refine R'.trans ?_
    linarith

/-- The Pearson residual. -/
theorem pearson (h : ModerateDesign u tiny big M X D raw b β) (acc : Accurate fmt u tiny big) {i : Fin n}
    (hy : (raw.y i).isFinite) (hy0 : 0 ≤ real (raw.y i)) (hy1 : real (raw.y i) ≤ 1)
    (hV : 50 * (D * u * (M + 1)) ≤ rowVar .logisticLogit raw b β i)
    (hbV : 2 / rowVar .logisticLogit raw b β i ^ 2 < big) :
    PearsonFits u tiny big .logisticLogit raw b β i ∧
    pearsonError u tiny big .logisticLogit raw b β i ≤
      52 * (D * u * (M + 1)) / Real.sqrt (rowVar .logisticLogit raw b β i) ^ 3 := by
  obtain ⟨q0, q1, q2, q3⟩ := h.units acc
  have hu := acc.u_nonneg
  have ht := acc.tiny_nonneg
  have htu := h.tiny_le
  have hq1 := h.small
  have huq : u ≤ 1 / 1000 := q1.trans hq1
  obtain ⟨fr, r1, e0, e1⟩ := h.resid acc hy hy0 hy1
  obtain ⟨V0, V1, -, d0, d1⟩ := h.var acc i
  obtain ⟨fi, -, -, -, -, -⟩ := h.info acc i
  have hw := (h.wt i).2.1
  obtain ⟨c1, c2, c3, c4, c5, c6⟩ := pearson_unit hu q1 hq1 ht htu V0 V1 hV hbV r1 e0 e1 d0 d1
  refine ⟨⟨fr, fun w hw => by simp [h.weights] at hw, fi.2.2.1, V0, by rw [hw]; exact zero_le_one, c1, ?_, ?_,
    ?_, ?_⟩, ?_⟩
  · rw [hw, abs_one, one_mul, one_mul]; exact c2
  · unfold pearScaleError
    rw [hw, abs_one, one_mul, one_mul]; exact c3
  · unfold pearRoot pearScaleError
    rw [hw, abs_one, one_mul, one_mul]; exact c4
  · unfold pearRootError pearRoot pearScaleError
    rw [hw, abs_one, one_mul, one_mul]; exact c5
  · unfold pearsonError pearRootError pearRoot pearScaleError
    rw [hw, abs_one, one_mul, one_mul]; exact c6

end Spec.ModerateDesign

variable {env : Env (Fl fmt)} {options : FitOptions (Fl fmt) (ncols b p)} {f : Fit (Fl fmt) n p b}

/-- **C105** (in simple terms).  Logistic regression without weights, frequencies and penalties. -/
theorem C105_moderate (acc : Accurate fmt u tiny big) (hd : raw.finalize false b = some data)
    (h : regression env Family.logisticLogit.glm data options = .ok f) (f1 : options.l1.isFinite)
    (h1 : ¬ 0 < real options.l1) (f2 : options.l2.isFinite) (h2 : ¬ 0 < real options.l2) :
    (∀ β, ModerateDesign u tiny big M X D raw b β → ∀ j k, (f.fisher β j k).isFinite ∧
      |real (f.fisher β j k) - exactInfo .logisticLogit raw b (real options.l2) β j k|
        ≤ 25 * (D * u * (M + 1) * (n * X ^ 2))) ∧
    (∀ α δ, ModerateDesign u tiny big M X D raw b α → ModerateShift fmt u tiny big X δ D n f.result α →
      (f.waldTestAgainst α).isFinite ∧
      |real (f.waldTestAgainst α) - exactWald .logisticLogit raw b (real options.l2) f.result α|
        ≤ 29 * (D * u * (M + 1)) * ((ncols b p : ℝ) ^ 2 * (n * X ^ 2) * δ ^ 2)) ∧
    (ModerateDesign u tiny big M X D raw b f.result → ∀ i, (raw.y i).isFinite → 0 ≤ real (raw.y i) →
      real (raw.y i) ≤ 1 →
      ((f.residResp i).isFinite ∧
        |real (f.residResp i) - rowResid .logisticLogit raw b f.result i| ≤ 10 * (D * u * (M + 1))) ∧
      ∀ V, V = rowVar .logisticLogit raw b f.result i → 50 * (D * u * (M + 1)) ≤ V → 2 / V ^ 2 < big →
        ((f.residPear i).isFinite ∧
          |real (f.residPear i) - exactPearson .logisticLogit raw b f.result i|
            ≤ 52 * (D * u * (M + 1)) / Real.sqrt V ^ 3) ∧
        ((f.residWork i).isFinite ∧
          |real (f.residWork i) - exactWorking .logisticLogit raw b f.result i|
            ≤ 45 * (D * u * (M + 1)) / V ^ 2)) := by
  refine ⟨fun β hm j k => ?_, fun α δ hm hs => ?_, fun hm i hy hy0 hy1 => ⟨?_, fun V hVe hV hb => ?_⟩⟩
  · obtain ⟨g1, -, g2, -⟩ := hm.fisher acc f2 h2 j k
    obtain ⟨k1, k2⟩ := C105_fisher acc hd h f1 h1 g1
    exact ⟨k1, k2.trans g2⟩
  · obtain ⟨g1, g2⟩ := hm.wald acc hs f2 h2
    obtain ⟨k1, k2⟩ := C105_wald acc hd h f1 h1 g1
    exact ⟨k1, k2.trans g2⟩
  · obtain ⟨g1, -, -, g2⟩ := hm.resid acc hy hy0 hy1
    obtain ⟨k1, k2⟩ := C105_resp acc hd h g1
    exact ⟨k1, k2.trans g2⟩
  · subst hVe
    obtain ⟨g1, g2⟩ := hm.pearson acc hy hy0 hy1 hV hb
    have q0 := (hm.units acc).1
    obtain ⟨l1, l2⟩ := hm.working acc hy hy0 hy1 (by linarith) hb
    obtain ⟨k1, k2⟩ := C105_pearson acc hd h g1
    obtain ⟨m1, m2⟩ := C105_working acc hd h l1
    exact ⟨⟨k1, k2.trans g2⟩, ⟨m1, m2.trans l2⟩⟩

end

/-! ### `f64` -/

section
variable {order : SumSite → (n : ℕ) → SumOrder n} {n p D : ℕ} {b : Bool} {M X δ : ℝ}
  {raw : Dataset (Fl (binary64 order)) n p false} {data : Dataset (Fl (binary64 order)) n p b}
  {env : Env (Fl (binary64 order))} {options : FitOptions (Fl (binary64 order)) (ncols b p)}
  {f : Fit (Fl (binary64 order)) n p b} {β α : Vec (Fl (binary64 order)) (ncols b p)}

theorem Spec.PlainDesign.moderate (h : PlainDesign order M X D raw b β) :
    ModerateDesign (2 ^ (-53 : ℤ)) (2 ^ (-1075 : ℤ)) (2 ^ (1023 : ℤ)) M X D raw b β := by
  have hu : (2 : ℝ) ^ (-53 : ℤ) = 1 / 2 ^ 53 := by norm_num [_root_.zpow_neg]
  have hD : (1 : ℝ) ≤ D := by exact_mod_cast h.pos
  have hM0 : 0 ≤ M := (predSize_nonneg' (b := b) (x := raw.x) (off := raw.linearOffset) (β := β)
    (i := ⟨0, h.rows⟩)).trans (h.size _)
  have hM : M + 1 ≤ 2 ^ 43 := (le_mul_of_one_le_left (by linarith) hD).trans h.small
  have hn : (n : ℝ) ≤ 2 ^ 40 := by exact_mod_cast h.rows_le
  have hX0 : 0 ≤ X := by linarith [h.one_le]
  refine ⟨h.weights, h.freqs, h.x, h.coef, h.offset, h.entries, h.size, h.depth_pred, h.ops_pred, h.depth,
    h.ops, h.rows, h.pos, h.one_le, ?_, zpow_le_zpow_right₀ (by norm_num) (by norm_num), ?_, ?_, ?_⟩
  · rw [hu]
    have := h.small
    have e : (D : ℝ) * (1 / 2 ^ 53) * (M + 1) = D * (M + 1) / 2 ^ 53 := by ring
    rw [e, div_le_iff₀ (by norm_num)]
    refine this.trans (by norm_num)
  · rw [← zpow_add₀ (by norm_num)]
    calc (2 : ℝ) = 2 ^ (1 : ℤ) := by norm_num
      _ ≤ 2 ^ (-53 + 1023 : ℤ) := zpow_le_zpow_right₀ (by norm_num) (by norm_num)
  · calc M + 4 < 2 ^ (44 : ℤ) := by
          have : (2 : ℝ) ^ (44 : ℤ) = 2 ^ 44 := by norm_num
          rw [this]; linarith
      _ ≤ 2 ^ (1023 : ℤ) := zpow_le_zpow_right₀ (by norm_num) (by norm_num)
  · have hX2 : X ^ 2 ≤ ((2 : ℝ) ^ (100 : ℤ)) ^ 2 := pow_le_pow_left₀ hX0 h.entries_le 2
    calc 2 * (n * X ^ 2) ≤ 2 * (2 ^ 40 * ((2 : ℝ) ^ (100 : ℤ)) ^ 2) := by gcongr
      _ = 2 ^ (241 : ℤ) := by norm_num
      _ < 2 ^ (1023 : ℤ) := zpow_lt_zpow_right₀ (by norm_num) (by norm_num)

theorem Spec.PlainShift.moderate (h : PlainShift order δ D β α) (hX : X ≤ (2 : ℝ) ^ (100 : ℤ)) (hX1 : 1 ≤ X)
    (hn : n ≤ 2 ^ 40) :
    ModerateShift (binary64 order) (2 ^ (-53 : ℤ)) (2 ^ (-1075 : ℤ)) (2 ^ (1023 : ℤ)) X δ D n β α := by
  have hδ0 : 0 < δ := lt_of_lt_of_le (by positivity) h.shift_ge
  have hn : (n : ℝ) ≤ 2 ^ 40 := by exact_mod_cast hn
  have hk : (ncols b p : ℝ) ≤ 2 ^ 40 := by exact_mod_cast h.cols_le
  have hX0 : 0 ≤ X := by linarith
  have hδ := h.shift_le
  have hX2 : X ^ 2 ≤ ((2 : ℝ) ^ (100 : ℤ)) ^ 2 := pow_le_pow_left₀ hX0 hX 2
  refine ⟨h.finite, h.shift, h.cols, h.depth, h.ops, h.dotDepth, h.dotOps, ?_, ?_, ?_, ?_, ?_⟩
  · calc (2 : ℝ) ^ (-1075 : ℤ) ≤ 2 ^ (-453 : ℤ) := zpow_le_zpow_right₀ (by norm_num) (by norm_num)
      _ = 2 ^ (-53 : ℤ) * 2 ^ (-400 : ℤ) := by rw [← zpow_add₀ (by norm_num)]; norm_num
      _ ≤ _ := mul_le_mul_of_nonneg_left h.shift_ge (by positivity)
  · calc (2 : ℝ) ^ (-1075 : ℤ) ≤ 2 ^ (-853 : ℤ) := zpow_le_zpow_right₀ (by norm_num) (by norm_num)
      _ = 2 ^ (-53 : ℤ) * (2 ^ (-400 : ℤ)) ^ 2 := by
        rw [← zpow_natCast, ← _root_.zpow_mul, ← zpow_add₀ (by norm_num)]; norm_num
      _ ≤ _ := mul_le_mul_of_nonneg_left (pow_le_pow_left₀ (by positivity) h.shift_ge 2) (by positivity)
  · exact h.shift_le.trans_lt (zpow_lt_zpow_right₀ (by norm_num) (by norm_num))
  · calc (ncols b p : ℝ) * (n * X ^ 2 * δ) ≤ 2 ^ 40 * (2 ^ 40 * ((2 : ℝ) ^ (100 : ℤ)) ^ 2 * 2 ^ (100 : ℤ)) := by
          gcongr
      _ = 2 ^ (380 : ℤ) := by
        simp only [← zpow_natCast (2 : ℝ), ← _root_.zpow_mul, ← zpow_natCast, ← zpow_add₀ (two_ne_zero (α := ℝ))]
        norm_num only
      _ < 2 ^ (1023 : ℤ) := zpow_lt_zpow_right₀ (by norm_num) (by norm_num)
  · calc (ncols b p : ℝ) ^ 2 * (n * X ^ 2 * δ ^ 2)
          ≤ (2 ^ 40) ^ 2 * (2 ^ 40 * ((2 : ℝ) ^ (100 : ℤ)) ^ 2 * ((2 : ℝ) ^ (100 : ℤ)) ^ 2) := by
          gcongr
      _ = 2 ^ (520 : ℤ) := by
        simp only [← zpow_natCast (2 : ℝ), ← _root_.zpow_mul, ← zpow_natCast, ← zpow_add₀ (two_ne_zero (α := ℝ))]
        norm_num only
      _ < 2 ^ (1023 : ℤ) := zpow_lt_zpow_right₀ (by norm_num) (by norm_num)

/-- **C105** (f64).  Logistic regression in `f64` without weights, frequencies and penalties. -/
theorem C105_f64 (hd : raw.finalize false b = some data)
    (h : regression env Family.logisticLogit.glm data options = .ok f) (f1 : options.l1.isFinite)
    (h1 : ¬ 0 < real options.l1) (f2 : options.l2.isFinite) (h2 : ¬ 0 < real options.l2) :
    (∀ β, PlainDesign order M X D raw b β → ∀ j k, (f.fisher β j k).isFinite ∧
      |real (f.fisher β j k) - exactInfo .logisticLogit raw b (real options.l2) β j k|
        ≤ 25 * (D * (M + 1) * (n * X ^ 2)) / 2 ^ 53) ∧
    (∀ α δ, PlainDesign order M X D raw b α → PlainShift order δ D f.result α →
      (f.waldTestAgainst α).isFinite ∧
      |real (f.waldTestAgainst α) - exactWald .logisticLogit raw b (real options.l2) f.result α|
        ≤ 29 * (D * (M + 1)) * ((ncols b p : ℝ) ^ 2 * (n * X ^ 2) * δ ^ 2) / 2 ^ 53) ∧
    (PlainDesign order M X D raw b f.result → ∀ i, (raw.y i).isFinite → 0 ≤ real (raw.y i) →
      real (raw.y i) ≤ 1 →
      ((f.residResp i).isFinite ∧
        |real (f.residResp i) - rowResid .logisticLogit raw b f.result i| ≤ 10 * (D * (M + 1)) / 2 ^ 53) ∧
      ∀ V, V = rowVar .logisticLogit raw b f.result i → 50 * (D * (M + 1)) / 2 ^ 53 ≤ V →
        (2 : ℝ) ^ (-500 : ℤ) ≤ V →
        ((f.residPear i).isFinite ∧
          |real (f.residPear i) - exactPearson .logisticLogit raw b f.result i|
            ≤ 52 * (D * (M + 1)) / (Real.sqrt V ^ 3 * 2 ^ 53)) ∧
        ((f.residWork i).isFinite ∧
          |real (f.residWork i) - exactWorking .logisticLogit raw b f.result i|
            ≤ 45 * (D * (M + 1)) / (V ^ 2 * 2 ^ 53))) := by
  have acc := accurate_binary64 order
  have hu : (2 : ℝ) ^ (-53 : ℤ) = 1 / 2 ^ 53 := by norm_num [_root_.zpow_neg]
  obtain ⟨k1, k2, k3⟩ := C105_moderate (M := M) (X := X) (D := D) acc hd h f1 h1 f2 h2
  rw [hu] at k1 k2 k3
  refine ⟨fun β hm j k => ?_, fun α δ hm hs => ?_, fun hm i hy hy0 hy1 => ?_⟩
  · obtain ⟨l1, l2⟩ := k1 β (by rw [← hu]; exact hm.moderate) j k
    exact ⟨l1, l2.trans (le_of_eq (by ring))⟩
  · obtain ⟨l1, l2⟩ := k2 α δ (by rw [← hu]; exact hm.moderate)
      (by rw [← hu]; exact hs.moderate hm.entries_le hm.one_le hm.rows_le)
    exact ⟨l1, l2.trans (le_of_eq (by ring))⟩
  · obtain ⟨⟨l1, l2⟩, l3⟩ := k3 (by rw [← hu]; exact hm.moderate) i hy hy0 hy1
    refine ⟨⟨l1, l2.trans (le_of_eq (by ring))⟩, fun V hV h50 hVb => ?_⟩
    have hV0 : 0 < V := lt_of_lt_of_le (by positivity) hVb
    obtain ⟨⟨m1, m2⟩, m3, m4⟩ := l3 V hV (le_trans (le_of_eq (by ring)) h50) (by
      rw [div_lt_iff₀ (by positivity)]
      calc (2 : ℝ) = 2 ^ (1 : ℤ) := by norm_num
        _ < 2 ^ (1023 : ℤ) * (2 ^ (-500 : ℤ)) ^ 2 := by
          rw [← zpow_natCast, ← _root_.zpow_mul, ← zpow_add₀ (by norm_num)]
          exact zpow_lt_zpow_right₀ (by norm_num) (by norm_num)
        _ ≤ 2 ^ (1023 : ℤ) * V ^ 2 :=
          mul_le_mul_of_nonneg_left (pow_le_pow_left₀ (by positivity) hVb 2) (by positivity))
    exact ⟨⟨m1, m2.trans (le_of_eq (by rw [mul_comm (Real.sqrt V ^ 3), div_mul_eq_div_div]; ring))⟩,
      m3, m4.trans (le_of_eq (by rw [mul_comm (V ^ 2), div_mul_eq_div_div]; ring))⟩

end
end GLM
