/-
  The alternating direction method with residual balancing for one feature and an intercept: what one
  iteration does to approximately known iterates.
-/
import Verif.Lemmas.AdmmLinear

namespace GLM

/-- The iterates for the features `6, 7, 8` with an intercept and L1 strength `3/2`, for responses whose
weighted products with the columns are `3 m` and `21 m + 1`.  The intercept and its split variable are
counted from `m`. -/
structure Orb (eps : ℝ) (x₀ x₁ z₀ z₁ y ρ : ℕ → ℝ) : Prop where
  eps_nonneg : 0 ≤ eps
  rho_pos : ∀ t, 0 < ρ t
  split₀ : ∀ t, z₀ (t + 1) = x₀ t
  sub_le : ∀ t, |y t| ≤ 3 / 2
  sub_eq : ∀ t, y t * z₁ t = 3 / 2 * |z₁ t|
  dual : ∀ t, y (t + 1) = y t + ρ t * (x₁ t - z₁ (t + 1))
  step₀ : ∀ t, 3 * x₀ (t + 1) + 21 * x₁ (t + 1)
    + eps * (3 * (x₀ (t + 1) - x₀ t) + 21 * (x₁ (t + 1) - x₁ t))
    + ρ t * (x₀ (t + 1) - z₀ (t + 1)) = 0
  step₁ : ∀ t, 21 * x₀ (t + 1) + 149 * x₁ (t + 1)
    + eps * (21 * (x₀ (t + 1) - x₀ t) + 149 * (x₁ (t + 1) - x₁ t))
    + y (t + 1) + ρ t * (x₁ (t + 1) - z₁ (t + 1)) = 1
  balance : ∀ t, 0 < t → ρ (t + 1) =
    if 64 * (ρ t ^ 2 * ((z₀ (t + 1) - z₀ t) ^ 2 + (z₁ (t + 1) - z₁ t) ^ 2))
      < (x₀ t - z₀ (t + 1)) ^ 2 + (x₁ t - z₁ (t + 1)) ^ 2 then 2 * ρ t
    else if 64 * ((x₀ t - z₀ (t + 1)) ^ 2 + (x₁ t - z₁ (t + 1)) ^ 2)
      < ρ t ^ 2 * ((z₀ (t + 1) - z₀ t) ^ 2 + (z₁ (t + 1) - z₁ t) ^ 2) then ρ t / 2 else ρ t

namespace Orb
variable {eps : ℝ} {x₀ x₁ z₀ z₁ y ρ : ℕ → ℝ}

/-- The price of moving hardly matters. -/
theorem perturb {eps r d₀ d₁ s₀ s₁ N : ℝ} (he : 0 ≤ eps) (hr : 0 ≤ r) (hN : 0 ≤ N)
    (h0 : (1 + eps) * (3 * d₀ + 21 * d₁) + r * d₀ = s₀)
    (h1 : (1 + eps) * (21 * d₀ + 149 * d₁) + r * d₁ = s₁) (hs : s₀ ^ 2 + s₁ ^ 2 ≤ N ^ 2) :
    |eps * (3 * d₀ + 21 * d₁)| ≤ eps * N ∧ |eps * (21 * d₀ + 149 * d₁)| ≤ eps * N := by
  have key : (3 * d₀ + 21 * d₁) ^ 2 + (21 * d₀ + 149 * d₁) ^ 2 ≤ N ^ 2 := by
    refine le_trans ?_ hs
    subst h0 h1
    have hq : 0 ≤ (3 * d₀ + 21 * d₁) * d₀ + (21 * d₀ + 149 * d₁) * d₁ := by
      nlinarith [sq_nonneg (d₀ + 7 * d₁), sq_nonneg d₁]
    have h2 := mul_nonneg (mul_nonneg (by linarith : (0 : ℝ) ≤ 1 + eps) hr) hq
    have h3 := mul_nonneg (sq_nonneg r) (add_nonneg (sq_nonneg d₀) (sq_nonneg d₁))
    have h4 := mul_nonneg (by nlinarith : (0 : ℝ) ≤ (1 + eps) ^ 2 - 1)
      (add_nonneg (sq_nonneg (3 * d₀ + 21 * d₁)) (sq_nonneg (21 * d₀ + 149 * d₁)))
    nlinarith
  constructor
  · rw [abs_mul, abs_of_nonneg he]
    refine mul_le_mul_of_nonneg_left (abs_le_of_sq_le_sq ?_ hN) he
    nlinarith [sq_nonneg (21 * d₀ + 149 * d₁)]
  · rw [abs_mul, abs_of_nonneg he]
    refine mul_le_mul_of_nonneg_left (abs_le_of_sq_le_sq ?_ hN) he
    nlinarith [sq_nonneg (3 * d₀ + 21 * d₁)]

theorem abs_le_of_mul {a v δ : ℝ} (ha : 0 < a) (h : |a * v| ≤ a * δ) : |v| ≤ δ := by
  rw [abs_mul, abs_of_pos ha] at h
  exact le_of_mul_le_mul_left h ha

theorem prod_bound {s E : ℝ} (h0 : 0 ≤ s) (h1 : s ≤ 151) (hE : -3e-13 ≤ E ∧ E ≤ 3e-13) :
    -(151 * 3e-13) ≤ s * E ∧ s * E ≤ 151 * 3e-13 := by
  constructor <;> nlinarith [hE.1, hE.2]

/-- The coefficients of the next iterate, if the quantities they are computed from are known
approximately. -/
theorem solve (o : Orb eps x₀ x₁ z₀ z₁ y ρ) (heps : eps ≤ 1e-15) {t : ℕ} {r : ℝ} (hr : ρ t = r)
    (hr2 : r ≤ 2)
    (b₀ : |x₀ t| ≤ 4) (b₁ : |x₁ t| ≤ 1) {X₀ W X₀' X₁' dx dw κ δ' : ℝ} (h0 : |x₀ t - X₀| ≤ dx)
    (hw : |y (t + 1) - r * z₁ (t + 1) - W| ≤ dw)
    (k₀ : |((3 + r) * (149 + r) - 441) * X₀' - ((149 + r) * (r * X₀) - 21 * (1 - W))| ≤ κ)
    (k₁ : |((3 + r) * (149 + r) - 441) * X₁' - ((3 + r) * (1 - W) - 21 * (r * X₀))| ≤ κ)
    (l₀ : κ + (149 + r) * (r * dx) + 21 * dw + 1e-10 ≤ ((3 + r) * (149 + r) - 441) * δ')
    (l₁ : κ + (3 + r) * dw + 21 * (r * dx) + 1e-10 ≤ ((3 + r) * (149 + r) - 441) * δ') :
    |x₀ (t + 1) - X₀'| ≤ δ' ∧ |x₁ (t + 1) - X₁'| ≤ δ' := by
  subst hr
  have hρ := o.rho_pos t
  set r := ρ t with hrdef
  have e0 := o.step₀ t
  have e1 := o.step₁ t
  have e2 := o.dual t
  have e3 := o.split₀ t
  have s1 := abs_le.mp (o.sub_le t)
  have s2 := abs_le.mp (o.sub_le (t + 1))
  rw [abs_le] at b₀ b₁
  have hp := perturb (N := 300) o.eps_nonneg hρ.le (by norm_num)
    (d₀ := x₀ (t + 1) - x₀ t) (d₁ := x₁ (t + 1) - x₁ t)
    (s₀ := - (3 * x₀ t + 21 * x₁ t))
    (s₁ := 1 - (21 * x₀ t + 149 * x₁ t) - y (t + 1) - (y (t + 1) - y t))
    (by rw [e3] at e0; linear_combination e0)
    (by linear_combination e1 + e2)
    (by
      have g0 : |-(3 * x₀ t + 21 * x₁ t)| ≤ 40 := abs_le.mpr ⟨by linarith, by linarith⟩
      have g1 : |1 - (21 * x₀ t + 149 * x₁ t) - y (t + 1) - (y (t + 1) - y t)| ≤ 250 :=
        abs_le.mpr ⟨by linarith, by linarith⟩
      have := sq_le_sq' (abs_le.mp g0).1 (abs_le.mp g0).2
      have := sq_le_sq' (abs_le.mp g1).1 (abs_le.mp g1).2
      linarith)
  have hE : eps * 300 ≤ 3e-13 := by linarith
  obtain ⟨p0, p1⟩ := hp
  replace p0 := abs_le.mp (p0.trans hE)
  replace p1 := abs_le.mp (p1.trans hE)
  set E₀ := eps * (3 * (x₀ (t + 1) - x₀ t) + 21 * (x₁ (t + 1) - x₁ t))
  set E₁ := eps * (21 * (x₀ (t + 1) - x₀ t) + 149 * (x₁ (t + 1) - x₁ t))
  have hdet : 0 < (3 + r) * (149 + r) - 441 := by nlinarith
  rw [abs_le] at h0 hw k₀ k₁
  have f0 : ((3 + r) * (149 + r) - 441) * x₀ (t + 1) = (149 + r) * (r * x₀ t)
      - 21 * (1 - (y (t + 1) - r * z₁ (t + 1))) - (149 + r) * E₀ + 21 * E₁ := by
    rw [e3] at e0
    linear_combination (149 + r) * e0 - 21 * e1
  have f1 : ((3 + r) * (149 + r) - 441) * x₁ (t + 1) = (3 + r) * (1 - (y (t + 1) - r * z₁ (t + 1)))
      - 21 * (r * x₀ t) - (3 + r) * E₁ + 21 * E₀ := by
    rw [e3] at e0
    linear_combination (3 + r) * e1 - 21 * e0
  have hE0 := prod_bound (by linarith : 0 ≤ 149 + r) (by linarith : 149 + r ≤ 151) p0
  have hE1 := prod_bound (by linarith : 0 ≤ 3 + r) (by linarith : 3 + r ≤ 151) p1
  have q5 : (149 + r) * (r * (x₀ t - X₀)) ≤ (149 + r) * (r * dx) :=
    mul_le_mul_of_nonneg_left (mul_le_mul_of_nonneg_left h0.2 hρ.le) (by linarith)
  have q6 : (149 + r) * (r * -dx) ≤ (149 + r) * (r * (x₀ t - X₀)) :=
    mul_le_mul_of_nonneg_left (mul_le_mul_of_nonneg_left h0.1 hρ.le) (by linarith)
  have q7 : r * (x₀ t - X₀) ≤ r * dx := mul_le_mul_of_nonneg_left h0.2 hρ.le
  have q8 : r * -dx ≤ r * (x₀ t - X₀) := mul_le_mul_of_nonneg_left h0.1 hρ.le
  have q9 : (3 + r) * (y (t + 1) - r * z₁ (t + 1) - W) ≤ (3 + r) * dw :=
    mul_le_mul_of_nonneg_left hw.2 (by linarith)
  have q10 : (3 + r) * -dw ≤ (3 + r) * (y (t + 1) - r * z₁ (t + 1) - W) :=
    mul_le_mul_of_nonneg_left hw.1 (by linarith)
  constructor
  · refine abs_le_of_mul hdet ?_
    rw [mul_sub, f0, abs_le]
    clear f0 f1 e0 e1 e2 e3 s1 s2 b₀ b₁ k₁ l₁ q9 q10
    constructor <;> linarith
  · refine abs_le_of_mul hdet ?_
    rw [mul_sub, f1, abs_le]
    clear f0 f1 e0 e1 e2 e3 s1 s2 b₀ b₁ k₀ l₀ q5 q6
    constructor <;> linarith

/-- The iterates before iteration `t` are close to given ones. -/
structure Close (x₀ x₁ z₀ z₁ y ρ : ℕ → ℝ) (t : ℕ) (r δ η X₀ X₁ Z₀ Z₁ Y : ℝ) : Prop where
  rho : ρ t = r
  coef₀ : |x₀ t - X₀| ≤ δ
  coef₁ : |x₁ t - X₁| ≤ δ
  split₀ : |z₀ t - Z₀| ≤ δ
  split₁ : |z₁ t - Z₁| ≤ δ
  mult : |y t - Y| ≤ η

theorem abs_near {v V e : ℝ} (h : |v - V| ≤ e) : |v| ≤ |V| + e := by
  have := abs_add_le V (v - V)
  rw [add_sub_cancel] at this
  linarith

theorem low_abs {s v V e w : ℝ} (hs : s ^ 2 = 1) (hv : |v - V| ≤ e) (hw : w ≤ max 0 (s * V - e)) : w ≤ |v| := by
  refine hw.trans (max_le (abs_nonneg v) ?_)
  have hs' : s = 1 ∨ s = -1 := by
    have : (s - 1) * (s + 1) = 0 := by linear_combination hs
    rcases mul_eq_zero.mp this with h | h
    · left; linarith
    · right; linarith
  have h1 := le_abs_self v
  have h2 := neg_le_abs v
  rw [abs_le] at hv
  rcases hs' with rfl | rfl <;> linarith

theorem split_zero {r z y a : ℝ} (hr : 0 < r) (hs : y * z = 3 / 2 * |z|) (he : y + r * z = a)
    (ha : |a| ≤ 3 / 2) : z = 0 := by
  rw [abs_le] at ha
  rcases lt_trichotomy z 0 with hn | hn | hn
  · rw [abs_of_neg hn] at hs
    have h5 : (y + 3 / 2) * z = 0 := by linarith
    rcases mul_eq_zero.mp h5 with h | h
    · have := mul_neg_of_pos_of_neg hr hn
      linarith
    · exact h
  · exact hn
  · rw [abs_of_pos hn] at hs
    have h5 : (y - 3 / 2) * z = 0 := by linarith
    rcases mul_eq_zero.mp h5 with h | h
    · have := mul_pos hr hn
      linarith
    · exact h

theorem split_pos {r z y a : ℝ} (hr : 0 < r) (hs : y * z = 3 / 2 * |z|) (he : y + r * z = a)
    (ha : 3 / 2 ≤ a) (hy : y ≤ 3 / 2) : y = 3 / 2 := by
  rcases lt_trichotomy z 0 with hn | hn | hn
  · have := mul_neg_of_pos_of_neg hr hn
    linarith
  · rw [hn, mul_zero, add_zero] at he
    linarith
  · rw [abs_of_pos hn] at hs
    have h5 : (y - 3 / 2) * z = 0 := by linarith
    rcases mul_eq_zero.mp h5 with h | h <;> linarith

/-- One of the residuals is not small at iteration `t`. -/
def Big (x₀ x₁ z₀ z₁ ρ : ℕ → ℝ) (t : ℕ) : Prop :=
  1 / 1000 ≤ (x₀ t - z₀ (t + 1)) ^ 2 + (x₁ t - z₁ (t + 1)) ^ 2 ∨
  1 / 1000 ≤ ρ t ^ 2 * ((z₀ (t + 1) - z₀ t) ^ 2 + (z₁ (t + 1) - z₁ t) ^ 2)

/-- What happens to the penalty parameter. -/
def Dir (r r' a a' b b' c e : ℝ) : Prop :=
  (r' = 2 * r ∧ 64 * (r ^ 2 * (b' ^ 2 + c ^ 2)) < a ^ 2) ∨
  (r' = r / 2 ∧ 64 * a' ^ 2 < r ^ 2 * (b ^ 2 + e ^ 2)) ∨
  (r' = r ∧ a' ^ 2 ≤ 64 * (r ^ 2 * (b ^ 2 + e ^ 2)) ∧ r ^ 2 * (b' ^ 2 + c ^ 2) ≤ 64 * a ^ 2)

theorem dir (o : Orb eps x₀ x₁ z₀ z₁ y ρ) {t : ℕ} (ht : 0 < t) {r r' a a' b b' c e : ℝ} (hr : ρ t = r)
    (ha0 : 0 ≤ a) (hb0 : 0 ≤ b) (he0 : 0 ≤ e)
    (ha : a ≤ |x₁ t - z₁ (t + 1)|) (ha' : |x₁ t - z₁ (t + 1)| ≤ a') (hb : b ≤ |x₀ t - z₀ t|)
    (hb' : |x₀ t - z₀ t| ≤ b') (hc : |z₁ (t + 1) - z₁ t| ≤ c) (he : e ≤ |z₁ (t + 1) - z₁ t|)
    (hd : Dir r r' a a' b b' c e)
    (hbig : 1 / 1000 ≤ a ^ 2 ∨ 1 / 1000 ≤ r ^ 2 * (b ^ 2 + e ^ 2)) :
    ρ (t + 1) = r' ∧ Big x₀ x₁ z₀ z₁ ρ t := by
  have h0 := o.split₀ t
  have hbal := o.balance t ht
  unfold Big
  rw [h0, hr] at hbal ⊢
  generalize x₁ t - z₁ (t + 1) = P at *
  generalize x₀ t - z₀ t = Q at *
  generalize z₁ (t + 1) - z₁ t = S at *
  have e' : x₀ t - x₀ t = 0 := sub_self _
  rw [e'] at hbal ⊢
  have p1 : a ^ 2 ≤ P ^ 2 := by rw [← sq_abs P]; exact pow_le_pow_left₀ ha0 ha 2
  have p2 : P ^ 2 ≤ a' ^ 2 := by rw [← sq_abs P]; exact pow_le_pow_left₀ (abs_nonneg _) ha' 2
  have p3 : b ^ 2 ≤ Q ^ 2 := by rw [← sq_abs Q]; exact pow_le_pow_left₀ hb0 hb 2
  have p4 : Q ^ 2 ≤ b' ^ 2 := by rw [← sq_abs Q]; exact pow_le_pow_left₀ (abs_nonneg _) hb' 2
  have p5 : S ^ 2 ≤ c ^ 2 := by rw [← sq_abs S]; exact pow_le_pow_left₀ (abs_nonneg _) hc 2
  have p6 : e ^ 2 ≤ S ^ 2 := by rw [← sq_abs S]; exact pow_le_pow_left₀ he0 he 2
  have r2 := sq_nonneg r
  have u1 : r ^ 2 * (b ^ 2 + e ^ 2) ≤ r ^ 2 * (Q ^ 2 + S ^ 2) := mul_le_mul_of_nonneg_left (by linarith) r2
  have u2 : r ^ 2 * (Q ^ 2 + S ^ 2) ≤ r ^ 2 * (b' ^ 2 + c ^ 2) :=
    mul_le_mul_of_nonneg_left (by linarith) r2
  constructor
  · rw [hbal]
    rcases hd with ⟨rfl, hd⟩ | ⟨rfl, hd⟩ | ⟨rfl, hd1, hd2⟩
    · rw [if_pos (by linarith)]
    · have := sq_nonneg P
      rw [if_neg (by linarith), if_pos (by linarith)]
    · rw [if_neg (by linarith), if_neg (by linarith)]
  · rcases hbig with h | h
    · left; linarith
    · right; linarith

/-- An iteration that leaves the split variable of the slope at zero. -/
theorem zero (o : Orb eps x₀ x₁ z₀ z₁ y ρ) (heps : eps ≤ 1e-15) {t : ℕ} (ht : 0 < t)
    {r δ η X₀ X₁ Z₀ Z₁ Y : ℝ} (h : Close x₀ x₁ z₀ z₁ y ρ t r δ η X₀ X₁ Z₀ Z₁ Y)
    (r' δ' η' X₀' X₁' Y' κ a a' b b' c σ τ : ℝ) (hr0 : 0 < r) (hr2 : r ≤ 2) (hσ : σ ^ 2 = 1)
    (hτ : τ ^ 2 = 1) (ha0 : 0 ≤ a) (hb0 : 0 ≤ b) (hδ : δ ≤ δ')
    (b₀ : |X₀| ≤ 4 - δ) (b₁ : |X₁| ≤ 1 - δ)
    (hz : |Y + r * X₁| ≤ 3 / 2 - (η + r * δ)) (hy : |Y + r * X₁ - Y'| ≤ κ)
    (hη : η + r * δ + κ ≤ η')
    (k₀ : |((3 + r) * (149 + r) - 441) * X₀' - ((149 + r) * (r * X₀) - 21 * (1 - Y'))| ≤ κ)
    (k₁ : |((3 + r) * (149 + r) - 441) * X₁' - ((3 + r) * (1 - Y') - 21 * (r * X₀))| ≤ κ)
    (l₀ : κ + (149 + r) * (r * δ) + 21 * η' + 1e-10 ≤ ((3 + r) * (149 + r) - 441) * δ')
    (l₁ : κ + (3 + r) * η' + 21 * (r * δ) + 1e-10 ≤ ((3 + r) * (149 + r) - 441) * δ')
    (ha : a ≤ max 0 (σ * X₁ - δ)) (ha' : |X₁| ≤ a' - δ) (hb : b ≤ max 0 (τ * (X₀ - Z₀) - 2 * δ))
    (hb' : |X₀ - Z₀| ≤ b' - 2 * δ) (hc : |Z₁| ≤ c - δ) (hd : Dir r r' a a' b b' c 0)
    (hbig : 1 / 1000 ≤ a ^ 2 ∨ 1 / 1000 ≤ r ^ 2 * (b ^ 2 + 0 ^ 2)) :
    Close x₀ x₁ z₀ z₁ y ρ (t + 1) r' δ' η' X₀' X₁' X₀ 0 Y' ∧ Big x₀ x₁ z₀ z₁ ρ t := by
  obtain ⟨c1, c2, c3, c4, c5, c6⟩ := h
  have e1 := o.dual t
  have e2 := o.sub_eq (t + 1)
  have e3 := abs_le.mp (o.sub_le (t + 1))
  rw [c1] at e1
  have hA : |y t + r * x₁ t - (Y + r * X₁)| ≤ η + r * δ := by
    have : y t + r * x₁ t - (Y + r * X₁) = (y t - Y) + r * (x₁ t - X₁) := by ring
    rw [this]
    refine (abs_add_le _ _).trans (add_le_add c6 ?_)
    rw [abs_mul, abs_of_pos hr0]
    exact mul_le_mul_of_nonneg_left c3 hr0.le
  have hA' := (abs_near hA).trans (add_le_add_left hz _)
  have hz1 : z₁ (t + 1) = 0 := split_zero (a := y t + r * x₁ t) hr0 e2 (by linear_combination e1)
    (by linarith)
  have e4 : y (t + 1) = y t + r * x₁ t := by rw [e1, hz1]; ring
  have hyn : |y (t + 1) - Y'| ≤ η' := by
    rw [e4]
    have : y t + r * x₁ t - Y' = (y t + r * x₁ t - (Y + r * X₁)) + (Y + r * X₁ - Y') := by ring
    rw [this]
    exact (abs_add_le _ _).trans (by linarith)
  have hx0 := abs_near c2
  have hx1 := abs_near c3
  have hsol := o.solve heps c1 hr2 (by linarith) (by linarith) (W := Y') (dw := η') c2
    (by rw [hz1, mul_zero, sub_zero]; exact hyn) k₀ k₁ l₀ l₁
  have hq : |x₀ t - z₀ t - (X₀ - Z₀)| ≤ 2 * δ := by
    have : x₀ t - z₀ t - (X₀ - Z₀) = (x₀ t - X₀) - (z₀ t - Z₀) := by ring
    rw [this]
    exact (abs_sub _ _).trans (by linarith)
  have hq' := abs_near hq
  have hz' := abs_near c5
  have hdir := o.dir ht (r' := r') (a := a) (a' := a') (b := b) (b' := b') (c := c) (e := 0) c1 ha0 hb0 le_rfl
    (by rw [hz1, sub_zero]; exact low_abs hσ c3 ha) (by rw [hz1, sub_zero]; linarith)
    (low_abs hτ hq hb) (by linarith)
    (by rw [hz1, zero_sub, abs_neg]; linarith) (abs_nonneg _) hd hbig
  refine ⟨⟨hdir.1, hsol.1, hsol.2, ?_, ?_, hyn⟩, hdir.2⟩
  · rw [o.split₀]; exact c2.trans hδ
  · rw [hz1, sub_zero, abs_zero]; exact (abs_nonneg _).trans hsol.1

/-- An iteration that makes the split variable of the slope positive. -/
theorem pos (o : Orb eps x₀ x₁ z₀ z₁ y ρ) (heps : eps ≤ 1e-15) {t : ℕ} (ht : 0 < t)
    {r δ η X₀ X₁ Z₀ Z₁ Y : ℝ} (h : Close x₀ x₁ z₀ z₁ y ρ t r δ η X₀ X₁ Z₀ Z₁ Y)
    (r' δ' X₀' X₁' Z₁' κ a a' b b' c e τ ω dz : ℝ) (hr0 : 0 < r) (hr2 : r ≤ 2)
    (hτ : τ ^ 2 = 1) (hω : ω ^ 2 = 1) (he0 : 0 ≤ e) (ha0 : 0 ≤ a) (hb0 : 0 ≤ b) (hδ : δ ≤ δ') (hdz : dz ≤ δ')
    (b₀ : |X₀| ≤ 4 - δ) (b₁ : |X₁| ≤ 1 - δ)
    (hz : 3 / 2 + (η + r * δ) ≤ Y + r * X₁) (hy : |Y + r * X₁ - 3 / 2 - r * Z₁'| ≤ κ)
    (hη : η + r * δ + κ ≤ r * dz)
    (k₀ : |((3 + r) * (149 + r) - 441) * X₀' - ((149 + r) * (r * X₀) - 21 * (1 - (3 / 2 - r * Z₁')))| ≤ κ)
    (k₁ : |((3 + r) * (149 + r) - 441) * X₁' - ((3 + r) * (1 - (3 / 2 - r * Z₁')) - 21 * (r * X₀))| ≤ κ)
    (l₀ : κ + (149 + r) * (r * δ) + 21 * (r * dz) + 1e-10 ≤ ((3 + r) * (149 + r) - 441) * δ')
    (l₁ : κ + (3 + r) * (r * dz) + 21 * (r * δ) + 1e-10 ≤ ((3 + r) * (149 + r) - 441) * δ')
    (ha : r * a ≤ 3 / 2 - Y - η) (ha' : 3 / 2 - Y ≤ r * a' - η) (hb : b ≤ max 0 (τ * (X₀ - Z₀) - 2 * δ))
    (hb' : |X₀ - Z₀| ≤ b' - 2 * δ) (hc : |Z₁' - Z₁| ≤ c - (dz + δ)) 
    (he : e ≤ max 0 (ω * (Z₁' - Z₁) - (dz + δ))) (hd : Dir r r' a a' b b' c e)
    (hbig : 1 / 1000 ≤ a ^ 2 ∨ 1 / 1000 ≤ r ^ 2 * (b ^ 2 + e ^ 2)) :
    Close x₀ x₁ z₀ z₁ y ρ (t + 1) r' δ' 0 X₀' X₁' X₀ Z₁' (3 / 2) ∧ Big x₀ x₁ z₀ z₁ ρ t := by
  obtain ⟨c1, c2, c3, c4, c5, c6⟩ := h
  have e1 := o.dual t
  have e2 := o.sub_eq (t + 1)
  have e3 := abs_le.mp (o.sub_le (t + 1))
  have e5 := abs_le.mp (o.sub_le t)
  rw [c1] at e1
  have hA : |y t + r * x₁ t - (Y + r * X₁)| ≤ η + r * δ := by
    have : y t + r * x₁ t - (Y + r * X₁) = (y t - Y) + r * (x₁ t - X₁) := by ring
    rw [this]
    refine (abs_add_le _ _).trans (add_le_add c6 ?_)
    rw [abs_mul, abs_of_pos hr0]
    exact mul_le_mul_of_nonneg_left c3 hr0.le
  have hA' := abs_le.mp hA
  have hyn : y (t + 1) = 3 / 2 := split_pos (a := y t + r * x₁ t) hr0 e2 (by linear_combination e1)
    (by linarith) e3.2
  have hzn : |r * (z₁ (t + 1) - Z₁')| ≤ r * dz := by
    have : r * (z₁ (t + 1) - Z₁') = (y t + r * x₁ t - (Y + r * X₁))
        + (Y + r * X₁ - 3 / 2 - r * Z₁') := by rw [hyn] at e1; linear_combination e1
    rw [this]
    exact (abs_add_le _ _).trans (by linarith)
  have hzn' := abs_le_of_mul hr0 hzn
  have hp : r * (x₁ t - z₁ (t + 1)) = 3 / 2 - y t := by rw [hyn] at e1; linarith
  have hx0 := abs_near c2
  have hx1 := abs_near c3
  have hsol := o.solve heps c1 hr2 (by linarith) (by linarith) (W := 3 / 2 - r * Z₁') (dw := r * dz) c2
    (by
      have : y (t + 1) - r * z₁ (t + 1) - (3 / 2 - r * Z₁') = -(r * (z₁ (t + 1) - Z₁')) := by
        rw [hyn]; ring
      rw [this, abs_neg]; exact hzn) k₀ k₁ l₀ l₁
  have hq : |x₀ t - z₀ t - (X₀ - Z₀)| ≤ 2 * δ := by
    have : x₀ t - z₀ t - (X₀ - Z₀) = (x₀ t - X₀) - (z₀ t - Z₀) := by ring
    rw [this]
    exact (abs_sub _ _).trans (by linarith)
  have hq' := abs_near hq
  have c6' := abs_le.mp c6
  have hS : |z₁ (t + 1) - z₁ t| ≤ c := by
    have : z₁ (t + 1) - z₁ t = (z₁ (t + 1) - Z₁') - (z₁ t - Z₁) + (Z₁' - Z₁) := by ring
    rw [this]
    refine (abs_add_le _ _).trans ?_
    have := abs_sub (z₁ (t + 1) - Z₁') (z₁ t - Z₁)
    linarith
  have hS' : |z₁ (t + 1) - z₁ t - (Z₁' - Z₁)| ≤ dz + δ := by
    have : z₁ (t + 1) - z₁ t - (Z₁' - Z₁) = (z₁ (t + 1) - Z₁') - (z₁ t - Z₁) := by ring
    rw [this]
    exact (abs_sub _ _).trans (by linarith)
  have hP0 : 0 ≤ x₁ t - z₁ (t + 1) := by
    by_contra hh
    have : r * (x₁ t - z₁ (t + 1)) < 0 := mul_neg_of_pos_of_neg hr0 (by linarith)
    linarith
  have hdir := o.dir ht (r' := r') (a := a) (a' := a') (b := b) (b' := b') (c := c) (e := e) c1 ha0 hb0 he0
    (by rw [abs_of_nonneg hP0]; exact le_of_mul_le_mul_left (by linarith) hr0)
    (by rw [abs_of_nonneg hP0]; exact le_of_mul_le_mul_left (by linarith) hr0)
    (low_abs hτ hq hb) (by linarith) hS (low_abs hω hS' he) hd hbig
  refine ⟨⟨hdir.1, hsol.1, hsol.2, ?_, hzn'.trans hdz, ?_⟩, hdir.2⟩
  · rw [o.split₀]; exact c2.trans hδ
  · rw [hyn, sub_self, abs_zero]

end Orb
end GLM
