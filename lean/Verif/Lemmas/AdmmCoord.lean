/-
  One coordinate of the alternating direction method of multipliers with residual balancing, when the
  curvature is diagonal: it settles on one side of the kink, or in it.
-/
import Mathlib.Topology.Algebra.Order.LiminfLimsup
import Verif.Lemmas.AdmmLyapunov

namespace GLM
open Filter Topology Spec

/-- One coordinate: curvature `h`, inertia `κ`, strength `lam`, and a penalty parameter that changes by
factors of at most two. -/
structure Coord (h κ lam c : ℝ) (x z y ρ : ℕ → ℝ) : Prop where
  h_pos : 0 < h
  κ_nonneg : 0 ≤ κ
  κ_le : 4 * κ ≤ h
  rho_pos : ∀ t, 0 < ρ t
  rho_le : ∀ t, ρ (t + 1) ≤ 2 * ρ t
  rho_ge : ∀ t, ρ t ≤ 2 * ρ (t + 1)
  step : ∀ t, (h + κ + ρ t) * x (t + 1) = κ * x t + c - y (t + 1) + ρ t * z (t + 1)
  dual : ∀ t, y (t + 1) = y t + ρ t * (x t - z (t + 1))
  sub : ∀ t, IsSubgrad lam (z t) (y t)

section shrink
variable {h κ ρ₀ ρ₁ ρ₂ r x x' M N : ℝ} (hh : 0 < h) (hκ : 0 ≤ κ) (hκh : 4 * κ ≤ h)
  (h0 : 0 < ρ₀) (h1 : 0 < ρ₁) (h2 : 0 < ρ₂)
  (hx : h * ((h + κ + ρ₀) * |x|) ≤ (h + κ) * N) (hr : |r| ≤ M)
  (hx' : (h + κ + ρ₁) * x' = κ * x + r)
include hh hκ h0 h1 hx hr hx'

theorem coord_x : h * ((h + κ + ρ₁) * |x'|) ≤ κ * N + h * M := by
  have e1 : (h + κ + ρ₁) * |x'| ≤ κ * |x| + |r| := by
    rw [← abs_of_pos (show 0 < h + κ + ρ₁ by linarith), ← abs_mul, hx']
    refine (abs_add_le _ _).trans ?_
    rw [abs_mul, abs_of_nonneg hκ]
  have e2 : h * |x| ≤ N := by
    have : (h + κ) * (h * |x|) ≤ (h + κ) * N := by
      have := mul_nonneg hh.le (mul_nonneg h0.le (abs_nonneg x))
      linarith
    exact le_of_mul_le_mul_left this (by linarith)
  have e3 := mul_le_mul_of_nonneg_left e1 hh.le
  have e4 := mul_le_mul_of_nonneg_left e2 hκ
  have e5 := mul_le_mul_of_nonneg_left hr hh.le
  linarith

include hκh h2 in
/-- The residual after the next step, for a moderate penalty parameter. -/
theorem coord_r₁ (hle : ρ₂ ≤ h + κ + ρ₁) :
    (h + κ + ρ₁) * |r - ρ₂ * x'| ≤ (h + κ + ρ₁ - ρ₂) * M + ρ₂ * (N / 4) := by
  have e2 : h * |x| ≤ N := by
    have : (h + κ) * (h * |x|) ≤ (h + κ) * N := by
      have := mul_nonneg hh.le (mul_nonneg h0.le (abs_nonneg x))
      linarith
    exact le_of_mul_le_mul_left this (by linarith)
  have e3 : (h + κ + ρ₁) * |r - ρ₂ * x'| ≤ (h + κ + ρ₁ - ρ₂) * |r| + ρ₂ * (κ * |x|) := by
    rw [← abs_of_pos (show 0 < h + κ + ρ₁ by linarith), ← abs_mul]
    have : (h + κ + ρ₁) * (r - ρ₂ * x') = (h + κ + ρ₁ - ρ₂) * r - ρ₂ * (κ * x) := by
      linear_combination -ρ₂ * hx'
    rw [this, abs_of_pos (show 0 < h + κ + ρ₁ by linarith)]
    refine (abs_sub _ _).trans ?_
    rw [abs_mul, abs_of_nonneg (sub_nonneg.mpr hle), abs_mul ρ₂, abs_mul κ, abs_of_nonneg hκ, abs_of_pos h2]
  have e4 := mul_le_mul_of_nonneg_left hr (sub_nonneg.mpr hle)
  have e5 : κ * |x| ≤ N / 4 := by
    have := mul_le_mul_of_nonneg_right hκh (abs_nonneg x)
    linarith
  have e6 := mul_le_mul_of_nonneg_left e5 h2.le
  linarith

include hκh in
/-- The residual after the next step, for a large penalty parameter. -/
theorem coord_r₂ (h21 : ρ₂ ≤ 2 * ρ₁) (h10 : ρ₁ ≤ 2 * ρ₀) (hlt : h + κ + ρ₁ ≤ ρ₂) (hM : 0 ≤ M) :
    (h + κ + ρ₁) * |r - ρ₂ * x'| ≤ (ρ₁ - h - κ) * M + (h + κ) * N := by
  have h2 : 0 < ρ₂ := by linarith
  have e3 : (h + κ + ρ₁) * |r - ρ₂ * x'| ≤ (ρ₂ - (h + κ + ρ₁)) * |r| + ρ₂ * (κ * |x|) := by
    rw [← abs_of_pos (show 0 < h + κ + ρ₁ by linarith), ← abs_mul]
    have : (h + κ + ρ₁) * (r - ρ₂ * x') = -((ρ₂ - (h + κ + ρ₁)) * r) - ρ₂ * (κ * x) := by
      linear_combination -ρ₂ * hx'
    rw [this, abs_of_pos (show 0 < h + κ + ρ₁ by linarith)]
    refine (abs_sub _ _).trans ?_
    rw [abs_neg, abs_mul, abs_of_nonneg (sub_nonneg.mpr hlt), abs_mul ρ₂, abs_mul κ, abs_of_nonneg hκ,
      abs_of_pos h2]
  have e4 : (ρ₂ - (h + κ + ρ₁)) * |r| ≤ (ρ₁ - h - κ) * M :=
    (mul_le_mul_of_nonneg_left hr (sub_nonneg.mpr hlt)).trans
      (mul_le_mul_of_nonneg_right (by linarith) hM)
  have e5 : ρ₂ * (κ * |x|) ≤ (h + κ) * N := by
    have a1 : ρ₂ ≤ 4 * (h + κ + ρ₀) := by linarith
    have a2 : ρ₂ * (κ * |x|) ≤ 4 * (h + κ + ρ₀) * (κ * |x|) :=
      mul_le_mul_of_nonneg_right a1 (mul_nonneg hκ (abs_nonneg x))
    have a3 : 4 * κ * ((h + κ + ρ₀) * |x|) ≤ h * ((h + κ + ρ₀) * |x|) :=
      mul_le_mul_of_nonneg_right hκh (mul_nonneg (by linarith) (abs_nonneg x))
    linarith
  linarith

include hκh h2 in
/-- The residual does not grow. -/
theorem coord_r (h21 : ρ₂ ≤ 2 * ρ₁) (h10 : ρ₁ ≤ 2 * ρ₀) (hM : N / 2 ≤ M) : |r - ρ₂ * x'| ≤ M := by
  have hS : 0 < h + κ + ρ₁ := by linarith
  have hM0 : 0 ≤ M := (abs_nonneg r).trans hr
  refine le_of_mul_le_mul_left ?_ hS
  rcases le_total ρ₂ (h + κ + ρ₁) with hc | hc
  · have := coord_r₁ hh hκ hκh h0 h1 h2 hx hr hx' hc
    have a : ρ₂ * (N / 4) ≤ ρ₂ * M := mul_le_mul_of_nonneg_left (by linarith) h2.le
    linarith
  · have := coord_r₂ hh hκ hκh h0 h1 hx hr hx' h21 h10 hc hM0
    have a : (h + κ) * N ≤ (h + κ) * (2 * M) := mul_le_mul_of_nonneg_left (by linarith) (by linarith)
    linarith

end shrink

namespace Coord
variable {h κ lam c : ℝ} {x z y ρ : ℕ → ℝ}

/-- The mirror image. -/
theorem neg (o : Coord h κ lam c x z y ρ) :
    Coord h κ lam (-c) (fun t => -x t) (fun t => -z t) (fun t => -y t) ρ where
  h_pos := o.h_pos
  κ_nonneg := o.κ_nonneg
  κ_le := o.κ_le
  rho_pos := o.rho_pos
  rho_le := o.rho_le
  rho_ge := o.rho_ge
  step t := by have := o.step t; linarith
  dual t := by have := o.dual t; linarith
  sub t := by
    obtain ⟨h1, h2⟩ := o.sub t
    exact ⟨by rwa [abs_neg], by rw [abs_neg]; linarith⟩

/-- Within the kink, the residual and the coefficient are of size `N`. -/
def Small (h κ c : ℝ) (x y ρ : ℕ → ℝ) (N : ℝ) (t : ℕ) : Prop :=
  |c - y (t + 2)| ≤ N ∧ h * ((h + κ + ρ t) * |x (t + 1)|) ≤ (h + κ) * N

variable (o : Coord h κ lam c x z y ρ)
include o

theorem y_pos {t : ℕ} (hz : 0 < z t) : y t = lam := by
  have := (o.sub t).2
  rw [abs_of_pos hz] at this
  exact mul_right_cancel₀ hz.ne' this

theorem y_neg {t : ℕ} (hz : z t < 0) : y t = -lam := by
  have := (o.sub t).2
  rw [abs_of_neg hz] at this
  refine mul_right_cancel₀ hz.ne ?_
  linarith

theorem y_le (t : ℕ) : y t ≤ lam := (le_abs_self _).trans (o.sub t).1

theorem y_ge (t : ℕ) : -lam ≤ y t := (abs_le.mp (o.sub t).1).1

/-- A positive split variable is below the coefficient. -/
theorem z_le {t : ℕ} (hz : 0 < z (t + 1)) : z (t + 1) ≤ x t := by
  have h1 := o.dual t
  have h2 := o.y_pos hz
  have h3 := o.y_le t
  have : 0 ≤ ρ t * (x t - z (t + 1)) := by linarith
  have := nonneg_of_mul_nonneg_right this (o.rho_pos t)
  linarith

/-- What enters the kink stays there as long as nothing pushes it out. -/
theorem small_next {N : ℝ} {t : ℕ} (hs : Small h κ c x y ρ N t) (hz : z (t + 2) = 0) :
    |c - y (t + 2) - ρ (t + 2) * x (t + 2)| ≤ N ∧
      h * ((h + κ + ρ (t + 1)) * |x (t + 2)|) ≤ (h + κ) * N := by
  have e := o.step (t + 1)
  rw [show t + 1 + 1 = t + 2 from rfl, hz] at e
  have hN : 0 ≤ N := (abs_nonneg _).trans hs.1
  refine ⟨coord_r o.h_pos o.κ_nonneg o.κ_le (o.rho_pos t) (o.rho_pos (t + 1)) (o.rho_pos (t + 2)) hs.2 hs.1
    (by linarith) (o.rho_le (t + 1)) (o.rho_le t) (by linarith), ?_⟩
  have := coord_x o.h_pos o.κ_nonneg (o.rho_pos t) (o.rho_pos (t + 1)) hs.2 hs.1
    (x' := x (t + 2)) (by linarith)
  linarith

theorem small_succ {N : ℝ} {t : ℕ} (hs : Small h κ c x y ρ N t) (hz : z (t + 2) = 0)
    (hz' : z (t + 3) = 0) : Small h κ c x y ρ N (t + 1) := by
  obtain ⟨h1, h2⟩ := o.small_next hs hz
  refine ⟨?_, h2⟩
  have e := o.dual (t + 2)
  rw [show t + 2 + 1 = t + 3 from rfl, hz'] at e
  rw [show t + 1 + 2 = t + 3 from rfl, e]
  rwa [show c - (y (t + 2) + ρ (t + 2) * (x (t + 2) - 0)) = c - y (t + 2) - ρ (t + 2) * x (t + 2) by ring]

/-- A residual within the margin does not push the coefficient out upwards. -/
theorem not_pos {N : ℝ} {t : ℕ} (hs : Small h κ c x y ρ N t) (hz : z (t + 2) = 0) (hN : N ≤ lam - c) :
    z (t + 3) ≤ 0 := by
  by_contra hc
  push Not at hc
  obtain ⟨h1, -⟩ := o.small_next hs hz
  have e := o.dual (t + 2)
  rw [show t + 2 + 1 = t + 3 from rfl, o.y_pos hc] at e
  have := mul_pos (o.rho_pos (t + 2)) hc
  have := (abs_le.mp h1).1
  linarith

/-- Nor downwards. -/
theorem not_neg {N : ℝ} {t : ℕ} (hs : Small h κ c x y ρ N t) (hz : z (t + 2) = 0) (hN : N ≤ lam + c) :
    0 ≤ z (t + 3) := by
  by_contra hc
  push Not at hc
  obtain ⟨h1, -⟩ := o.small_next hs hz
  have e := o.dual (t + 2)
  rw [show t + 2 + 1 = t + 3 from rfl, o.y_neg hc] at e
  have := mul_pos_of_neg_of_neg hc (neg_lt_zero.mpr (o.rho_pos (t + 2)))
  have := (abs_le.mp h1).2
  linarith

/-- Entering the kink from above leaves a residual within the margin. -/
theorem enter {t : ℕ} (hz : 0 < z (t + 1)) (hz' : z (t + 2) ≤ 0) :
    c < lam ∧ (z (t + 2) = 0 → Small h κ c x y ρ (lam - c) t) ∧ (z (t + 2) < 0 → c < 0) := by
  have hx := o.z_le hz
  have e := o.step t
  rw [o.y_pos hz] at e
  have d := o.dual (t + 1)
  rw [show t + 1 + 1 = t + 2 from rfl, o.y_pos hz] at d
  have hS : 0 < h + κ + ρ t := by have := o.h_pos; have := o.κ_nonneg; have := o.rho_pos t; linarith
  have p1 := mul_nonneg o.κ_nonneg (hz.le.trans hx)
  have p2 := mul_pos (o.rho_pos t) hz
  have low : -(lam - c) < (h + κ + ρ t) * x (t + 1) := by linarith
  have hρ : ρ (t + 1) < 2 * (h + κ + ρ t) := by
    have := o.rho_le t; have := o.h_pos; have := o.κ_nonneg; linarith
  have up : ρ (t + 1) * x (t + 1) ≤ ρ (t + 1) * z (t + 2) := by
    have := o.y_le (t + 2); linarith
  have hxn : x (t + 1) ≤ z (t + 2) := le_of_mul_le_mul_left up (o.rho_pos (t + 1))
  have hx0 : x (t + 1) ≤ 0 := hxn.trans hz'
  have hc : c < lam := by
    have := mul_nonpos_of_nonneg_of_nonpos hS.le hx0
    linarith
  have far : -(2 * (lam - c)) ≤ ρ (t + 1) * x (t + 1) := by
    have := mul_le_mul_of_nonpos_right hρ.le hx0
    linarith
  refine ⟨hc, fun h0 => ⟨?_, ?_⟩, fun h0 => ?_⟩
  · rw [h0] at d
    have hn := mul_nonpos_of_nonneg_of_nonpos (o.rho_pos (t + 1)).le hx0
    rw [abs_le]
    constructor <;> linarith
  · rw [abs_of_nonpos hx0]
    have a1 : (h + κ + ρ t) * -x (t + 1) ≤ lam - c := by linarith
    have a2 := mul_le_mul_of_nonneg_left a1 o.h_pos.le
    have a3 := mul_nonneg o.κ_nonneg (sub_nonneg.mpr hc.le)
    linarith
  · have h1 := o.y_neg h0
    have h2 := mul_neg_of_pos_of_neg (o.rho_pos (t + 1)) h0
    linarith

theorem stays_zero {T : ℕ} {N : ℝ} (hs : Small h κ c x y ρ N T) (hz : z (T + 2) = 0)
    (hstay : ∀ t, Small h κ c x y ρ N t → z (t + 2) = 0 → z (t + 3) = 0) :
    ∀ t, T ≤ t → z (t + 2) = 0 := by
  have key : ∀ s, Small h κ c x y ρ N (T + s) ∧ z (T + s + 2) = 0 := by
    intro s
    induction s with
    | zero => exact ⟨hs, hz⟩
    | succ s ih =>
      have h1 := hstay _ ih.1 ih.2
      exact ⟨o.small_succ ih.1 ih.2 h1, h1⟩
  intro t ht
  obtain ⟨s, rfl⟩ : ∃ s, t = T + s := ⟨t - T, by omega⟩
  exact (key s).2

omit o in
/-- A property that holds at some time and not for ever after is lost at some step. -/
theorem leave {P : ℕ → Prop} {t₀ : ℕ} (h0 : P t₀) (hn : ¬ ∀ t, t₀ ≤ t → P t) :
    ∃ t, t₀ ≤ t ∧ P t ∧ ¬ P (t + 1) := by
  by_contra hc
  push Not at hc
  refine hn fun t ht => ?_
  induction t, ht using Nat.le_induction with
  | base => exact h0
  | succ t ht ih => exact hc t ht ih

theorem settles_of_nonneg (hc : 0 ≤ c) :
    (∃ T, ∃ v, ∀ t, T ≤ t → y t = v) ∨ ∃ T, ∀ t, T ≤ t → z t = 0 := by
  by_cases hp : ∃ t, 0 < z (t + 1)
  · obtain ⟨t₀, h0⟩ := hp
    by_cases hall : ∀ t, t₀ ≤ t → 0 < z (t + 1)
    · refine Or.inl ⟨t₀ + 1, lam, fun t ht => ?_⟩
      obtain ⟨s, rfl⟩ : ∃ s, t = s + 1 := ⟨t - 1, by omega⟩
      exact o.y_pos (hall s (by omega))
    · obtain ⟨t, -, h1, h2⟩ := leave (P := fun t => 0 < z (t + 1)) h0 hall
      obtain ⟨g1, g2, g3⟩ := o.enter h1 (not_lt.mp h2)
      have hz : z (t + 2) = 0 := le_antisymm (not_lt.mp h2) (not_lt.mp fun hh => by linarith [g3 hh])
      have := o.stays_zero (g2 hz) hz fun s hs hz' =>
        le_antisymm (o.not_pos hs hz' le_rfl) (o.not_neg hs hz' (by linarith))
      refine Or.inr ⟨t + 2, fun s hs => ?_⟩
      obtain ⟨s, rfl⟩ : ∃ s', s = s' + 2 := ⟨s - 2, by omega⟩
      exact this s (by omega)
  · push Not at hp
    by_cases hm : ∃ t, z (t + 1) < 0
    · obtain ⟨t₀, h0⟩ := hm
      by_cases hall : ∀ t, t₀ ≤ t → z (t + 1) < 0
      · refine Or.inl ⟨t₀ + 1, -lam, fun t ht => ?_⟩
        obtain ⟨s, rfl⟩ : ∃ s, t = s + 1 := ⟨t - 1, by omega⟩
        exact o.y_neg (hall s (by omega))
      · obtain ⟨t, -, h1, h2⟩ := leave (P := fun t => z (t + 1) < 0) h0 hall
        have hz : z (t + 2) = 0 := le_antisymm (hp (t + 1)) (not_lt.mp h2)
        obtain ⟨-, g2, -⟩ := o.neg.enter (t := t) (by linarith) (by linarith [hz])
        have hs : Small h κ c x y ρ (lam + c) t := by
          obtain ⟨a, b⟩ := g2 (by rw [hz, neg_zero])
          rw [abs_neg, sub_neg_eq_add] at b
          refine ⟨?_, b⟩
          rw [← abs_neg, show -(c - y (t + 2)) = -c - -y (t + 2) by ring]
          linarith
        have := o.stays_zero hs hz fun s hs hz' =>
          le_antisymm (hp (s + 2)) (o.not_neg hs hz' le_rfl)
        refine Or.inr ⟨t + 2, fun s hs => ?_⟩
        obtain ⟨s, rfl⟩ : ∃ s', s = s' + 2 := ⟨s - 2, by omega⟩
        exact this s (by omega)
    · push Not at hm
      refine Or.inr ⟨1, fun t ht => ?_⟩
      obtain ⟨s, rfl⟩ : ∃ s, t = s + 1 := ⟨t - 1, by omega⟩
      exact le_antisymm (hp s) (hm s)

/-- The coordinate settles: either the multiplier does not change any more, or the split variable
stays zero. -/
theorem settles : (∃ T, ∃ v, ∀ t, T ≤ t → y t = v) ∨ ∃ T, ∀ t, T ≤ t → z t = 0 := by
  rcases le_total 0 c with hc | hc
  · exact o.settles_of_nonneg hc
  · rcases o.neg.settles_of_nonneg (neg_nonneg.mpr hc) with ⟨T, v, h1⟩ | ⟨T, h1⟩
    · exact Or.inl ⟨T, -v, fun t ht => by linarith [h1 t ht]⟩
    · exact Or.inr ⟨T, fun t ht => by linarith [h1 t ht]⟩

/-! ### After settling -/

/-- The sizes of the residuals and of the step are controlled by `K N t`, which persists, and holds for
smaller and smaller `N` if the penalty parameter keeps returning to a fixed range. -/
structure _root_.GLM.Tame (h κ : ℝ) (x z ρ : ℕ → ℝ) (K : ℝ → ℕ → Prop) (T : ℕ) : Prop where
  start : ∃ N, K N T
  mono : ∀ N t, T ≤ t → K N t → K N (t + 1)
  nonneg : ∀ N t, K N t → 0 ≤ N
  primal : ∀ N t, T ≤ t → K N t → (h + κ + ρ t) * |x (t + 1) - z (t + 2)| ≤ 2 * N
  dual : ∀ N t, T ≤ t → K N t → ρ (t + 1) * |z (t + 2) - z (t + 1)| ≤ 2 * N
  move : ∀ N t, T ≤ t → K N t → (h + κ + ρ (t + 1)) * |x (t + 2) - x (t + 1)| ≤ 4 * N
  band : ∀ m M, 0 < m → (∃ᶠ t in atTop, m ≤ ρ t ∧ ρ t ≤ M) → ∀ ε, 0 < ε → ∃ t, T ≤ t ∧ K ε t
  still : Tendsto ρ atTop (𝓝 0) → Tendsto (fun t => x (t + 1) - x t) atTop (𝓝 0) ∧
    Tendsto (fun t => z (t + 1) - z t) atTop (𝓝 0)

omit o in
/-- Repeated reductions by a fixed factor. -/
theorem reduce {K : ℝ → ℕ → Prop} {T : ℕ} {Q : ℕ → Prop} {θ N : ℝ} (h0 : 0 ≤ θ) (h1 : θ < 1)
    (hK : K N T) (hmono : ∀ N t, T ≤ t → K N t → K N (t + 1))
    (hwide : ∀ N N' t, T ≤ t → N ≤ N' → K N t → K N' t)
    (hred : ∀ N t, T ≤ t → K N t → Q t → ∃ t', T ≤ t' ∧ K (θ * N) t') (hQ : ∃ᶠ t in atTop, Q t)
    {ε : ℝ} (hε : 0 < ε) : ∃ t, T ≤ t ∧ K ε t := by
  have hlater : ∀ N t s, T ≤ t → K N t → K N (t + s) := by
    intro N t s ht hk
    induction s with
    | zero => exact hk
    | succ s ih => exact hmono N (t + s) (ht.trans (Nat.le_add_right t s)) ih
  have key : ∀ k : ℕ, ∃ t, T ≤ t ∧ K (θ ^ k * N) t := by
    intro k
    induction k with
    | zero => exact ⟨T, le_rfl, by simpa using hK⟩
    | succ k ih =>
      obtain ⟨t, ht, hk⟩ := ih
      obtain ⟨s, hs, hq⟩ := (frequently_atTop.mp hQ) t
      have := hlater _ t (s - t) ht hk
      rw [Nat.add_sub_cancel' hs] at this
      obtain ⟨t', ht', hk'⟩ := hred _ s (ht.trans hs) this hq
      exact ⟨t', ht', by rwa [pow_succ', mul_assoc]⟩
  have hlim : Tendsto (fun k : ℕ => θ ^ k * N) atTop (𝓝 0) := by
    simpa using (tendsto_pow_atTop_nhds_zero_of_lt_one h0 h1).mul_const N
  obtain ⟨k, hk⟩ := (hlim.eventually_lt_const hε).exists
  obtain ⟨t, ht, hkt⟩ := key k
  exact ⟨t, ht, hwide _ _ t ht hk.le hkt⟩

section free
variable {T : ℕ} {v : ℝ} (hy : ∀ t, T ≤ t → y t = v)
include hy

theorem free_z {t : ℕ} (ht : T ≤ t) : z (t + 1) = x t := by
  have := o.dual t
  rw [hy t ht, hy (t + 1) (by omega)] at this
  have := (mul_eq_zero.mp (show ρ t * (x t - z (t + 1)) = 0 by linarith)).resolve_left (o.rho_pos t).ne'
  linarith

/-- With a constant multiplier the distance from the target shrinks. -/
theorem free_step {t : ℕ} (ht : T ≤ t) :
    (h + κ + ρ t) * (h * x (t + 1) - (c - v)) = (κ + ρ t) * (h * x t - (c - v)) := by
  have := o.step t
  rw [o.free_z hy ht, hy (t + 1) (by omega)] at this
  linear_combination h * this

theorem free_move {t : ℕ} (ht : T ≤ t) :
    (h + κ + ρ t) * (x (t + 1) - x t) = -(h * x t - (c - v)) := by
  have := o.step t
  rw [o.free_z hy ht, hy (t + 1) (by omega)] at this
  linear_combination this

theorem free_le {t : ℕ} (ht : T ≤ t) : |h * x (t + 1) - (c - v)| ≤ |h * x t - (c - v)| := by
  have h1 := o.h_pos
  have h2 := o.κ_nonneg
  have h3 := o.rho_pos t
  have e := congrArg abs (o.free_step hy ht)
  rw [abs_mul, abs_mul, abs_of_pos (by linarith : 0 < h + κ + ρ t), abs_of_pos (by linarith : 0 < κ + ρ t)] at e
  have := mul_nonneg h1.le (abs_nonneg (h * x t - (c - v)))
  refine le_of_mul_le_mul_left ?_ (by linarith : 0 < h + κ + ρ t)
  linarith

theorem free_contract {t : ℕ} (ht : T ≤ t) {M : ℝ} (hM : ρ t ≤ M) :
    |h * x (t + 1) - (c - v)| ≤ (κ + M) / (h + κ + M) * |h * x t - (c - v)| := by
  have h1 := o.h_pos
  have h2 := o.κ_nonneg
  have h3 := o.rho_pos t
  have e := congrArg abs (o.free_step hy ht)
  rw [abs_mul, abs_mul, abs_of_pos (by linarith : 0 < h + κ + ρ t), abs_of_pos (by linarith : 0 < κ + ρ t)] at e
  have hq : (κ + ρ t) / (h + κ + ρ t) ≤ (κ + M) / (h + κ + M) := by
    rw [div_le_div_iff₀ (by linarith) (by linarith)]
    have := mul_le_mul_of_nonneg_left hM h1.le
    linarith
  have e2 : |h * x (t + 1) - (c - v)| = (κ + ρ t) / (h + κ + ρ t) * |h * x t - (c - v)| := by
    rw [div_mul_eq_mul_div, eq_div_iff (by linarith)]
    linarith
  rw [e2]
  exact mul_le_mul_of_nonneg_right hq (abs_nonneg _)

theorem free_tame : Tame h κ x z ρ (fun N t => |h * x t - (c - v)| ≤ N) T where
  start := ⟨_, le_rfl⟩
  mono N t ht hk := (o.free_le hy ht).trans hk
  nonneg N t hk := (abs_nonneg _).trans hk
  primal N t ht hk := by
    rw [o.free_z hy (t := t + 1) (by omega), sub_self, abs_zero, mul_zero]
    linarith [(abs_nonneg _).trans hk]
  dual N t ht hk := by
    rw [o.free_z hy (t := t + 1) (by omega), o.free_z hy ht]
    have h1 := o.h_pos
    have h2 := o.κ_nonneg
    have h3 := o.rho_pos t
    have e := congrArg abs (o.free_move hy ht)
    rw [abs_mul, abs_neg, abs_of_pos (by linarith : 0 < h + κ + ρ t)] at e
    have := mul_le_mul_of_nonneg_right (o.rho_le t) (abs_nonneg (x (t + 1) - x t))
    have := mul_nonneg (add_pos_of_pos_of_nonneg h1 h2).le (abs_nonneg (x (t + 1) - x t))
    linarith
  move N t ht hk := by
    have h1 := o.h_pos
    have h2 := o.κ_nonneg
    have h3 := o.rho_pos (t + 1)
    have e := congrArg abs (o.free_move hy (t := t + 1) (by omega))
    rw [abs_mul, abs_neg, abs_of_pos (by linarith : 0 < h + κ + ρ (t + 1))] at e
    have := (o.free_le hy ht).trans hk
    have := (abs_nonneg _).trans hk
    rw [show t + 2 = t + 1 + 1 from rfl, e]
    linarith
  band m M hm hf ε hε := by
    have h1 := o.h_pos
    have h2 := o.κ_nonneg
    obtain ⟨s, -, hs, hs'⟩ := (frequently_atTop.mp hf) 0
    refine reduce (K := fun N t => |h * x t - (c - v)| ≤ N) (Q := fun t => m ≤ ρ t ∧ ρ t ≤ M) (θ := (κ + M) / (h + κ + M))
      (N := |h * x T - (c - v)|) (div_nonneg (by linarith) (by linarith)) ?_ le_rfl
      (fun N t ht hk => (o.free_le hy ht).trans hk) (fun N N' t _ hN hk => hk.trans hN) ?_ hf hε
    · rw [div_lt_one (by linarith)]; linarith
    · rintro N t ht hk ⟨-, hq⟩
      exact ⟨t + 1, by omega, (o.free_contract hy ht hq).trans
        (mul_le_mul_of_nonneg_left hk (div_nonneg (by linarith) (by linarith)))⟩
  still hρ := by
    have h1 := o.h_pos
    have h2 := o.κ_nonneg
    obtain ⟨S, hS⟩ := (hρ.eventually_le_const (zero_lt_one)).exists_forall_of_atTop
    have hδ : Tendsto (fun t => |h * x t - (c - v)|) atTop (𝓝 0) := by
      refine (tendsto_add_atTop_iff_nat (T + S)).mp ?_
      refine tendsto_zero_of_contraction (κ := (κ + 1) / (h + κ + 1)) (a := fun _ => 0)
        (div_nonneg (by linarith) (by linarith)) (by rw [div_lt_one (by linarith)]; linarith)
        (fun t => abs_nonneg _) tendsto_const_nhds fun t => ?_
      have := o.free_contract hy (t := t + (T + S)) (by omega) (hS _ (by omega))
      rw [Nat.add_right_comm] at this
      linarith
    have hx : Tendsto (fun t => x (t + 1) - x t) atTop (𝓝 0) := by
      refine (tendsto_add_atTop_iff_nat T).mp ?_
      refine squeeze_zero_norm (a := fun t => 1 / h * |h * x (t + T) - (c - v)|) (fun t => ?_) ?_
      · rw [Real.norm_eq_abs]
        have h3 := o.rho_pos (t + T)
        have e := congrArg abs (o.free_move hy (t := t + T) (by omega))
        rw [abs_mul, abs_neg, abs_of_pos (by linarith : 0 < h + κ + ρ (t + T))] at e
        rw [← e]
        have := mul_nonneg (by linarith : 0 ≤ κ + ρ (t + T)) (abs_nonneg (x (t + T + 1) - x (t + T)))
        rw [one_div, inv_mul_eq_div, le_div_iff₀ h1]
        linarith
      · have := ((tendsto_add_atTop_iff_nat T).mpr hδ).const_mul (1 / h)
        simpa using this
    refine ⟨hx, (tendsto_add_atTop_iff_nat (T + 1)).mp ?_⟩
    refine ((tendsto_add_atTop_iff_nat T).mpr hx).congr fun t => ?_
    rw [show t + (T + 1) + 1 = (t + T + 1) + 1 by omega, show t + (T + 1) = t + T + 1 by omega,
      o.free_z hy (t := t + T + 1) (by omega), o.free_z hy (t := t + T) (by omega)]

end free

section kink
variable {T : ℕ} (hz : ∀ t, T ≤ t → z t = 0)
include hz

theorem kink_reduce {m M N : ℝ} {t : ℕ} (ht : T ≤ t) (hs : Small h κ c x y ρ N t)
    (hm : m ≤ ρ (t + 1)) (hM : ρ (t + 1) ≤ M) (hm0 : 0 < m) {θ : ℝ}
    (h1 : 1 / 2 ≤ θ) (h2 : 1 - 3 / 8 * m / (h + κ + M) ≤ θ) (h3 : 1 - (h + κ) / (h + κ + M) ≤ θ) :
    Small h κ c x y ρ ((κ + h * θ) / (h + κ) * N) (t + 2) := by
  have hh := o.h_pos
  have hκ := o.κ_nonneg
  have hN : 0 ≤ N := (abs_nonneg _).trans hs.1
  have z2 := hz (t + 2) (by omega)
  have z3 := hz (t + 3) (by omega)
  have z4 := hz (t + 4) (by omega)
  have e := o.step (t + 1)
  rw [show t + 1 + 1 = t + 2 from rfl, z2] at e
  have hS : 0 < h + κ + ρ (t + 1) := by linarith [o.rho_pos (t + 1)]
  have hS0 : 0 < h + κ + M := by linarith [o.rho_pos (t + 1)]
  have hs1 := o.small_succ hs z2 z3
  have hr : |c - y (t + 3)| ≤ θ * N := by
    have d := o.dual (t + 2)
    rw [show t + 2 + 1 = t + 3 from rfl, z3] at d
    rw [d, show c - (y (t + 2) + ρ (t + 2) * (x (t + 2) - 0)) = c - y (t + 2) - ρ (t + 2) * x (t + 2) by ring]
    refine le_of_mul_le_mul_left ?_ hS
    rcases le_total (ρ (t + 2)) (h + κ + ρ (t + 1)) with hc | hc
    · have a := coord_r₁ hh hκ o.κ_le (o.rho_pos t) (o.rho_pos (t + 1)) (o.rho_pos (t + 2)) hs.2 hs.1
        (x' := x (t + 2)) (by linarith) hc
      have b : m / 2 ≤ ρ (t + 2) := by linarith [o.rho_ge (t + 1)]
      have b' : 3 / 8 * m / (h + κ + M) * (h + κ + ρ (t + 1)) ≤ 3 / 8 * m := by
        rw [div_mul_eq_mul_div, div_le_iff₀ hS0]
        exact mul_le_mul_of_nonneg_left (by linarith) (by linarith)
      have b2 : (1 - θ) * (h + κ + ρ (t + 1)) ≤ 3 / 8 * m :=
        (mul_le_mul_of_nonneg_right (by linarith) hS.le).trans b'
      have b3 := mul_le_mul_of_nonneg_right (b2.trans (show 3 / 8 * m ≤ 3 / 4 * ρ (t + 2) by linarith)) hN
      linarith
    · have a := coord_r₂ hh hκ o.κ_le (o.rho_pos t) (o.rho_pos (t + 1)) hs.2 hs.1
        (x' := x (t + 2)) (by linarith) (o.rho_le (t + 1)) (o.rho_le t) hc hN
      have b' : (h + κ) / (h + κ + M) * (h + κ + ρ (t + 1)) ≤ h + κ := by
        rw [div_mul_eq_mul_div, div_le_iff₀ hS0]
        exact mul_le_mul_of_nonneg_left (by linarith) (by linarith)
      have b2 : (1 - θ) * (h + κ + ρ (t + 1)) ≤ h + κ :=
        (mul_le_mul_of_nonneg_right (by linarith) hS.le).trans b'
      have b3 := mul_le_mul_of_nonneg_right b2 hN
      linarith
  have e' := o.step (t + 2)
  rw [show t + 2 + 1 = t + 3 from rfl, z3] at e'
  have hx3 := coord_x hh hκ (o.rho_pos (t + 1)) (o.rho_pos (t + 2)) hs1.2 hr (x' := x (t + 3)) (by linarith)
  have hr4 := coord_r hh hκ o.κ_le (o.rho_pos (t + 1)) (o.rho_pos (t + 2)) (o.rho_pos (t + 3)) hs1.2 hr
    (x' := x (t + 3)) (by linarith) (o.rho_le (t + 2)) (o.rho_le (t + 1))
    (by have := mul_le_mul_of_nonneg_right h1 hN; linarith)
  have hhκ : 0 < h + κ := by linarith
  have hθ1 : θ ≤ 1 ∨ 1 ≤ θ := le_total _ _
  refine ⟨?_, ?_⟩
  · have d := o.dual (t + 3)
    rw [show t + 3 + 1 = t + 4 from rfl, z4] at d
    rw [show t + 2 + 2 = t + 4 from rfl, d,
      show c - (y (t + 3) + ρ (t + 3) * (x (t + 3) - 0)) = c - y (t + 3) - ρ (t + 3) * x (t + 3) by ring]
    rcases hθ1 with hθ | hθ
    · refine hr4.trans (mul_le_mul_of_nonneg_right ?_ hN)
      rw [le_div_iff₀ hhκ]
      have := mul_le_mul_of_nonneg_left hθ hκ
      linarith
    · have := (o.small_next hs1 z3).1
      refine this.trans (le_mul_of_one_le_left hN ?_)
      rw [le_div_iff₀ hhκ]
      have := mul_le_mul_of_nonneg_left hθ hh.le
      linarith
  · have e2 : (h + κ) * ((κ + h * θ) / (h + κ) * N) = (κ + h * θ) * N := by
      rw [← mul_assoc, mul_div_cancel₀ _ hhκ.ne']
    rw [show t + 2 + 1 = t + 3 from rfl, e2]
    linarith

/-- With the split variable at zero, every size is of the order of the residual. -/
theorem kink_tame : Tame h κ x z ρ (Small h κ c x y ρ) T where
  start := by
    refine ⟨max |c - y (T + 2)| (h * ((h + κ + ρ T) * |x (T + 1)|) / (h + κ)), le_max_left _ _, ?_⟩
    have := o.h_pos
    have := o.κ_nonneg
    have h3 := le_max_right |c - y (T + 2)| (h * ((h + κ + ρ T) * |x (T + 1)|) / (h + κ))
    rw [div_le_iff₀ (by linarith)] at h3
    linarith
  mono N t ht hk := o.small_succ hk (hz _ (by omega)) (hz _ (by omega))
  nonneg N t hk := (abs_nonneg _).trans hk.1
  primal N t ht hk := by
    rw [hz (t + 2) (by omega), sub_zero]
    have h1 := o.h_pos
    have h2 := o.κ_le
    have := mul_le_mul_of_nonneg_right h2 ((abs_nonneg _).trans hk.1)
    have h3 := hk.2
    have hN := mul_nonneg h1.le ((abs_nonneg _).trans hk.1)
    refine le_of_mul_le_mul_left ?_ h1
    linarith
  dual N t ht hk := by
    rw [hz (t + 2) (by omega), hz (t + 1) (by omega), sub_self, abs_zero, mul_zero]
    linarith [(abs_nonneg _).trans hk.1]
  move N t ht hk := by
    have h1 := o.h_pos
    have h2 := o.κ_nonneg
    have h3 := (o.small_next hk (hz _ (by omega))).2
    have h4 := hk.2
    have hN := (abs_nonneg _).trans hk.1
    have a1 := mul_le_mul_of_nonneg_right o.κ_le hN
    have a2 : (h + κ + ρ (t + 1)) * |x (t + 2) - x (t + 1)|
        ≤ (h + κ + ρ (t + 1)) * |x (t + 2)| + 2 * ((h + κ + ρ t) * |x (t + 1)|) := by
      have b1 := mul_le_mul_of_nonneg_left (abs_sub (x (t + 2)) (x (t + 1)))
        (by linarith [o.rho_pos (t + 1)] : 0 ≤ h + κ + ρ (t + 1))
      have b2 : (h + κ + ρ (t + 1)) * |x (t + 1)| ≤ (2 * (h + κ + ρ t)) * |x (t + 1)| :=
        mul_le_mul_of_nonneg_right (by linarith [o.rho_le t]) (abs_nonneg _)
      linarith
    have a3 := mul_le_mul_of_nonneg_left a2 h1.le
    have a4 := mul_nonneg h1.le hN
    refine le_of_mul_le_mul_left ?_ h1
    linarith
  band m M hm hf ε hε := by
    have h1 := o.h_pos
    have h2 := o.κ_nonneg
    obtain ⟨s, -, hs, hs'⟩ := (frequently_atTop.mp hf) 0
    have hS0 : 0 < h + κ + M := by linarith
    set θ : ℝ := max (1 / 2) (max (1 - 3 / 8 * m / (h + κ + M)) (1 - (h + κ) / (h + κ + M))) with hθ
    have t1 : 1 / 2 ≤ θ := le_max_left _ _
    have t2 : 1 - 3 / 8 * m / (h + κ + M) ≤ θ := (le_max_left _ _).trans (le_max_right _ _)
    have t3 : 1 - (h + κ) / (h + κ + M) ≤ θ := (le_max_right _ _).trans (le_max_right _ _)
    have hlt : θ < 1 := by
      have p1 : 0 < 3 / 8 * m / (h + κ + M) := div_pos (by linarith) hS0
      have p2 : 0 < (h + κ) / (h + κ + M) := div_pos (by linarith) hS0
      exact max_lt (by norm_num) (max_lt (by linarith) (by linarith))
    have hhκ : 0 < h + κ := by linarith
    obtain ⟨N, hN⟩ : ∃ N, Small h κ c x y ρ N T := by
      refine ⟨max |c - y (T + 2)| (h * ((h + κ + ρ T) * |x (T + 1)|) / (h + κ)), le_max_left _ _, ?_⟩
      have h3 := le_max_right |c - y (T + 2)| (h * ((h + κ + ρ T) * |x (T + 1)|) / (h + κ))
      rw [div_le_iff₀ (by linarith)] at h3
      linarith
    refine reduce (K := Small h κ c x y ρ) (Q := fun t => m ≤ ρ (t + 1) ∧ ρ (t + 1) ≤ M) (θ := (κ + h * θ) / (h + κ)) (N := N)
      (div_nonneg (add_nonneg h2 (mul_nonneg h1.le (by linarith))) hhκ.le) ?_ hN
      (fun N t ht hk => o.small_succ hk (hz _ (by omega)) (hz _ (by omega))) ?_ ?_ ?_ hε
    · rw [div_lt_one hhκ]
      have := mul_lt_mul_of_pos_left hlt h1
      linarith
    · rintro N N' t - hle ⟨k1, k2⟩
      exact ⟨k1.trans hle, k2.trans (mul_le_mul_of_nonneg_left hle hhκ.le)⟩
    · rintro N t ht hk ⟨q1, q2⟩
      exact ⟨t + 2, by omega, o.kink_reduce hz ht hk q1 q2 hm t1 t2 t3⟩
    · rw [frequently_atTop] at hf ⊢
      intro a
      obtain ⟨b, hb, hb'⟩ := hf (a + 1)
      exact ⟨b - 1, by omega, by rwa [Nat.sub_add_cancel (by omega)]⟩
  still hρ := by
    have h1 := o.h_pos
    have h2 := o.κ_nonneg
    have hhκ : 0 < h + κ := by linarith
    obtain ⟨N, hN⟩ : ∃ N, Small h κ c x y ρ N T := by
      refine ⟨max |c - y (T + 2)| (h * ((h + κ + ρ T) * |x (T + 1)|) / (h + κ)), le_max_left _ _, ?_⟩
      have h3 := le_max_right |c - y (T + 2)| (h * ((h + κ + ρ T) * |x (T + 1)|) / (h + κ))
      rw [div_le_iff₀ (by linarith)] at h3
      linarith
    have hall : ∀ s, Small h κ c x y ρ N (T + s) := by
      intro s
      induction s with
      | zero => exact hN
      | succ s ih =>
        exact o.small_succ ih (hz (T + s + 2) (by omega)) (hz (T + s + 3) (by omega))
    have hN0 := (abs_nonneg _).trans hN.1
    have hxb : ∀ s, h * |x (T + s + 1)| ≤ N := by
      intro s
      have := (hall s).2
      have q := mul_nonneg h1.le (mul_nonneg (o.rho_pos (T + s)).le (abs_nonneg (x (T + s + 1))))
      refine le_of_mul_le_mul_left ?_ hhκ
      linarith
    have hzc : Tendsto (fun t => z (t + 1) - z t) atTop (𝓝 0) := by
      refine (tendsto_add_atTop_iff_nat T).mp ?_
      refine tendsto_const_nhds.congr fun t => ?_
      rw [hz (t + T + 1) (by omega), hz (t + T) (by omega), sub_self]
    refine ⟨?_, hzc⟩
    have habs : Tendsto (fun s => |x (T + s + 2) - x (T + s + 1)|) atTop (𝓝 0) := by
      refine tendsto_zero_of_contraction (κ := κ / (h + κ))
        (a := fun s => (2 * ρ (T + s + 2) + ρ (T + s + 1)) * N / (h * (h + κ)))
        (div_nonneg h2 hhκ.le) (by rw [div_lt_one hhκ]; linarith) (fun s => abs_nonneg _) ?_ fun s => ?_
      · have r1 : Tendsto (fun s => ρ (T + s + 2)) atTop (𝓝 0) :=
          ((tendsto_add_atTop_iff_nat (T + 2)).mpr hρ).congr fun s => by congr 1; omega
        have r2 : Tendsto (fun s => ρ (T + s + 1)) atTop (𝓝 0) :=
          ((tendsto_add_atTop_iff_nat (T + 1)).mpr hρ).congr fun s => by congr 1; omega
        have := (((r1.const_mul 2).add r2).mul_const N).div_const (h * (h + κ))
        simpa using this
      · have s1 := o.step (T + s + 1)
        have s2 := o.step (T + s + 2)
        have d := o.dual (T + s + 2)
        rw [hz (T + s + 1 + 1) (by omega)] at s1
        rw [hz (T + s + 2 + 1) (by omega)] at s2 d
        rw [show T + s + 1 + 1 = T + s + 2 from rfl] at s1
        rw [show T + s + 2 + 1 = T + s + 3 from rfl] at s2 d
        change |x (T + s + 3) - x (T + s + 2)| ≤ _
        have e : (h + κ) * (x (T + s + 3) - x (T + s + 2)) = κ * (x (T + s + 2) - x (T + s + 1))
            + (ρ (T + s + 1) * x (T + s + 2) - ρ (T + s + 2) * x (T + s + 2) - ρ (T + s + 2) * x (T + s + 3)) := by
          linear_combination s2 - s1 - d
        have b2 := hxb (s + 1)
        have b3 := hxb (s + 2)
        rw [show T + (s + 1) + 1 = T + s + 2 by omega] at b2
        rw [show T + (s + 2) + 1 = T + s + 3 by omega] at b3
        have p1 := o.rho_pos (T + s + 1)
        have p2 := o.rho_pos (T + s + 2)
        have hb : |ρ (T + s + 1) * x (T + s + 2) - ρ (T + s + 2) * x (T + s + 2) - ρ (T + s + 2) * x (T + s + 3)|
            ≤ ρ (T + s + 1) * |x (T + s + 2)| + ρ (T + s + 2) * |x (T + s + 2)|
              + ρ (T + s + 2) * |x (T + s + 3)| := by
          refine (abs_sub _ _).trans (add_le_add ((abs_sub _ _).trans (le_of_eq ?_)) (le_of_eq ?_))
          · rw [abs_mul, abs_mul, abs_of_pos p1, abs_of_pos p2]
          · rw [abs_mul, abs_of_pos p2]
        have he : (h + κ) * |x (T + s + 3) - x (T + s + 2)| ≤ κ * |x (T + s + 2) - x (T + s + 1)|
            + (ρ (T + s + 1) * |x (T + s + 2)| + ρ (T + s + 2) * |x (T + s + 2)|
              + ρ (T + s + 2) * |x (T + s + 3)|) := by
          rw [← abs_of_pos hhκ, ← abs_mul, e]
          refine (abs_add_le _ _).trans (add_le_add (le_of_eq ?_) hb)
          rw [abs_mul, abs_of_nonneg h2]
        have m1 := mul_le_mul_of_nonneg_left b2 p1.le
        have m2 := mul_le_mul_of_nonneg_left b2 p2.le
        have m3 := mul_le_mul_of_nonneg_left b3 p2.le
        have he' := mul_le_mul_of_nonneg_left he h1.le
        rw [div_mul_eq_mul_div, div_add_div _ _ hhκ.ne' (mul_pos h1 hhκ).ne', le_div_iff₀
          (mul_pos hhκ (mul_pos h1 hhκ))]
        have := mul_le_mul_of_nonneg_left (show h * ((h + κ) * |x (T + s + 3) - x (T + s + 2)|)
          ≤ h * (κ * |x (T + s + 2) - x (T + s + 1)|) + (2 * ρ (T + s + 2) + ρ (T + s + 1)) * N by linarith) hhκ.le
        linarith
    have : Tendsto (fun s => x (T + s + 2) - x (T + s + 1)) atTop (𝓝 0) :=
      (tendsto_zero_iff_abs_tendsto_zero _).mpr habs
    refine (tendsto_add_atTop_iff_nat (T + 1)).mp (this.congr fun s => ?_)
    rw [show s + (T + 1) + 1 = T + s + 2 by omega, show s + (T + 1) = T + s + 1 by omega]

end kink

/-- Every coordinate is eventually tame. -/
theorem tame : ∃ K T, Tame h κ x z ρ K T := by
  rcases o.settles with ⟨T, v, h1⟩ | ⟨T, h1⟩
  · exact ⟨_, T, o.free_tame h1⟩
  · exact ⟨_, T, o.kink_tame h1⟩

end Coord

end GLM
