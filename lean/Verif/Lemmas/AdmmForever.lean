/-
  The iterates of `Lemmas/AdmmCycle.lean` never settle.
-/
import Verif.Lemmas.AdmmTurn

namespace GLM
namespace Orb
variable {eps : ℝ} {x₀ x₁ z₀ z₁ y ρ : ℕ → ℝ}
set_option linter.style.longLine false

/-- The iterates are where the cycle begins. -/
def Sec (x₀ x₁ z₀ z₁ y ρ : ℕ → ℝ) (t : ℕ) : Prop :=
  ∃ u v : ℝ, |u| ≤ 138e-4 ∧ |v| ≤ 195e-5 ∧
    Close x₀ x₁ z₀ z₁ y ρ t (1 / 32) 1e-10 0 (579349508692365835e-18 + 60090702947845805e-17 * u + (-84656084656084656e-18) * v) ((-84965255731922399e-18) + (-84656084656084656e-18) * u + 12345679012345679e-18 * v) ((-1602e-4) + 1 * u + 0 * v) (193e-4 + 0 * u + 1 * v) (3 / 2)

theorem toSec (o : Orb eps x₀ x₁ z₀ z₁ y ρ) (heps : eps ≤ 1e-15) {t : ℕ} (hr : ρ t = 1 / 16)
    (hr' : ρ (t + 1) = 1 / 32) (hy : y (t + 1) = 3 / 2) (b₀ : |x₀ t| ≤ 4) (b₁ : |x₁ t| ≤ 1)
    (hu : |z₀ (t + 1) - (-1602e-4)| ≤ 138e-4) (hv : |z₁ (t + 1) - 193e-4| ≤ 195e-5) :
    Sec x₀ x₁ z₀ z₁ y ρ (t + 1) := by
  obtain ⟨u, hu'⟩ : ∃ u, u = z₀ (t + 1) - (-1602e-4) := ⟨_, rfl⟩
  obtain ⟨v, hv'⟩ : ∃ v, v = z₁ (t + 1) - 193e-4 := ⟨_, rfl⟩
  rw [← hu'] at hu
  rw [← hv'] at hv
  have hu1 := abs_le.mp hu
  have hv1 := abs_le.mp hv
  have e0 : z₀ (t + 1) = ((-1602e-4) + 1 * u + 0 * v) := by linarith
  have e1 : z₁ (t + 1) = (193e-4 + 0 * u + 1 * v) := by linarith
  have e2 : x₀ t = (-1602e-4) + u := by rw [← o.split₀]; linarith
  have hs := o.solve heps hr (by norm_num) b₀ b₁ (X₀ := (-1602e-4) + u) (W := 3 / 2 - 1 / 16 * (193e-4 + v))
    (X₀' := (579349508692365835e-18 + 60090702947845805e-17 * u + (-84656084656084656e-18) * v)) (X₁' := ((-84965255731922399e-18) + (-84656084656084656e-18) * u + 12345679012345679e-18 * v)) (dx := 0) (dw := 0) (κ := 1e-15) (δ' := 1e-10)
    (by rw [e2, sub_self, abs_zero])
    (by
      have : y (t + 1) - 1 / 16 * z₁ (t + 1) - (3 / 2 - 1 / 16 * (193e-4 + v)) = 0 := by
        rw [hy, e1]; ring
      rw [this, abs_zero])
    (abs_le.mpr (by constructor <;> linarith)) (abs_le.mpr (by constructor <;> linarith))
    (by norm_num) (by norm_num)
  exact ⟨u, v, hu, hv, hr', hs.1, hs.2, by rw [e0, sub_self, abs_zero]; norm_num,
    by rw [e1, sub_self, abs_zero]; norm_num, by rw [hy, sub_self, abs_zero]⟩

/-- One turn leads back. -/
theorem Sec.next (o : Orb eps x₀ x₁ z₀ z₁ y ρ) (heps : eps ≤ 1e-15) {t : ℕ} (ht : 0 < t)
    (h : Sec x₀ x₁ z₀ z₁ y ρ t) :
    (∀ i < 35, Big x₀ x₁ z₀ z₁ ρ (t + i)) ∧ x₁ (t + 3) ≤ -1 / 5 ∧ 1 / 4 ≤ x₁ (t + 25) ∧
      Sec x₀ x₁ z₀ z₁ y ρ (t + 35) := by
  obtain ⟨u, v, hu, hv, h⟩ := h
  obtain ⟨h1, ⟨h2, h3, h4⟩, h5, h6, h7⟩ := o.turn_all heps ht hu hv h
  obtain ⟨c1, -, -, c4, c5, c6⟩ := h7
  refine ⟨h1, h5, h6, o.toSec heps h2 c1 ?_ h3 h4 ?_ ?_⟩
  · exact sub_eq_zero.mp (abs_eq_zero.mp (le_antisymm c6 (abs_nonneg _)))
  · rw [abs_le] at hu hv c4 ⊢
    change _ ≤ z₀ (t + 35) - _ ∧ z₀ (t + 35) - _ ≤ _
    constructor <;> linarith
  · rw [abs_le] at hu hv c5 ⊢
    change _ ≤ z₁ (t + 35) - _ ∧ z₁ (t + 35) - _ ≤ _
    constructor <;> linarith

/-- The start: the coefficients at `(-7/4, 1/4)`, the multiplier at zero, and the penalty parameter one
for the first two iterations. -/
structure Start (x₀ x₁ y ρ : ℕ → ℝ) : Prop where
  coef₀ : x₀ 0 = -7 / 4
  coef₁ : x₁ 0 = 1 / 4
  mult : y 0 = 0
  rho : ρ 0 = 1
  rho' : ρ 1 = 1

theorem Start.close (o : Orb eps x₀ x₁ z₀ z₁ y ρ) (heps : eps ≤ 1e-15) (s : Start x₀ x₁ y ρ) :
    z₁ 1 = 0 ∧ Close x₀ x₁ z₀ z₁ y ρ 1 1 1e-12 0 (-7 / 4) (1 / 4) (-7 / 4) 0 (1 / 4) := by
  have e1 := o.dual 0
  have e2 := o.sub_eq (0 + 1)
  rw [s.mult, s.rho, s.coef₁] at e1
  have hz : z₁ (0 + 1) = 0 := split_zero (r := 1) (a := 1 / 4) one_pos e2 (by linarith)
    (by rw [abs_of_pos] <;> norm_num)
  have hy : y (0 + 1) = 1 / 4 := by rw [e1, hz]; ring
  have hs := o.solve (t := 0) heps s.rho (by norm_num)
    (by rw [s.coef₀, abs_of_neg] <;> norm_num) (by rw [s.coef₁, abs_of_pos] <;> norm_num)
    (X₀ := -7 / 4) (W := 1 / 4) (X₀' := -7 / 4) (X₁' := 1 / 4) (dx := 0) (dw := 0) (κ := 0)
    (δ' := 1e-12) (by rw [s.coef₀, sub_self, abs_zero])
    (by rw [hy, hz, mul_zero, sub_zero, sub_self, abs_zero])
    (by rw [abs_le]; norm_num) (by rw [abs_le]; norm_num) (by norm_num) (by norm_num)
  have h0 := o.split₀ 0
  rw [s.coef₀] at h0
  refine ⟨hz, s.rho', hs.1, hs.2, ?_, ?_, ?_⟩
  · rw [show z₀ 1 = -7 / 4 from h0, sub_self, abs_zero]; norm_num
  · rw [show z₁ 1 = 0 from hz, sub_zero, abs_zero]; norm_num
  · rw [show y 1 = 1 / 4 from hy, sub_self, abs_zero]

theorem Start.sec (o : Orb eps x₀ x₁ z₀ z₁ y ρ) (heps : eps ≤ 1e-15) (s : Start x₀ x₁ y ρ) :
    (∀ i < 9, Big x₀ x₁ z₀ z₁ ρ (1 + i)) ∧ Sec x₀ x₁ z₀ z₁ y ρ 10 := by
  obtain ⟨-, hc⟩ := s.close o heps
  obtain ⟨h1, ⟨h2, h3, h4⟩, c1, -, -, c4, c5, c6⟩ := o.walk_all heps Nat.one_pos hc
  refine ⟨h1, o.toSec (t := 9) heps h2 c1 ?_ h3 h4 ?_ ?_⟩
  · exact sub_eq_zero.mp (abs_eq_zero.mp (le_antisymm c6 (abs_nonneg _)))
  · change |z₀ 10 - _| ≤ _
    replace c4 : |z₀ 10 - _| ≤ _ := c4
    rw [abs_le] at c4 ⊢
    constructor <;> linarith
  · change |z₁ 10 - _| ≤ _
    replace c5 : |z₁ 10 - _| ≤ _ := c5
    rw [abs_le] at c5 ⊢
    constructor <;> linarith

theorem Start.turns (o : Orb eps x₀ x₁ z₀ z₁ y ρ) (heps : eps ≤ 1e-15) (s : Start x₀ x₁ y ρ) (k : ℕ) :
    Sec x₀ x₁ z₀ z₁ y ρ (10 + 35 * k) := by
  induction k with
  | zero => exact (s.sec o heps).2
  | succ k ih => exact (ih.next o heps (by omega)).2.2.2

/-- At every iteration one of the residuals is not small. -/
theorem Start.forever (o : Orb eps x₀ x₁ z₀ z₁ y ρ) (heps : eps ≤ 1e-15) (s : Start x₀ x₁ y ρ) (t : ℕ) :
    Big x₀ x₁ z₀ z₁ ρ t := by
  rcases Nat.eq_zero_or_pos t with rfl | ht
  · left
    have h := (s.close o heps).1
    rw [o.split₀, zero_add, h, s.coef₁]
    norm_num
  by_cases h9 : t < 10
  · have := (s.sec o heps).1 (t - 1) (by omega)
    rwa [show 1 + (t - 1) = t by omega] at this
  · have := ((s.turns o heps ((t - 10) / 35)).next o heps (by omega)).1 ((t - 10) % 35)
      (Nat.mod_lt _ (by norm_num))
    rwa [show 10 + 35 * ((t - 10) / 35) + (t - 10) % 35 = t by omega] at this

/-- The slope keeps changing its sign. -/
theorem Start.swings (o : Orb eps x₀ x₁ z₀ z₁ y ρ) (heps : eps ≤ 1e-15) (s : Start x₀ x₁ y ρ) (k : ℕ) :
    x₁ (13 + 35 * k) ≤ -1 / 5 ∧ 1 / 4 ≤ x₁ (35 + 35 * k) := by
  obtain ⟨-, h1, h2, -⟩ := (s.turns o heps k).next o heps (by omega)
  rw [show 10 + 35 * k + 3 = 13 + 35 * k by omega] at h1
  rw [show 10 + 35 * k + 25 = 35 + 35 * k by omega] at h2
  exact ⟨h1, h2⟩

end Orb
end GLM
