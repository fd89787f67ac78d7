/-
  The first iterations, and eighteen of the thirty-five iterations that then repeat for ever.  The numbers
  are approximate iterates; that they are what the iteration makes of the preceding ones is proved.
-/
import Verif.Lemmas.AdmmCycle

namespace GLM
namespace Orb
variable {eps : ℝ} {x₀ x₁ z₀ z₁ y ρ : ℕ → ℝ}
set_option linter.style.longLine false

/-- Iteration 1. -/
theorem walk1 (o : Orb eps x₀ x₁ z₀ z₁ y ρ) (heps : eps ≤ 1e-15) {t : ℕ} (ht : 0 < t)
    (h : Close x₀ x₁ z₀ z₁ y ρ t 1 1e-12 0 (-7 / 4) (1 / 4) (-7 / 4) 0 (1 / 4)) :
    Close x₀ x₁ z₀ z₁ y ρ (t + 1) 2 1705e-15 1001e-15 (-1716981132075471698e-18) 243710691823899371e-18 (-7 / 4) 0 (1 / 2) ∧ Big x₀ x₁ z₀ z₁ ρ t := by
  exact o.zero heps ht h 2 1705e-15 1001e-15 (-1716981132075471698e-18) 243710691823899371e-18 (1 / 2) 1e-15 249999e-6 250001e-6 0 1e-6 1e-6 1 1
    (by norm_num) (by norm_num) (by norm_num) (by norm_num) (by norm_num) (by norm_num) (by norm_num)
    (by rw [abs_le]; norm_num) (by rw [abs_le]; norm_num)
    (by rw [abs_le]; norm_num) (by rw [abs_le]; norm_num)
    (by norm_num)
    (by rw [abs_le]; norm_num)
    (by rw [abs_le]; norm_num)
    (by norm_num) (by norm_num)
    (le_max_of_le_right (by norm_num)) (by rw [abs_le]; norm_num) (le_max_of_le_left (by norm_num))
    (by rw [abs_le]; norm_num) (by rw [abs_le]; norm_num)
    (Or.inl ⟨by norm_num, by norm_num⟩)
    (Or.inl (by norm_num))

/-- Iteration 2. -/
theorem walk2 (o : Orb eps x₀ x₁ z₀ z₁ y ρ) (heps : eps ≤ 1e-15) {t : ℕ} (ht : 0 < t)
    (h : Close x₀ x₁ z₀ z₁ y ρ t 2 1705e-15 1001e-15 (-1716981132075471698e-18) 243710691823899371e-18 (-7 / 4) 0 (1 / 2)) :
    Close x₀ x₁ z₀ z₁ y ρ (t + 1) 2 2254e-15 4412e-15 (-1652205263790409806e-18) 229860193085766935e-18 (-1716981132075471698e-18) 0 987421383647798742e-18 ∧ Big x₀ x₁ z₀ z₁ ρ t := by
  exact o.zero heps ht h 2 2254e-15 4412e-15 (-1652205263790409806e-18) 229860193085766935e-18 987421383647798742e-18 1e-15 24371e-5 243711e-6 33018e-6 33019e-6 1e-6 1 1
    (by norm_num) (by norm_num) (by norm_num) (by norm_num) (by norm_num) (by norm_num) (by norm_num)
    (by rw [abs_le]; norm_num) (by rw [abs_le]; norm_num)
    (by rw [abs_le]; norm_num) (by rw [abs_le]; norm_num)
    (by norm_num)
    (by rw [abs_le]; norm_num)
    (by rw [abs_le]; norm_num)
    (by norm_num) (by norm_num)
    (le_max_of_le_right (by norm_num)) (by rw [abs_le]; norm_num) (le_max_of_le_right (by norm_num))
    (by rw [abs_le]; norm_num) (by rw [abs_le]; norm_num)
    (Or.inr (Or.inr ⟨by norm_num, by norm_num, by norm_num⟩))
    (Or.inl (by norm_num))

/-- Iteration 3. -/
theorem walk3 (o : Orb eps x₀ x₁ z₀ z₁ y ρ) (heps : eps ≤ 1e-15) {t : ℕ} (ht : 0 < t)
    (h : Close x₀ x₁ z₀ z₁ y ρ t 2 2254e-15 4412e-15 (-1652205263790409806e-18) 229860193085766935e-18 (-1716981132075471698e-18) 0 987421383647798742e-18) :
    Close x₀ x₁ z₀ z₁ y ρ (t + 1) 2 3083e-15 8921e-15 (-1559159275472922855e-18) 213875516656371174e-18 (-1652205263790409806e-18) 0 1447141769819332612e-18 ∧ Big x₀ x₁ z₀ z₁ ρ t := by
  exact o.zero heps ht h 2 3083e-15 8921e-15 (-1559159275472922855e-18) 213875516656371174e-18 1447141769819332612e-18 1e-15 22986e-5 229861e-6 64775e-6 64776e-6 1e-6 1 1
    (by norm_num) (by norm_num) (by norm_num) (by norm_num) (by norm_num) (by norm_num) (by norm_num)
    (by rw [abs_le]; norm_num) (by rw [abs_le]; norm_num)
    (by rw [abs_le]; norm_num) (by rw [abs_le]; norm_num)
    (by norm_num)
    (by rw [abs_le]; norm_num)
    (by rw [abs_le]; norm_num)
    (by norm_num) (by norm_num)
    (le_max_of_le_right (by norm_num)) (by rw [abs_le]; norm_num) (le_max_of_le_right (by norm_num))
    (by rw [abs_le]; norm_num) (by rw [abs_le]; norm_num)
    (Or.inr (Or.inr ⟨by norm_num, by norm_num, by norm_num⟩))
    (Or.inl (by norm_num))

/-- Iteration 4. -/
theorem walk4 (o : Orb eps x₀ x₁ z₀ z₁ y ρ) (heps : eps ≤ 1e-15) {t : ℕ} (ht : 0 < t)
    (h : Close x₀ x₁ z₀ z₁ y ρ t 2 3083e-15 8921e-15 (-1559159275472922855e-18) 213875516656371174e-18 (-1652205263790409806e-18) 0 1447141769819332612e-18) :
    Close x₀ x₁ z₀ z₁ y ρ (t + 1) 1 7544e-15 0 (-1491206528849032727e-18) 206557813966634187e-18 (-1559159275472922855e-18) 18744640156603748e-17 (3 / 2) ∧ Big x₀ x₁ z₀ z₁ ρ t := by
  exact o.pos heps ht h 1 7544e-15 (-1491206528849032727e-18) 206557813966634187e-18 18744640156603748e-17 1e-15 26429e-6 2643e-5 93045e-6 93046e-6 187447e-6 187446e-6 1 1 7544e-15
    (by norm_num) (by norm_num) (by norm_num) (by norm_num) (by norm_num) (by norm_num) (by norm_num) (by norm_num) (by norm_num)
    (by rw [abs_le]; norm_num) (by rw [abs_le]; norm_num)
    (by norm_num) (by rw [abs_le]; norm_num)
    (by norm_num)
    (by rw [abs_le]; norm_num)
    (by rw [abs_le]; norm_num)
    (by norm_num) (by norm_num)
    (by norm_num) (by norm_num) (le_max_of_le_right (by norm_num))
    (by rw [abs_le]; norm_num) (by rw [abs_le]; norm_num)
    (le_max_of_le_right (by norm_num))
    (Or.inr (Or.inl ⟨by norm_num, by norm_num⟩))
    (Or.inr (by norm_num))

/-- Iteration 5. -/
theorem walk5 (o : Orb eps x₀ x₁ z₀ z₁ y ρ) (heps : eps ≤ 1e-15) {t : ℕ} (ht : 0 < t)
    (h : Close x₀ x₁ z₀ z₁ y ρ t 1 7544e-15 0 (-1491206528849032727e-18) 206557813966634187e-18 (-1559159275472922855e-18) 18744640156603748e-17 (3 / 2)) :
    Close x₀ x₁ z₀ z₁ y ρ (t + 1) (1 / 2) 8743e-15 0 (-1368042096985246711e-18) 189569612337712101e-18 (-1491206528849032727e-18) 206557813966634187e-18 (3 / 2) ∧ Big x₀ x₁ z₀ z₁ ρ t := by
  exact o.pos heps ht h (1 / 2) 8743e-15 (-1368042096985246711e-18) 189569612337712101e-18 206557813966634187e-18 1e-15 0 0 67952e-6 67953e-6 19112e-6 19111e-6 1 1 7545e-15
    (by norm_num) (by norm_num) (by norm_num) (by norm_num) (by norm_num) (by norm_num) (by norm_num) (by norm_num) (by norm_num)
    (by rw [abs_le]; norm_num) (by rw [abs_le]; norm_num)
    (by norm_num) (by rw [abs_le]; norm_num)
    (by norm_num)
    (by rw [abs_le]; norm_num)
    (by rw [abs_le]; norm_num)
    (by norm_num) (by norm_num)
    (by norm_num) (by norm_num) (le_max_of_le_right (by norm_num))
    (by rw [abs_le]; norm_num) (by rw [abs_le]; norm_num)
    (le_max_of_le_right (by norm_num))
    (Or.inr (Or.inl ⟨by norm_num, by norm_num⟩))
    (Or.inr (by norm_num))

/-- Iteration 6. -/
theorem walk6 (o : Orb eps x₀ x₁ z₀ z₁ y ρ) (heps : eps ≤ 1e-15) {t : ℕ} (ht : 0 < t)
    (h : Close x₀ x₁ z₀ z₁ y ρ t (1 / 2) 8743e-15 0 (-1368042096985246711e-18) 189569612337712101e-18 (-1491206528849032727e-18) 206557813966634187e-18 (3 / 2)) :
    Close x₀ x₁ z₀ z₁ y ρ (t + 1) (1 / 4) 1028e-14 0 (-1139837418592014209e-18) 157400472218067923e-18 (-1368042096985246711e-18) 189569612337712101e-18 (3 / 2) ∧ Big x₀ x₁ z₀ z₁ ρ t := by
  exact o.pos heps ht h (1 / 4) 1028e-14 (-1139837418592014209e-18) 157400472218067923e-18 189569612337712101e-18 1e-15 0 0 123164e-6 123165e-6 16989e-6 16988e-6 1 (-1) 8745e-15
    (by norm_num) (by norm_num) (by norm_num) (by norm_num) (by norm_num) (by norm_num) (by norm_num) (by norm_num) (by norm_num)
    (by rw [abs_le]; norm_num) (by rw [abs_le]; norm_num)
    (by norm_num) (by rw [abs_le]; norm_num)
    (by norm_num)
    (by rw [abs_le]; norm_num)
    (by rw [abs_le]; norm_num)
    (by norm_num) (by norm_num)
    (by norm_num) (by norm_num) (le_max_of_le_right (by norm_num))
    (by rw [abs_le]; norm_num) (by rw [abs_le]; norm_num)
    (le_max_of_le_right (by norm_num))
    (Or.inr (Or.inl ⟨by norm_num, by norm_num⟩))
    (Or.inr (by norm_num))

/-- Iteration 7. -/
theorem walk7 (o : Orb eps x₀ x₁ z₀ z₁ y ρ) (heps : eps ≤ 1e-15) {t : ℕ} (ht : 0 < t)
    (h : Close x₀ x₁ z₀ z₁ y ρ t (1 / 4) 1028e-14 0 (-1139837418592014209e-18) 157400472218067923e-18 (-1368042096985246711e-18) 189569612337712101e-18 (3 / 2)) :
    Close x₀ x₁ z₀ z₁ y ρ (t + 1) (1 / 8) 1221e-14 0 (-74568025328475204e-17) 101833403263211456e-18 (-1139837418592014209e-18) 157400472218067923e-18 (3 / 2) ∧ Big x₀ x₁ z₀ z₁ ρ t := by
  exact o.pos heps ht h (1 / 8) 1221e-14 (-74568025328475204e-17) 101833403263211456e-18 157400472218067923e-18 1e-15 0 0 228204e-6 228205e-6 3217e-5 32169e-6 1 (-1) 1029e-14
    (by norm_num) (by norm_num) (by norm_num) (by norm_num) (by norm_num) (by norm_num) (by norm_num) (by norm_num) (by norm_num)
    (by rw [abs_le]; norm_num) (by rw [abs_le]; norm_num)
    (by norm_num) (by rw [abs_le]; norm_num)
    (by norm_num)
    (by rw [abs_le]; norm_num)
    (by rw [abs_le]; norm_num)
    (by norm_num) (by norm_num)
    (by norm_num) (by norm_num) (le_max_of_le_right (by norm_num))
    (by rw [abs_le]; norm_num) (by rw [abs_le]; norm_num)
    (le_max_of_le_right (by norm_num))
    (Or.inr (Or.inl ⟨by norm_num, by norm_num⟩))
    (Or.inr (by norm_num))

/-- Iteration 8. -/
theorem walk8 (o : Orb eps x₀ x₁ z₀ z₁ y ρ) (heps : eps ≤ 1e-15) {t : ℕ} (ht : 0 < t)
    (h : Close x₀ x₁ z₀ z₁ y ρ t (1 / 8) 1221e-14 0 (-74568025328475204e-17) 101833403263211456e-18 (-1139837418592014209e-18) 157400472218067923e-18 (3 / 2)) :
    Close x₀ x₁ z₀ z₁ y ρ (t + 1) (1 / 16) 1438e-14 0 (-146598721996832422e-18) 17376713075214634e-18 (-74568025328475204e-17) 101833403263211456e-18 (3 / 2) ∧ Big x₀ x₁ z₀ z₁ ρ t := by
  exact o.pos heps ht h (1 / 16) 1438e-14 (-146598721996832422e-18) 17376713075214634e-18 101833403263211456e-18 1e-15 0 0 394157e-6 394158e-6 55568e-6 55567e-6 1 (-1) 1222e-14
    (by norm_num) (by norm_num) (by norm_num) (by norm_num) (by norm_num) (by norm_num) (by norm_num) (by norm_num) (by norm_num)
    (by rw [abs_le]; norm_num) (by rw [abs_le]; norm_num)
    (by norm_num) (by rw [abs_le]; norm_num)
    (by norm_num)
    (by rw [abs_le]; norm_num)
    (by rw [abs_le]; norm_num)
    (by norm_num) (by norm_num)
    (by norm_num) (by norm_num) (le_max_of_le_right (by norm_num))
    (by rw [abs_le]; norm_num) (by rw [abs_le]; norm_num)
    (le_max_of_le_right (by norm_num))
    (Or.inr (Or.inl ⟨by norm_num, by norm_num⟩))
    (Or.inr (by norm_num))

/-- Iteration 9. -/
theorem walk9 (o : Orb eps x₀ x₁ z₀ z₁ y ρ) (heps : eps ≤ 1e-15) {t : ℕ} (ht : 0 < t)
    (h : Close x₀ x₁ z₀ z₁ y ρ t (1 / 16) 1438e-14 0 (-146598721996832422e-18) 17376713075214634e-18 (-74568025328475204e-17) 101833403263211456e-18 (3 / 2)) :
    Close x₀ x₁ z₀ z₁ y ρ (t + 1) (1 / 32) 1632e-14 0 587685430195082529e-18 (-86140430957011537e-18) (-146598721996832422e-18) 17376713075214634e-18 (3 / 2) ∧ Big x₀ x₁ z₀ z₁ ρ t := by
  exact o.pos heps ht h (1 / 32) 1632e-14 587685430195082529e-18 (-86140430957011537e-18) 17376713075214634e-18 1e-15 0 0 599081e-6 599082e-6 84457e-6 84456e-6 1 (-1) 144e-13
    (by norm_num) (by norm_num) (by norm_num) (by norm_num) (by norm_num) (by norm_num) (by norm_num) (by norm_num) (by norm_num)
    (by rw [abs_le]; norm_num) (by rw [abs_le]; norm_num)
    (by norm_num) (by rw [abs_le]; norm_num)
    (by norm_num)
    (by rw [abs_le]; norm_num)
    (by rw [abs_le]; norm_num)
    (by norm_num) (by norm_num)
    (by norm_num) (by norm_num) (le_max_of_le_right (by norm_num))
    (by rw [abs_le]; norm_num) (by rw [abs_le]; norm_num)
    (le_max_of_le_right (by norm_num))
    (Or.inr (Or.inl ⟨by norm_num, by norm_num⟩))
    (Or.inr (by norm_num))

/-- The first iterations. -/
theorem walk_all (o : Orb eps x₀ x₁ z₀ z₁ y ρ) (heps : eps ≤ 1e-15) {t : ℕ} (ht : 0 < t)
    (h : Close x₀ x₁ z₀ z₁ y ρ t 1 1e-12 0 (-7 / 4) (1 / 4) (-7 / 4) 0 (1 / 4)) :
    (∀ i < 9, Big x₀ x₁ z₀ z₁ ρ (t + i)) ∧
    (ρ (t + 8) = 1 / 16 ∧ |x₀ (t + 8)| ≤ 4 ∧ |x₁ (t + 8)| ≤ 1) ∧
    Close x₀ x₁ z₀ z₁ y ρ (t + 9) (1 / 32) 1632e-14 0 587685430195082529e-18 (-86140430957011537e-18) (-146598721996832422e-18) 17376713075214634e-18 (3 / 2) := by
  obtain ⟨h, b0⟩ := o.walk1 heps (by omega) h
  obtain ⟨h, b1⟩ := o.walk2 heps (by omega) h
  obtain ⟨h, b2⟩ := o.walk3 heps (by omega) h
  obtain ⟨h, b3⟩ := o.walk4 heps (by omega) h
  obtain ⟨h, b4⟩ := o.walk5 heps (by omega) h
  obtain ⟨h, b5⟩ := o.walk6 heps (by omega) h
  obtain ⟨h, b6⟩ := o.walk7 heps (by omega) h
  obtain ⟨h, b7⟩ := o.walk8 heps (by omega) h
  have k0 : ρ (t + 8) = _ := h.rho
  have k1 : |x₀ (t + 8) - _| ≤ _ := h.coef₀
  have k2 : |x₁ (t + 8) - _| ≤ _ := h.coef₁
  rw [abs_le] at k1 k2
  obtain ⟨h, b8⟩ := o.walk9 heps (by omega) h
  refine ⟨fun i hi => ?_, ⟨k0, abs_le.mpr ⟨by linarith, by linarith⟩,
    abs_le.mpr ⟨by linarith, by linarith⟩⟩, h⟩
  interval_cases i
  · exact b0
  · exact b1
  · exact b2
  · exact b3
  · exact b4
  · exact b5
  · exact b6
  · exact b7
  · exact b8

/-- Iteration 1 of the cycle, for every split variable near that of the cycle. -/
theorem turn1 (o : Orb eps x₀ x₁ z₀ z₁ y ρ) (heps : eps ≤ 1e-15) {t : ℕ} (ht : 0 < t)
    {u v : ℝ} (hu : |u| ≤ 138e-4) (hv : |v| ≤ 195e-5)
    (h : Close x₀ x₁ z₀ z₁ y ρ t (1 / 32) 1e-10 0 (579349508692365835e-18 + 60090702947845805e-17 * u + (-84656084656084656e-18) * v) ((-84965255731922399e-18) + (-84656084656084656e-18) * u + 12345679012345679e-18 * v) ((-1602e-4) + 1 * u + 0 * v) (193e-4 + 0 * u + 1 * v) (3 / 2)) :
    Close x₀ x₁ z₀ z₁ y ρ (t + 1) (1 / 32) 1e-10 3126e-15 (1222438110191846745e-18 + 255140043118709923e-18 * u + (-35918663950274452e-18) * v) ((-175590992827257096e-18) + (-3593404338249465e-17) * u + 5058711783512704e-18 * v) (579349508692365835e-18 + 60090702947845805e-17 * u + (-84656084656084656e-18) * v) 0 (1497344835758377425e-18 + (-2645502645502646e-18) * u + 385802469135802e-18 * v) ∧ Big x₀ x₁ z₀ z₁ ρ t := by
  rw [abs_le] at hu hv
  obtain ⟨hu1, hu2⟩ := hu
  obtain ⟨hv1, hv2⟩ := hv
  exact o.zero heps ht h (1 / 32) 1e-10 3126e-15 (1222438110191846745e-18 + 255140043118709923e-18 * u + (-35918663950274452e-18) * v) ((-175590992827257096e-18) + (-3593404338249465e-17) * u + 5058711783512704e-18 * v) (1497344835758377425e-18 + (-2645502645502646e-18) * u + 385802469135802e-18 * v) 1e-15 83772e-6 86158e-6 733876e-6 745223e-6 21251e-6 (-1) 1
    (by norm_num) (by norm_num) (by norm_num) (by norm_num) (by norm_num) (by norm_num) (by norm_num)
    (abs_le.mpr (by constructor <;> linarith)) (abs_le.mpr (by constructor <;> linarith))
    (abs_le.mpr (by constructor <;> linarith)) (abs_le.mpr (by constructor <;> linarith))
    (by norm_num)
    (abs_le.mpr (by constructor <;> linarith))
    (abs_le.mpr (by constructor <;> linarith))
    (by norm_num) (by norm_num)
    (le_max_of_le_right (by linarith)) (abs_le.mpr (by constructor <;> linarith)) (le_max_of_le_right (by linarith))
    (abs_le.mpr (by constructor <;> linarith)) (abs_le.mpr (by constructor <;> linarith))
    (Or.inr (Or.inr ⟨by norm_num, by norm_num, by norm_num⟩))
    (Or.inl (by norm_num))

/-- Iteration 2 of the cycle, for every split variable near that of the cycle. -/
theorem turn2 (o : Orb eps x₀ x₁ z₀ z₁ y ρ) (heps : eps ≤ 1e-15) {t : ℕ} (ht : 0 < t)
    {u v : ℝ} (hu : |u| ≤ 138e-4) (hv : |v| ≤ 195e-5)
    (h : Close x₀ x₁ z₀ z₁ y ρ t (1 / 32) 1e-10 3126e-15 (1222438110191846745e-18 + 255140043118709923e-18 * u + (-35918663950274452e-18) * v) ((-175590992827257096e-18) + (-3593404338249465e-17) * u + 5058711783512704e-18 * v) (579349508692365835e-18 + 60090702947845805e-17 * u + (-84656084656084656e-18) * v) 0 (1497344835758377425e-18 + (-2645502645502646e-18) * u + 385802469135802e-18 * v)) :
    Close x₀ x₁ z₀ z₁ y ρ (t + 1) (1 / 16) 1e-10 6252e-15 (1490300077070864612e-18 + 103163438967317859e-18 * u + (-14497262036882736e-18) * v) ((-213298615127503007e-18) + (-14511478477248694e-18) * u + 2039160347659748e-18 * v) (1222438110191846745e-18 + 255140043118709923e-18 * u + (-35918663950274452e-18) * v) 0 (1491857617232525641e-18 + (-3768441501205604e-18) * u + 543887212370574e-18 * v) ∧ Big x₀ x₁ z₀ z₁ ρ t := by
  rw [abs_le] at hu hv
  obtain ⟨hu1, hu2⟩ := hu
  obtain ⟨hv1, hv2⟩ := hv
  exact o.zero heps ht h (1 / 16) 1e-10 6252e-15 (1490300077070864612e-18 + 103163438967317859e-18 * u + (-14497262036882736e-18) * v) ((-213298615127503007e-18) + (-14511478477248694e-18) * u + 2039160347659748e-18 * v) (1491857617232525641e-18 + (-3768441501205604e-18) * u + 543887212370574e-18 * v) 1e-15 175085e-6 176097e-6 638221e-6 647956e-6 1e-6 (-1) 1
    (by norm_num) (by norm_num) (by norm_num) (by norm_num) (by norm_num) (by norm_num) (by norm_num)
    (abs_le.mpr (by constructor <;> linarith)) (abs_le.mpr (by constructor <;> linarith))
    (abs_le.mpr (by constructor <;> linarith)) (abs_le.mpr (by constructor <;> linarith))
    (by norm_num)
    (abs_le.mpr (by constructor <;> linarith))
    (abs_le.mpr (by constructor <;> linarith))
    (by norm_num) (by norm_num)
    (le_max_of_le_right (by linarith)) (abs_le.mpr (by constructor <;> linarith)) (le_max_of_le_right (by linarith))
    (abs_le.mpr (by constructor <;> linarith)) (abs_le.mpr (by constructor <;> linarith))
    (Or.inl ⟨by norm_num, by norm_num⟩)
    (Or.inl (by norm_num))

/-- Iteration 3 of the cycle, for every split variable near that of the cycle. -/
theorem turn3 (o : Orb eps x₀ x₁ z₀ z₁ y ρ) (heps : eps ≤ 1e-15) {t : ℕ} (ht : 0 < t)
    {u v : ℝ} (hu : |u| ≤ 138e-4) (hv : |v| ≤ 195e-5)
    (h : Close x₀ x₁ z₀ z₁ y ρ t (1 / 16) 1e-10 6252e-15 (1490300077070864612e-18 + 103163438967317859e-18 * u + (-14497262036882736e-18) * v) ((-213298615127503007e-18) + (-14511478477248694e-18) * u + 2039160347659748e-18 * v) (1222438110191846745e-18 + 255140043118709923e-18 * u + (-35918663950274452e-18) * v) 0 (1491857617232525641e-18 + (-3768441501205604e-18) * u + 543887212370574e-18 * v)) :
    Close x₀ x₁ z₀ z₁ y ρ (t + 1) (1 / 8) 1e-10 1251e-14 (1543694608055739213e-18 + 55658806666217235e-18 * u + (-7802185544834327e-18) * v) ((-220686713445417729e-18) + (-7809875260944425e-18) * u + 1094672112083331e-18 * v) (1490300077070864612e-18 + 103163438967317859e-18 * u + (-14497262036882736e-18) * v) 0 (1478526453787056703e-18 + (-4675408906033647e-18) * u + 671334734099308e-18 * v) ∧ Big x₀ x₁ z₀ z₁ ρ t := by
  rw [abs_le] at hu hv
  obtain ⟨hu1, hu2⟩ := hu
  obtain ⟨hv1, hv2⟩ := hv
  exact o.zero heps ht h (1 / 8) 1e-10 1251e-14 (1543694608055739213e-18 + 55658806666217235e-18 * u + (-7802185544834327e-18) * v) ((-220686713445417729e-18) + (-7809875260944425e-18) * u + 1094672112083331e-18 * v) (1478526453787056703e-18 + (-4675408906033647e-18) * u + 671334734099308e-18 * v) 1e-15 213094e-6 213503e-6 265722e-6 270002e-6 1e-6 (-1) 1
    (by norm_num) (by norm_num) (by norm_num) (by norm_num) (by norm_num) (by norm_num) (by norm_num)
    (abs_le.mpr (by constructor <;> linarith)) (abs_le.mpr (by constructor <;> linarith))
    (abs_le.mpr (by constructor <;> linarith)) (abs_le.mpr (by constructor <;> linarith))
    (by norm_num)
    (abs_le.mpr (by constructor <;> linarith))
    (abs_le.mpr (by constructor <;> linarith))
    (by norm_num) (by norm_num)
    (le_max_of_le_right (by linarith)) (abs_le.mpr (by constructor <;> linarith)) (le_max_of_le_right (by linarith))
    (abs_le.mpr (by constructor <;> linarith)) (abs_le.mpr (by constructor <;> linarith))
    (Or.inl ⟨by norm_num, by norm_num⟩)
    (Or.inl (by norm_num))

/-- Iteration 4 of the cycle, for every split variable near that of the cycle. -/
theorem turn4 (o : Orb eps x₀ x₁ z₀ z₁ y ρ) (heps : eps ≤ 1e-15) {t : ℕ} (ht : 0 < t)
    {u v : ℝ} (hu : |u| ≤ 138e-4) (hv : |v| ≤ 195e-5)
    (h : Close x₀ x₁ z₀ z₁ y ρ t (1 / 8) 1e-10 1251e-14 (1543694608055739213e-18 + 55658806666217235e-18 * u + (-7802185544834327e-18) * v) ((-220686713445417729e-18) + (-7809875260944425e-18) * u + 1094672112083331e-18 * v) (1490300077070864612e-18 + 103163438967317859e-18 * u + (-14497262036882736e-18) * v) 0 (1478526453787056703e-18 + (-4675408906033647e-18) * u + 671334734099308e-18 * v)) :
    Close x₀ x₁ z₀ z₁ y ρ (t + 1) (1 / 4) 1e-10 2502e-14 (1528851875978432799e-18 + 36730260923953327e-18 * u + (-5135433202703237e-18) * v) ((-218319061258363576e-18) + (-5134510216860809e-18) * u + 717759788825873e-18 * v) (1543694608055739213e-18 + 55658806666217235e-18 * u + (-7802185544834327e-18) * v) 0 (1450940614606379487e-18 + (-56516433136517e-16) * u + 808168748109724e-18 * v) ∧ Big x₀ x₁ z₀ z₁ ρ t := by
  rw [abs_le] at hu hv
  obtain ⟨hu1, hu2⟩ := hu
  obtain ⟨hv1, hv2⟩ := hv
  exact o.zero heps ht h (1 / 4) 1e-10 2502e-14 (1528851875978432799e-18 + 36730260923953327e-18 * u + (-5135433202703237e-18) * v) ((-218319061258363576e-18) + (-5134510216860809e-18) * u + 717759788825873e-18 * v) (1450940614606379487e-18 + (-56516433136517e-16) * u + 808168748109724e-18 * v) 1e-15 220576e-6 220797e-6 52725e-6 54064e-6 1e-6 (-1) 1
    (by norm_num) (by norm_num) (by norm_num) (by norm_num) (by norm_num) (by norm_num) (by norm_num)
    (abs_le.mpr (by constructor <;> linarith)) (abs_le.mpr (by constructor <;> linarith))
    (abs_le.mpr (by constructor <;> linarith)) (abs_le.mpr (by constructor <;> linarith))
    (by norm_num)
    (abs_le.mpr (by constructor <;> linarith))
    (abs_le.mpr (by constructor <;> linarith))
    (by norm_num) (by norm_num)
    (le_max_of_le_right (by linarith)) (abs_le.mpr (by constructor <;> linarith)) (le_max_of_le_right (by linarith))
    (abs_le.mpr (by constructor <;> linarith)) (abs_le.mpr (by constructor <;> linarith))
    (Or.inl ⟨by norm_num, by norm_num⟩)
    (Or.inl (by norm_num))

/-- Iteration 5 of the cycle, for every split variable near that of the cycle. -/
theorem turn5 (o : Orb eps x₀ x₁ z₀ z₁ y ρ) (heps : eps ≤ 1e-15) {t : ℕ} (ht : 0 < t)
    {u v : ℝ} (hu : |u| ≤ 138e-4) (hv : |v| ≤ 195e-5)
    (h : Close x₀ x₁ z₀ z₁ y ρ t (1 / 4) 1e-10 2502e-14 (1528851875978432799e-18 + 36730260923953327e-18 * u + (-5135433202703237e-18) * v) ((-218319061258363576e-18) + (-5134510216860809e-18) * u + 717759788825873e-18 * v) (1543694608055739213e-18 + 55658806666217235e-18 * u + (-7802185544834327e-18) * v) 0 (1450940614606379487e-18 + (-56516433136517e-16) * u + 808168748109724e-18 * v)) :
    Close x₀ x₁ z₀ z₁ y ρ (t + 1) (1 / 2) 1108e-13 5003e-14 (1483548674214418934e-18 + 27798176964534549e-18 * u + (-3878038440266088e-18) * v) ((-211396201057250159e-18) + (-3864833804940426e-18) * u + 539036506199475e-18 * v) (1528851875978432799e-18 + 36730260923953327e-18 * u + (-5135433202703237e-18) * v) 0 (1396360849291788593e-18 + (-6935270867866902e-18) * u + 987608695316192e-18 * v) ∧ Big x₀ x₁ z₀ z₁ ρ t := by
  rw [abs_le] at hu hv
  obtain ⟨hu1, hu2⟩ := hu
  obtain ⟨hv1, hv2⟩ := hv
  exact o.zero heps ht h (1 / 2) 1108e-13 5003e-14 (1483548674214418934e-18 + 27798176964534549e-18 * u + (-3878038440266088e-18) * v) ((-211396201057250159e-18) + (-3864833804940426e-18) * u + 539036506199475e-18 * v) (1396360849291788593e-18 + (-6935270867866902e-18) * u + 987608695316192e-18 * v) 1e-15 218246e-6 218392e-6 14576e-6 1511e-5 1e-6 (-1) (-1)
    (by norm_num) (by norm_num) (by norm_num) (by norm_num) (by norm_num) (by norm_num) (by norm_num)
    (abs_le.mpr (by constructor <;> linarith)) (abs_le.mpr (by constructor <;> linarith))
    (abs_le.mpr (by constructor <;> linarith)) (abs_le.mpr (by constructor <;> linarith))
    (by norm_num)
    (abs_le.mpr (by constructor <;> linarith))
    (abs_le.mpr (by constructor <;> linarith))
    (by norm_num) (by norm_num)
    (le_max_of_le_right (by linarith)) (abs_le.mpr (by constructor <;> linarith)) (le_max_of_le_right (by linarith))
    (abs_le.mpr (by constructor <;> linarith)) (abs_le.mpr (by constructor <;> linarith))
    (Or.inl ⟨by norm_num, by norm_num⟩)
    (Or.inl (by norm_num))

/-- Iteration 6 of the cycle, for every split variable near that of the cycle. -/
theorem turn6 (o : Orb eps x₀ x₁ z₀ z₁ y ρ) (heps : eps ≤ 1e-15) {t : ℕ} (ht : 0 < t)
    {u v : ℝ} (hu : |u| ≤ 138e-4) (hv : |v| ≤ 195e-5)
    (h : Close x₀ x₁ z₀ z₁ y ρ t (1 / 2) 1108e-13 5003e-14 (1483548674214418934e-18 + 27798176964534549e-18 * u + (-3878038440266088e-18) * v) ((-211396201057250159e-18) + (-3864833804940426e-18) * u + 539036506199475e-18 * v) (1528851875978432799e-18 + 36730260923953327e-18 * u + (-5135433202703237e-18) * v) 0 (1396360849291788593e-18 + (-6935270867866902e-18) * u + 987608695316192e-18 * v)) :
    Close x₀ x₁ z₀ z₁ y ρ (t + 1) 1 1289e-13 1055e-13 (1422482445246860172e-18 + 2299929829692253e-17 * u + (-3203449331223776e-18) * v) ((-201757820059847673e-18) + (-317135502652198e-17) * u + 441573973292865e-18 * v) (1483548674214418934e-18 + 27798176964534549e-18 * u + (-3878038440266088e-18) * v) 0 (1290662748763163514e-18 + (-8867687770337115e-18) * u + 125712694841593e-17 * v) ∧ Big x₀ x₁ z₀ z₁ ρ t := by
  rw [abs_le] at hu hv
  obtain ⟨hu1, hu2⟩ := hu
  obtain ⟨hv1, hv2⟩ := hv
  exact o.zero heps ht h 1 1289e-13 1055e-13 (1422482445246860172e-18 + 2299929829692253e-17 * u + (-3203449331223776e-18) * v) ((-201757820059847673e-18) + (-317135502652198e-17) * u + 441573973292865e-18 * v) (1290662748763163514e-18 + (-8867687770337115e-18) * u + 125712694841593e-17 * v) 1e-15 211341e-6 211451e-6 45177e-6 45429e-6 1e-6 (-1) (-1)
    (by norm_num) (by norm_num) (by norm_num) (by norm_num) (by norm_num) (by norm_num) (by norm_num)
    (abs_le.mpr (by constructor <;> linarith)) (abs_le.mpr (by constructor <;> linarith))
    (abs_le.mpr (by constructor <;> linarith)) (abs_le.mpr (by constructor <;> linarith))
    (by norm_num)
    (abs_le.mpr (by constructor <;> linarith))
    (abs_le.mpr (by constructor <;> linarith))
    (by norm_num) (by norm_num)
    (le_max_of_le_right (by linarith)) (abs_le.mpr (by constructor <;> linarith)) (le_max_of_le_right (by linarith))
    (abs_le.mpr (by constructor <;> linarith)) (abs_le.mpr (by constructor <;> linarith))
    (Or.inl ⟨by norm_num, by norm_num⟩)
    (Or.inl (by norm_num))

/-- Iteration 7 of the cycle, for every split variable near that of the cycle. -/
theorem turn7 (o : Orb eps x₀ x₁ z₀ z₁ y ρ) (heps : eps ≤ 1e-15) {t : ℕ} (ht : 0 < t)
    {u v : ℝ} (hu : |u| ≤ 138e-4) (hv : |v| ≤ 195e-5)
    (h : Close x₀ x₁ z₀ z₁ y ρ t 1 1289e-13 1055e-13 (1422482445246860172e-18 + 2299929829692253e-17 * u + (-3203449331223776e-18) * v) ((-201757820059847673e-18) + (-317135502652198e-17) * u + 441573973292865e-18 * v) (1483548674214418934e-18 + 27798176964534549e-18 * u + (-3878038440266088e-18) * v) 0 (1290662748763163514e-18 + (-8867687770337115e-18) * u + 125712694841593e-17 * v)) :
    Close x₀ x₁ z₀ z₁ y ρ (t + 1) 1 1533e-13 2345e-13 (13537067313823815e-16 + 20107388967322884e-18 * u + (-2797765285079759e-18) * v) ((-190111641918222182e-18) + (-273477417011281e-17) * u + 380362467099774e-18 * v) (1422482445246860172e-18 + 2299929829692253e-17 * u + (-3203449331223776e-18) * v) 0 (1088904928703315841e-18 + (-12039042796859095e-18) * u + 1698700921708795e-18 * v) ∧ Big x₀ x₁ z₀ z₁ ρ t := by
  rw [abs_le] at hu hv
  obtain ⟨hu1, hu2⟩ := hu
  obtain ⟨hv1, hv2⟩ := hv
  exact o.zero heps ht h 1 1533e-13 2345e-13 (13537067313823815e-16 + 20107388967322884e-18 * u + (-2797765285079759e-18) * v) ((-190111641918222182e-18) + (-273477417011281e-17) * u + 380362467099774e-18 * v) (1088904928703315841e-18 + (-12039042796859095e-18) * u + 1698700921708795e-18 * v) 1e-15 201713e-6 201803e-6 60998e-6 61134e-6 1e-6 (-1) (-1)
    (by norm_num) (by norm_num) (by norm_num) (by norm_num) (by norm_num) (by norm_num) (by norm_num)
    (abs_le.mpr (by constructor <;> linarith)) (abs_le.mpr (by constructor <;> linarith))
    (abs_le.mpr (by constructor <;> linarith)) (abs_le.mpr (by constructor <;> linarith))
    (by norm_num)
    (abs_le.mpr (by constructor <;> linarith))
    (abs_le.mpr (by constructor <;> linarith))
    (by norm_num) (by norm_num)
    (le_max_of_le_right (by linarith)) (abs_le.mpr (by constructor <;> linarith)) (le_max_of_le_right (by linarith))
    (abs_le.mpr (by constructor <;> linarith)) (abs_le.mpr (by constructor <;> linarith))
    (Or.inr (Or.inr ⟨by norm_num, by norm_num, by norm_num⟩))
    (Or.inl (by norm_num))

/-- Iteration 8 of the cycle, for every split variable near that of the cycle. -/
theorem turn8 (o : Orb eps x₀ x₁ z₀ z₁ y ρ) (heps : eps ≤ 1e-15) {t : ℕ} (ht : 0 < t)
    {u v : ℝ} (hu : |u| ≤ 138e-4) (hv : |v| ≤ 195e-5)
    (h : Close x₀ x₁ z₀ z₁ y ρ t 1 1533e-13 2345e-13 (13537067313823815e-16 + 20107388967322884e-18 * u + (-2797765285079759e-18) * v) ((-190111641918222182e-18) + (-273477417011281e-17) * u + 380362467099774e-18 * v) (1422482445246860172e-18 + 2299929829692253e-17 * u + (-3203449331223776e-18) * v) 0 (1088904928703315841e-18 + (-12039042796859095e-18) * u + 1698700921708795e-18 * v)) :
    Close x₀ x₁ z₀ z₁ y ρ (t + 1) 1 1965e-13 3879e-13 (1263714897671976049e-18 + 17017976030138507e-18 * u + (-2364807934572226e-18) * v) ((-176245374252643938e-18) + (-2284024531106245e-18) * u + 317212688248054e-18 * v) (13537067313823815e-16 + 20107388967322884e-18 * u + (-2797765285079759e-18) * v) 0 (898793286785093659e-18 + (-14773816966971905e-18) * u + 2079063388808569e-18 * v) ∧ Big x₀ x₁ z₀ z₁ ρ t := by
  rw [abs_le] at hu hv
  obtain ⟨hu1, hu2⟩ := hu
  obtain ⟨hv1, hv2⟩ := hv
  exact o.zero heps ht h 1 1965e-13 3879e-13 (1263714897671976049e-18 + 17017976030138507e-18 * u + (-2364807934572226e-18) * v) ((-176245374252643938e-18) + (-2284024531106245e-18) * u + 317212688248054e-18 * v) (898793286785093659e-18 + (-14773816966971905e-18) * u + 2079063388808569e-18 * v) 1e-15 190073e-6 190151e-6 68735e-6 68817e-6 1e-6 (-1) (-1)
    (by norm_num) (by norm_num) (by norm_num) (by norm_num) (by norm_num) (by norm_num) (by norm_num)
    (abs_le.mpr (by constructor <;> linarith)) (abs_le.mpr (by constructor <;> linarith))
    (abs_le.mpr (by constructor <;> linarith)) (abs_le.mpr (by constructor <;> linarith))
    (by norm_num)
    (abs_le.mpr (by constructor <;> linarith))
    (abs_le.mpr (by constructor <;> linarith))
    (by norm_num) (by norm_num)
    (le_max_of_le_right (by linarith)) (abs_le.mpr (by constructor <;> linarith)) (le_max_of_le_right (by linarith))
    (abs_le.mpr (by constructor <;> linarith)) (abs_le.mpr (by constructor <;> linarith))
    (Or.inr (Or.inr ⟨by norm_num, by norm_num, by norm_num⟩))
    (Or.inl (by norm_num))

/-- Iteration 9 of the cycle, for every split variable near that of the cycle. -/
theorem turn9 (o : Orb eps x₀ x₁ z₀ z₁ y ρ) (heps : eps ≤ 1e-15) {t : ℕ} (ht : 0 < t)
    {u v : ℝ} (hu : |u| ≤ 138e-4) (hv : |v| ≤ 195e-5)
    (h : Close x₀ x₁ z₀ z₁ y ρ t 1 1965e-13 3879e-13 (1263714897671976049e-18 + 17017976030138507e-18 * u + (-2364807934572226e-18) * v) ((-176245374252643938e-18) + (-2284024531106245e-18) * u + 317212688248054e-18 * v) (13537067313823815e-16 + 20107388967322884e-18 * u + (-2797765285079759e-18) * v) 0 (898793286785093659e-18 + (-14773816966971905e-18) * u + 2079063388808569e-18 * v)) :
    Close x₀ x₁ z₀ z₁ y ρ (t + 1) 1 2633e-13 5845e-13 (1155539250402376424e-18 + 13801771906044874e-18 * u + (-1914461588475754e-18) * v) ((-159925814473215698e-18) + (-1818529123525761e-18) * u + 252049448539561e-18 * v) (1263714897671976049e-18 + 17017976030138507e-18 * u + (-2364807934572226e-18) * v) 0 (722547912532449721e-18 + (-1705784149807815e-17) * u + 2396276077056623e-18 * v) ∧ Big x₀ x₁ z₀ z₁ ρ t := by
  rw [abs_le] at hu hv
  obtain ⟨hu1, hu2⟩ := hu
  obtain ⟨hv1, hv2⟩ := hv
  exact o.zero heps ht h 1 2633e-13 5845e-13 (1155539250402376424e-18 + 13801771906044874e-18 * u + (-1914461588475754e-18) * v) ((-159925814473215698e-18) + (-1818529123525761e-18) * u + 252049448539561e-18 * v) (722547912532449721e-18 + (-1705784149807815e-17) * u + 2396276077056623e-18 * v) 1e-15 176213e-6 176278e-6 89948e-6 90036e-6 1e-6 (-1) (-1)
    (by norm_num) (by norm_num) (by norm_num) (by norm_num) (by norm_num) (by norm_num) (by norm_num)
    (abs_le.mpr (by constructor <;> linarith)) (abs_le.mpr (by constructor <;> linarith))
    (abs_le.mpr (by constructor <;> linarith)) (abs_le.mpr (by constructor <;> linarith))
    (by norm_num)
    (abs_le.mpr (by constructor <;> linarith))
    (abs_le.mpr (by constructor <;> linarith))
    (by norm_num) (by norm_num)
    (le_max_of_le_right (by linarith)) (abs_le.mpr (by constructor <;> linarith)) (le_max_of_le_right (by linarith))
    (abs_le.mpr (by constructor <;> linarith)) (abs_le.mpr (by constructor <;> linarith))
    (Or.inr (Or.inr ⟨by norm_num, by norm_num, by norm_num⟩))
    (Or.inl (by norm_num))

/-- Iteration 10 of the cycle, for every split variable near that of the cycle. -/
theorem turn10 (o : Orb eps x₀ x₁ z₀ z₁ y ρ) (heps : eps ≤ 1e-15) {t : ℕ} (ht : 0 < t)
    {u v : ℝ} (hu : |u| ≤ 138e-4) (hv : |v| ≤ 195e-5)
    (h : Close x₀ x₁ z₀ z₁ y ρ t 1 2633e-13 5845e-13 (1155539250402376424e-18 + 13801771906044874e-18 * u + (-1914461588475754e-18) * v) ((-159925814473215698e-18) + (-1818529123525761e-18) * u + 252049448539561e-18 * v) (1263714897671976049e-18 + 17017976030138507e-18 * u + (-2364807934572226e-18) * v) 0 (722547912532449721e-18 + (-1705784149807815e-17) * u + 2396276077056623e-18 * v)) :
    Close x₀ x₁ z₀ z₁ y ρ (t + 1) 1 3611e-13 8479e-13 (1032364475594970931e-18 + 10527433980207855e-18 * u + (-1456316995181404e-18) * v) ((-141615173903690824e-18) + (-1347998286418407e-18) * u + 186228875821422e-18 * v) (1155539250402376424e-18 + 13801771906044874e-18 * u + (-1914461588475754e-18) * v) 0 (562622098059234023e-18 + (-18876370621603911e-18) * u + 2648325525596184e-18 * v) ∧ Big x₀ x₁ z₀ z₁ ρ t := by
  rw [abs_le] at hu hv
  obtain ⟨hu1, hu2⟩ := hu
  obtain ⟨hv1, hv2⟩ := hv
  exact o.zero heps ht h 1 3611e-13 8479e-13 (1032364475594970931e-18 + 10527433980207855e-18 * u + (-1456316995181404e-18) * v) ((-141615173903690824e-18) + (-1347998286418407e-18) * u + 186228875821422e-18 * v) (562622098059234023e-18 + (-18876370621603911e-18) * u + 2648325525596184e-18 * v) 1e-15 1599e-4 159952e-6 10813e-5 108221e-6 1e-6 (-1) (-1)
    (by norm_num) (by norm_num) (by norm_num) (by norm_num) (by norm_num) (by norm_num) (by norm_num)
    (abs_le.mpr (by constructor <;> linarith)) (abs_le.mpr (by constructor <;> linarith))
    (abs_le.mpr (by constructor <;> linarith)) (abs_le.mpr (by constructor <;> linarith))
    (by norm_num)
    (abs_le.mpr (by constructor <;> linarith))
    (abs_le.mpr (by constructor <;> linarith))
    (by norm_num) (by norm_num)
    (le_max_of_le_right (by linarith)) (abs_le.mpr (by constructor <;> linarith)) (le_max_of_le_right (by linarith))
    (abs_le.mpr (by constructor <;> linarith)) (abs_le.mpr (by constructor <;> linarith))
    (Or.inr (Or.inr ⟨by norm_num, by norm_num, by norm_num⟩))
    (Or.inl (by norm_num))

/-- Iteration 11 of the cycle, for every split variable near that of the cycle. -/
theorem turn11 (o : Orb eps x₀ x₁ z₀ z₁ y ρ) (heps : eps ≤ 1e-15) {t : ℕ} (ht : 0 < t)
    {u v : ℝ} (hu : |u| ≤ 138e-4) (hv : |v| ≤ 195e-5)
    (h : Close x₀ x₁ z₀ z₁ y ρ t 1 3611e-13 8479e-13 (1032364475594970931e-18 + 10527433980207855e-18 * u + (-1456316995181404e-18) * v) ((-141615173903690824e-18) + (-1347998286418407e-18) * u + 186228875821422e-18 * v) (1155539250402376424e-18 + 13801771906044874e-18 * u + (-1914461588475754e-18) * v) 0 (562622098059234023e-18 + (-18876370621603911e-18) * u + 2648325525596184e-18 * v)) :
    Close x₀ x₁ z₀ z₁ y ρ (t + 1) 1 5012e-13 121e-11 (897457966959195263e-18 + 7260398427438425e-18 * u + (-999508848097112e-18) * v) ((-121784161535324291e-18) + (-881626653787897e-18) * u + 121034209390812e-18 * v) (1032364475594970931e-18 + 10527433980207855e-18 * u + (-1456316995181404e-18) * v) 0 (421006924155543199e-18 + (-20224368908022318e-18) * u + 2834554401417606e-18 * v) ∧ Big x₀ x₁ z₀ z₁ ρ t := by
  rw [abs_le] at hu hv
  obtain ⟨hu1, hu2⟩ := hu
  obtain ⟨hv1, hv2⟩ := hv
  exact o.zero heps ht h 1 5012e-13 121e-11 (897457966959195263e-18 + 7260398427438425e-18 * u + (-999508848097112e-18) * v) ((-121784161535324291e-18) + (-881626653787897e-18) * u + 121034209390812e-18 * v) (421006924155543199e-18 + (-20224368908022318e-18) * u + 2834554401417606e-18 * v) 1e-15 141596e-6 141635e-6 123128e-6 123221e-6 1e-6 (-1) (-1)
    (by norm_num) (by norm_num) (by norm_num) (by norm_num) (by norm_num) (by norm_num) (by norm_num)
    (abs_le.mpr (by constructor <;> linarith)) (abs_le.mpr (by constructor <;> linarith))
    (abs_le.mpr (by constructor <;> linarith)) (abs_le.mpr (by constructor <;> linarith))
    (by norm_num)
    (abs_le.mpr (by constructor <;> linarith))
    (abs_le.mpr (by constructor <;> linarith))
    (by norm_num) (by norm_num)
    (le_max_of_le_right (by linarith)) (abs_le.mpr (by constructor <;> linarith)) (le_max_of_le_right (by linarith))
    (abs_le.mpr (by constructor <;> linarith)) (abs_le.mpr (by constructor <;> linarith))
    (Or.inr (Or.inr ⟨by norm_num, by norm_num, by norm_num⟩))
    (Or.inl (by norm_num))

/-- Iteration 12 of the cycle, for every split variable near that of the cycle. -/
theorem turn12 (o : Orb eps x₀ x₁ z₀ z₁ y ρ) (heps : eps ≤ 1e-15) {t : ℕ} (ht : 0 < t)
    {u v : ℝ} (hu : |u| ≤ 138e-4) (hv : |v| ≤ 195e-5)
    (h : Close x₀ x₁ z₀ z₁ y ρ t 1 5012e-13 121e-11 (897457966959195263e-18 + 7260398427438425e-18 * u + (-999508848097112e-18) * v) ((-121784161535324291e-18) + (-881626653787897e-18) * u + 121034209390812e-18 * v) (1032364475594970931e-18 + 10527433980207855e-18 * u + (-1456316995181404e-18) * v) 0 (421006924155543199e-18 + (-20224368908022318e-18) * u + 2834554401417606e-18 * v)) :
    Close x₀ x₁ z₀ z₁ y ρ (t + 1) 1 6996e-13 1712e-12 (754102975213231991e-18 + 4061848159231127e-18 * u + (-55257211564522e-17) * v) ((-100902568280653938e-18) + (-427952105213623e-18) * u + 57656172118275e-18 * v) (897457966959195263e-18 + 7260398427438425e-18 * u + (-999508848097112e-18) * v) 0 (299222762620218908e-18 + (-21105995561810215e-18) * u + 2955588610808418e-18 * v) ∧ Big x₀ x₁ z₀ z₁ ρ t := by
  rw [abs_le] at hu hv
  obtain ⟨hu1, hu2⟩ := hu
  obtain ⟨hv1, hv2⟩ := hv
  exact o.zero heps ht h 1 6996e-13 1712e-12 (754102975213231991e-18 + 4061848159231127e-18 * u + (-55257211564522e-17) * v) ((-100902568280653938e-18) + (-427952105213623e-18) * u + 57656172118275e-18 * v) (299222762620218908e-18 + (-21105995561810215e-18) * u + 2955588610808418e-18 * v) 1e-15 121771e-6 121797e-6 13486e-5 134953e-6 1e-6 (-1) (-1)
    (by norm_num) (by norm_num) (by norm_num) (by norm_num) (by norm_num) (by norm_num) (by norm_num)
    (abs_le.mpr (by constructor <;> linarith)) (abs_le.mpr (by constructor <;> linarith))
    (abs_le.mpr (by constructor <;> linarith)) (abs_le.mpr (by constructor <;> linarith))
    (by norm_num)
    (abs_le.mpr (by constructor <;> linarith))
    (abs_le.mpr (by constructor <;> linarith))
    (by norm_num) (by norm_num)
    (le_max_of_le_right (by linarith)) (abs_le.mpr (by constructor <;> linarith)) (le_max_of_le_right (by linarith))
    (abs_le.mpr (by constructor <;> linarith)) (abs_le.mpr (by constructor <;> linarith))
    (Or.inr (Or.inr ⟨by norm_num, by norm_num, by norm_num⟩))
    (Or.inl (by norm_num))

/-- Iteration 13 of the cycle, for every split variable near that of the cycle. -/
theorem turn13 (o : Orb eps x₀ x₁ z₀ z₁ y ρ) (heps : eps ≤ 1e-15) {t : ℕ} (ht : 0 < t)
    {u v : ℝ} (hu : |u| ≤ 138e-4) (hv : |v| ≤ 195e-5)
    (h : Close x₀ x₁ z₀ z₁ y ρ t 1 6996e-13 1712e-12 (754102975213231991e-18 + 4061848159231127e-18 * u + (-55257211564522e-17) * v) ((-100902568280653938e-18) + (-427952105213623e-18) * u + 57656172118275e-18 * v) (897457966959195263e-18 + 7260398427438425e-18 * u + (-999508848097112e-18) * v) 0 (299222762620218908e-18 + (-21105995561810215e-18) * u + 2955588610808418e-18 * v)) :
    Close x₀ x₁ z₀ z₁ y ρ (t + 1) 1 9792e-13 2412e-12 (605535662661104799e-18 + 987825930045085e-18 * u + (-123318722674984e-18) * v) ((-79430460734818438e-18) + 526402090718e-17 * u + (-2823677378347e-18) * v) (754102975213231991e-18 + 4061848159231127e-18 * u + (-55257211564522e-17) * v) 0 (19832019433956497e-17 + (-21533947667023838e-18) * u + 3013244782926693e-18 * v) ∧ Big x₀ x₁ z₀ z₁ ρ t := by
  rw [abs_le] at hu hv
  obtain ⟨hu1, hu2⟩ := hu
  obtain ⟨hv1, hv2⟩ := hv
  exact o.zero heps ht h 1 9792e-13 2412e-12 (605535662661104799e-18 + 987825930045085e-18 * u + (-123318722674984e-18) * v) ((-79430460734818438e-18) + 526402090718e-17 * u + (-2823677378347e-18) * v) (19832019433956497e-17 + (-21533947667023838e-18) * u + 3013244782926693e-18 * v) 1e-15 100896e-6 100909e-6 143309e-6 143401e-6 1e-6 (-1) (-1)
    (by norm_num) (by norm_num) (by norm_num) (by norm_num) (by norm_num) (by norm_num) (by norm_num)
    (abs_le.mpr (by constructor <;> linarith)) (abs_le.mpr (by constructor <;> linarith))
    (abs_le.mpr (by constructor <;> linarith)) (abs_le.mpr (by constructor <;> linarith))
    (by norm_num)
    (abs_le.mpr (by constructor <;> linarith))
    (abs_le.mpr (by constructor <;> linarith))
    (by norm_num) (by norm_num)
    (le_max_of_le_right (by linarith)) (abs_le.mpr (by constructor <;> linarith)) (le_max_of_le_right (by linarith))
    (abs_le.mpr (by constructor <;> linarith)) (abs_le.mpr (by constructor <;> linarith))
    (Or.inr (Or.inr ⟨by norm_num, by norm_num, by norm_num⟩))
    (Or.inl (by norm_num))

/-- Iteration 14 of the cycle, for every split variable near that of the cycle. -/
theorem turn14 (o : Orb eps x₀ x₁ z₀ z₁ y ρ) (heps : eps ≤ 1e-15) {t : ℕ} (ht : 0 < t)
    {u v : ℝ} (hu : |u| ≤ 138e-4) (hv : |v| ≤ 195e-5)
    (h : Close x₀ x₁ z₀ z₁ y ρ t 1 9792e-13 2412e-12 (605535662661104799e-18 + 987825930045085e-18 * u + (-123318722674984e-18) * v) ((-79430460734818438e-18) + 526402090718e-17 * u + (-2823677378347e-18) * v) (754102975213231991e-18 + 4061848159231127e-18 * u + (-55257211564522e-17) * v) 0 (19832019433956497e-17 + (-21533947667023838e-18) * u + 3013244782926693e-18 * v)) :
    Close x₀ x₁ z₀ z₁ y ρ (t + 1) 1 1373e-12 3392e-12 (454887005062046522e-18 + (-1911499792840799e-18) * u + 281264369907344e-18 * v) ((-5781011226605149e-17) + 41113452863849e-17 * u + (-59446485824017e-18) * v) (605535662661104799e-18 + 987825930045085e-18 * u + (-123318722674984e-18) * v) 0 (118889733604746532e-18 + (-21528683646116658e-18) * u + 3010421105548346e-18 * v) ∧ Big x₀ x₁ z₀ z₁ ρ t := by
  rw [abs_le] at hu hv
  obtain ⟨hu1, hu2⟩ := hu
  obtain ⟨hv1, hv2⟩ := hv
  exact o.zero heps ht h 1 1373e-12 3392e-12 (454887005062046522e-18 + (-1911499792840799e-18) * u + 281264369907344e-18 * v) ((-5781011226605149e-17) + 41113452863849e-17 * u + (-59446485824017e-18) * v) (118889733604746532e-18 + (-21528683646116658e-18) * u + 3010421105548346e-18 * v) 1e-15 7943e-5 79431e-6 148524e-6 148611e-6 1e-6 (-1) (-1)
    (by norm_num) (by norm_num) (by norm_num) (by norm_num) (by norm_num) (by norm_num) (by norm_num)
    (abs_le.mpr (by constructor <;> linarith)) (abs_le.mpr (by constructor <;> linarith))
    (abs_le.mpr (by constructor <;> linarith)) (abs_le.mpr (by constructor <;> linarith))
    (by norm_num)
    (abs_le.mpr (by constructor <;> linarith))
    (abs_le.mpr (by constructor <;> linarith))
    (by norm_num) (by norm_num)
    (le_max_of_le_right (by linarith)) (abs_le.mpr (by constructor <;> linarith)) (le_max_of_le_right (by linarith))
    (abs_le.mpr (by constructor <;> linarith)) (abs_le.mpr (by constructor <;> linarith))
    (Or.inr (Or.inr ⟨by norm_num, by norm_num, by norm_num⟩))
    (Or.inl (by norm_num))

/-- Iteration 15 of the cycle, for every split variable near that of the cycle. -/
theorem turn15 (o : Orb eps x₀ x₁ z₀ z₁ y ρ) (heps : eps ≤ 1e-15) {t : ℕ} (ht : 0 < t)
    {u v : ℝ} (hu : |u| ≤ 138e-4) (hv : |v| ≤ 195e-5)
    (h : Close x₀ x₁ z₀ z₁ y ρ t 1 1373e-12 3392e-12 (454887005062046522e-18 + (-1911499792840799e-18) * u + 281264369907344e-18 * v) ((-5781011226605149e-17) + 41113452863849e-17 * u + (-59446485824017e-18) * v) (605535662661104799e-18 + 987825930045085e-18 * u + (-123318722674984e-18) * v) 0 (118889733604746532e-18 + (-21528683646116658e-18) * u + 3010421105548346e-18 * v)) :
    Close x₀ x₁ z₀ z₁ y ρ (t + 1) 1 1926e-12 4766e-12 (305130332122135687e-18 + (-4592411952158248e-18) * u + 655095110064859e-18 * v) ((-3645877730602363e-17) + 783721334085342e-18 * u + (-111386479540576e-18) * v) (454887005062046522e-18 + (-1911499792840799e-18) * u + 281264369907344e-18 * v) 0 (61079621338695042e-18 + (-21117549117478168e-18) * u + 2950974619724329e-18 * v) ∧ Big x₀ x₁ z₀ z₁ ρ t := by
  rw [abs_le] at hu hv
  obtain ⟨hu1, hu2⟩ := hu
  obtain ⟨hv1, hv2⟩ := hv
  exact o.zero heps ht h 1 1926e-12 4766e-12 (305130332122135687e-18 + (-4592411952158248e-18) * u + 655095110064859e-18 * v) ((-3645877730602363e-17) + 783721334085342e-18 * u + (-111386479540576e-18) * v) (61079621338695042e-18 + (-21117549117478168e-18) * u + 2950974619724329e-18 * v) 1e-15 57804e-6 57816e-6 150607e-6 15069e-5 1e-6 (-1) (-1)
    (by norm_num) (by norm_num) (by norm_num) (by norm_num) (by norm_num) (by norm_num) (by norm_num)
    (abs_le.mpr (by constructor <;> linarith)) (abs_le.mpr (by constructor <;> linarith))
    (abs_le.mpr (by constructor <;> linarith)) (abs_le.mpr (by constructor <;> linarith))
    (by norm_num)
    (abs_le.mpr (by constructor <;> linarith))
    (abs_le.mpr (by constructor <;> linarith))
    (by norm_num) (by norm_num)
    (le_max_of_le_right (by linarith)) (abs_le.mpr (by constructor <;> linarith)) (le_max_of_le_right (by linarith))
    (abs_le.mpr (by constructor <;> linarith)) (abs_le.mpr (by constructor <;> linarith))
    (Or.inr (Or.inr ⟨by norm_num, by norm_num, by norm_num⟩))
    (Or.inl (by norm_num))

/-- Iteration 16 of the cycle, for every split variable near that of the cycle. -/
theorem turn16 (o : Orb eps x₀ x₁ z₀ z₁ y ρ) (heps : eps ≤ 1e-15) {t : ℕ} (ht : 0 < t)
    {u v : ℝ} (hu : |u| ≤ 138e-4) (hv : |v| ≤ 195e-5)
    (h : Close x₀ x₁ z₀ z₁ y ρ t 1 1926e-12 4766e-12 (305130332122135687e-18 + (-4592411952158248e-18) * u + 655095110064859e-18 * v) ((-3645877730602363e-17) + 783721334085342e-18 * u + (-111386479540576e-18) * v) (454887005062046522e-18 + (-1911499792840799e-18) * u + 281264369907344e-18 * v) 0 (61079621338695042e-18 + (-21117549117478168e-18) * u + 2950974619724329e-18 * v)) :
    Close x₀ x₁ z₀ z₁ y ρ (t + 1) 1 2702e-12 6693e-12 (159035141779914797e-18 + (-7018064001729475e-18) * u + 993054197821306e-18 * v) ((-15762392142739214e-18) + 1118087812131412e-18 * u + (-157958175296208e-18) * v) (305130332122135687e-18 + (-4592411952158248e-18) * u + 655095110064859e-18 * v) 0 (24620844032671412e-18 + (-20333827783392826e-18) * u + 2839588140183753e-18 * v) ∧ Big x₀ x₁ z₀ z₁ ρ t := by
  rw [abs_le] at hu hv
  obtain ⟨hu1, hu2⟩ := hu
  obtain ⟨hv1, hv2⟩ := hv
  exact o.zero heps ht h 1 2702e-12 6693e-12 (159035141779914797e-18 + (-7018064001729475e-18) * u + 993054197821306e-18 * v) ((-15762392142739214e-18) + 1118087812131412e-18 * u + (-157958175296208e-18) * v) (24620844032671412e-18 + (-20333827783392826e-18) * u + 2839588140183753e-18 * v) 1e-15 36447e-6 3647e-5 149718e-6 149795e-6 1e-6 (-1) (-1)
    (by norm_num) (by norm_num) (by norm_num) (by norm_num) (by norm_num) (by norm_num) (by norm_num)
    (abs_le.mpr (by constructor <;> linarith)) (abs_le.mpr (by constructor <;> linarith))
    (abs_le.mpr (by constructor <;> linarith)) (abs_le.mpr (by constructor <;> linarith))
    (by norm_num)
    (abs_le.mpr (by constructor <;> linarith))
    (abs_le.mpr (by constructor <;> linarith))
    (by norm_num) (by norm_num)
    (le_max_of_le_right (by linarith)) (abs_le.mpr (by constructor <;> linarith)) (le_max_of_le_right (by linarith))
    (abs_le.mpr (by constructor <;> linarith)) (abs_le.mpr (by constructor <;> linarith))
    (Or.inr (Or.inr ⟨by norm_num, by norm_num, by norm_num⟩))
    (Or.inl (by norm_num))

/-- Iteration 17 of the cycle, for every split variable near that of the cycle. -/
theorem turn17 (o : Orb eps x₀ x₁ z₀ z₁ y ρ) (heps : eps ≤ 1e-15) {t : ℕ} (ht : 0 < t)
    {u v : ℝ} (hu : |u| ≤ 138e-4) (hv : |v| ≤ 195e-5)
    (h : Close x₀ x₁ z₀ z₁ y ρ t 1 2702e-12 6693e-12 (159035141779914797e-18 + (-7018064001729475e-18) * u + 993054197821306e-18 * v) ((-15762392142739214e-18) + 1118087812131412e-18 * u + (-157958175296208e-18) * v) (305130332122135687e-18 + (-4592411952158248e-18) * u + 655095110064859e-18 * v) 0 (24620844032671412e-18 + (-20333827783392826e-18) * u + 2839588140183753e-18 * v)) :
    Close x₀ x₁ z₀ z₁ y ρ (t + 1) (1 / 2) 3791e-12 9396e-12 (19127665136325759e-18 + (-9158743016703842e-18) * u + 1291021125382606e-18 * v) (3929737201648179e-18 + 1410328955480281e-18 * u + (-198620490652815e-18) * v) (159035141779914797e-18 + (-7018064001729475e-18) * u + 993054197821306e-18 * v) 0 (8858451889932198e-18 + (-19215739971261414e-18) * u + 2681629964887545e-18 * v) ∧ Big x₀ x₁ z₀ z₁ ρ t := by
  rw [abs_le] at hu hv
  obtain ⟨hu1, hu2⟩ := hu
  obtain ⟨hv1, hv2⟩ := hv
  exact o.zero heps ht h (1 / 2) 3791e-12 9396e-12 (19127665136325759e-18 + (-9158743016703842e-18) * u + 1291021125382606e-18 * v) (3929737201648179e-18 + 1410328955480281e-18 * u + (-198620490652815e-18) * v) (8858451889932198e-18 + (-19215739971261414e-18) * u + 2681629964887545e-18 * v) 1e-15 15746e-6 15779e-6 146061e-6 14613e-5 1e-6 (-1) (-1)
    (by norm_num) (by norm_num) (by norm_num) (by norm_num) (by norm_num) (by norm_num) (by norm_num)
    (abs_le.mpr (by constructor <;> linarith)) (abs_le.mpr (by constructor <;> linarith))
    (abs_le.mpr (by constructor <;> linarith)) (abs_le.mpr (by constructor <;> linarith))
    (by norm_num)
    (abs_le.mpr (by constructor <;> linarith))
    (abs_le.mpr (by constructor <;> linarith))
    (by norm_num) (by norm_num)
    (le_max_of_le_right (by linarith)) (abs_le.mpr (by constructor <;> linarith)) (le_max_of_le_right (by linarith))
    (abs_le.mpr (by constructor <;> linarith)) (abs_le.mpr (by constructor <;> linarith))
    (Or.inr (Or.inl ⟨by norm_num, by norm_num⟩))
    (Or.inr (by norm_num))

/-- Iteration 18 of the cycle, for every split variable near that of the cycle. -/
theorem turn18 (o : Orb eps x₀ x₁ z₀ z₁ y ρ) (heps : eps ≤ 1e-15) {t : ℕ} (ht : 0 < t)
    {u v : ℝ} (hu : |u| ≤ 138e-4) (hv : |v| ≤ 195e-5)
    (h : Close x₀ x₁ z₀ z₁ y ρ t (1 / 2) 3791e-12 9396e-12 (19127665136325759e-18 + (-9158743016703842e-18) * u + 1291021125382606e-18 * v) (3929737201648179e-18 + 1410328955480281e-18 * u + (-198620490652815e-18) * v) (159035141779914797e-18 + (-7018064001729475e-18) * u + 993054197821306e-18 * v) 0 (8858451889932198e-18 + (-19215739971261414e-18) * u + 2681629964887545e-18 * v)) :
    Close x₀ x₁ z₀ z₁ y ρ (t + 1) (1 / 4) 6332e-12 113e-10 ((-235172246817674984e-18) + (-13049703657903452e-18) * u + 1832614507393723e-18 * v) (39650795068096444e-18 + 1956885299729055e-18 * u + (-274697153008892e-18) * v) (19127665136325759e-18 + (-9158743016703842e-18) * u + 1291021125382606e-18 * v) 0 (10823320490756288e-18 + (-18510575493521274e-18) * u + 2582319719561138e-18 * v) ∧ Big x₀ x₁ z₀ z₁ ρ t := by
  rw [abs_le] at hu hv
  obtain ⟨hu1, hu2⟩ := hu
  obtain ⟨hv1, hv2⟩ := hv
  exact o.zero heps ht h (1 / 4) 6332e-12 113e-10 ((-235172246817674984e-18) + (-13049703657903452e-18) * u + 1832614507393723e-18 * v) (39650795068096444e-18 + 1956885299729055e-18 * u + (-274697153008892e-18) * v) (10823320490756288e-18 + (-18510575493521274e-18) * u + 2582319719561138e-18 * v) 1e-15 3909e-6 395e-5 139877e-6 139938e-6 1e-6 1 (-1)
    (by norm_num) (by norm_num) (by norm_num) (by norm_num) (by norm_num) (by norm_num) (by norm_num)
    (abs_le.mpr (by constructor <;> linarith)) (abs_le.mpr (by constructor <;> linarith))
    (abs_le.mpr (by constructor <;> linarith)) (abs_le.mpr (by constructor <;> linarith))
    (by norm_num)
    (abs_le.mpr (by constructor <;> linarith))
    (abs_le.mpr (by constructor <;> linarith))
    (by norm_num) (by norm_num)
    (le_max_of_le_right (by linarith)) (abs_le.mpr (by constructor <;> linarith)) (le_max_of_le_right (by linarith))
    (abs_le.mpr (by constructor <;> linarith)) (abs_le.mpr (by constructor <;> linarith))
    (Or.inr (Or.inl ⟨by norm_num, by norm_num⟩))
    (Or.inr (by norm_num))

end Orb
end GLM
