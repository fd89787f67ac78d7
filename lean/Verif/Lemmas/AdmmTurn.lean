/-
  The other iterations that repeat for ever, and the return.
-/
import Verif.Lemmas.AdmmWalk

namespace GLM
namespace Orb
variable {eps : ℝ} {x₀ x₁ z₀ z₁ y ρ : ℕ → ℝ}
set_option linter.style.longLine false

/-- Iteration 19 of the cycle, for every split variable near that of the cycle. -/
theorem turn19 (o : Orb eps x₀ x₁ z₀ z₁ y ρ) (heps : eps ≤ 1e-15) {t : ℕ} (ht : 0 < t)
    {u v : ℝ} (hu : |u| ≤ 138e-4) (hv : |v| ≤ 195e-5)
    (h : Close x₀ x₁ z₀ z₁ y ρ t (1 / 4) 6332e-12 113e-10 ((-235172246817674984e-18) + (-13049703657903452e-18) * u + 1832614507393723e-18 * v) (39650795068096444e-18 + 1956885299729055e-18 * u + (-274697153008892e-18) * v) (19127665136325759e-18 + (-9158743016703842e-18) * u + 1291021125382606e-18 * v) 0 (10823320490756288e-18 + (-18510575493521274e-18) * u + 2582319719561138e-18 * v)) :
    Close x₀ x₁ z₀ z₁ y ρ (t + 1) (1 / 4) 1151e-11 1289e-11 ((-665858906212110286e-18) + (-19639500828956409e-18) * u + 2749866277778508e-18 * v) (100249923023092366e-18 + 288409294188726e-17 * u + (-403757703615796e-18) * v) ((-235172246817674984e-18) + (-13049703657903452e-18) * u + 1832614507393723e-18 * v) 0 (20736019257780399e-18 + (-1802135416858901e-17) * u + 2513645431308915e-18 * v) ∧ Big x₀ x₁ z₀ z₁ ρ t := by
  rw [abs_le] at hu hv
  obtain ⟨hu1, hu2⟩ := hu
  obtain ⟨hv1, hv2⟩ := hv
  exact o.zero heps ht h (1 / 4) 1151e-11 1289e-11 ((-665858906212110286e-18) + (-19639500828956409e-18) * u + 2749866277778508e-18 * v) (100249923023092366e-18 + 288409294188726e-17 * u + (-403757703615796e-18) * v) (20736019257780399e-18 + (-1802135416858901e-17) * u + 2513645431308915e-18 * v) 1e-15 39623e-6 39679e-6 254245e-6 254355e-6 1e-6 1 (-1)
    (by norm_num) (by norm_num) (by norm_num) (by norm_num) (by norm_num) (by norm_num) (by norm_num)
    (abs_le.mpr (by constructor <;> linarith)) (abs_le.mpr (by constructor <;> linarith))
    (abs_le.mpr (by constructor <;> linarith)) (abs_le.mpr (by constructor <;> linarith))
    (by norm_num)
    (abs_le.mpr (by constructor <;> linarith))
    (abs_le.mpr (by constructor <;> linarith))
    (by norm_num) (by norm_num)
    (le_max_of_le_right (by linarith)) (abs_le.mpr (by constructor <;> linarith)) (le_max_of_le_right (by linarith))
    (abs_le.mpr (by constructor <;> linarith)) (abs_le.mpr (by constructor <;> linarith))
    (Or.inr (Or.inr ⟨by norm_num, by norm_num, by norm_num⟩))
    (Or.inl (by norm_num))

/-- Iteration 20 of the cycle, for every split variable near that of the cycle. -/
theorem turn20 (o : Orb eps x₀ x₁ z₀ z₁ y ρ) (heps : eps ≤ 1e-15) {t : ℕ} (ht : 0 < t)
    {u v : ℝ} (hu : |u| ≤ 138e-4) (hv : |v| ≤ 195e-5)
    (h : Close x₀ x₁ z₀ z₁ y ρ t (1 / 4) 1151e-11 1289e-11 ((-665858906212110286e-18) + (-19639500828956409e-18) * u + 2749866277778508e-18 * v) (100249923023092366e-18 + 288409294188726e-17 * u + (-403757703615796e-18) * v) ((-235172246817674984e-18) + (-13049703657903452e-18) * u + 1832614507393723e-18 * v) 0 (20736019257780399e-18 + (-1802135416858901e-17) * u + 2513645431308915e-18 * v)) :
    Close x₀ x₁ z₀ z₁ y ρ (t + 1) (1 / 4) 1727e-11 1577e-11 ((-1018623363126348749e-18) + (-24876160550942346e-18) * u + 347849558248204e-17 * v) (149717200171790755e-18 + 3616078408729691e-18 * u + (-505602098743905e-18) * v) ((-665858906212110286e-18) + (-19639500828956409e-18) * u + 2749866277778508e-18 * v) 0 (4579850001355349e-17 + (-17300330933117195e-18) * u + 2412706005404966e-18 * v) ∧ Big x₀ x₁ z₀ z₁ ρ t := by
  rw [abs_le] at hu hv
  obtain ⟨hu1, hu2⟩ := hu
  obtain ⟨hv1, hv2⟩ := hv
  exact o.zero heps ht h (1 / 4) 1727e-11 1577e-11 ((-1018623363126348749e-18) + (-24876160550942346e-18) * u + 347849558248204e-17 * v) (149717200171790755e-18 + 3616078408729691e-18 * u + (-505602098743905e-18) * v) (4579850001355349e-17 + (-17300330933117195e-18) * u + 2412706005404966e-18 * v) 1e-15 100209e-6 100291e-6 430593e-6 43078e-5 1e-6 1 (-1)
    (by norm_num) (by norm_num) (by norm_num) (by norm_num) (by norm_num) (by norm_num) (by norm_num)
    (abs_le.mpr (by constructor <;> linarith)) (abs_le.mpr (by constructor <;> linarith))
    (abs_le.mpr (by constructor <;> linarith)) (abs_le.mpr (by constructor <;> linarith))
    (by norm_num)
    (abs_le.mpr (by constructor <;> linarith))
    (abs_le.mpr (by constructor <;> linarith))
    (by norm_num) (by norm_num)
    (le_max_of_le_right (by linarith)) (abs_le.mpr (by constructor <;> linarith)) (le_max_of_le_right (by linarith))
    (abs_le.mpr (by constructor <;> linarith)) (abs_le.mpr (by constructor <;> linarith))
    (Or.inr (Or.inr ⟨by norm_num, by norm_num, by norm_num⟩))
    (Or.inl (by norm_num))

/-- Iteration 21 of the cycle, for every split variable near that of the cycle. -/
theorem turn21 (o : Orb eps x₀ x₁ z₀ z₁ y ρ) (heps : eps ≤ 1e-15) {t : ℕ} (ht : 0 < t)
    {u v : ℝ} (hu : |u| ≤ 138e-4) (hv : |v| ≤ 195e-5)
    (h : Close x₀ x₁ z₀ z₁ y ρ t (1 / 4) 1727e-11 1577e-11 ((-1018623363126348749e-18) + (-24876160550942346e-18) * u + 347849558248204e-17 * v) (149717200171790755e-18 + 3616078408729691e-18 * u + (-505602098743905e-18) * v) ((-665858906212110286e-18) + (-19639500828956409e-18) * u + 2749866277778508e-18 * v) 0 (4579850001355349e-17 + (-17300330933117195e-18) * u + 2412706005404966e-18 * v)) :
    Close x₀ x₁ z₀ z₁ y ρ (t + 1) (1 / 4) 2421e-11 2009e-11 ((-1299508662365171357e-18) + (-28879756675328601e-18) * u + 4035263126614693e-18 * v) (188987967233581892e-18 + 4173341383670589e-18 * u + (-583094345994154e-18) * v) ((-1018623363126348749e-18) + (-24876160550942346e-18) * u + 347849558248204e-17 * v) 0 (83227800056501179e-18 + (-16396311330934772e-18) * u + 228630548071899e-17 * v) ∧ Big x₀ x₁ z₀ z₁ ρ t := by
  rw [abs_le] at hu hv
  obtain ⟨hu1, hu2⟩ := hu
  obtain ⟨hv1, hv2⟩ := hv
  exact o.zero heps ht h (1 / 4) 2421e-11 2009e-11 ((-1299508662365171357e-18) + (-28879756675328601e-18) * u + 4035263126614693e-18 * v) (188987967233581892e-18 + 4173341383670589e-18 * u + (-583094345994154e-18) * v) (83227800056501179e-18 + (-16396311330934772e-18) * u + 228630548071899e-17 * v) 1e-15 149666e-6 149769e-6 35269e-5 352839e-6 1e-6 1 (-1)
    (by norm_num) (by norm_num) (by norm_num) (by norm_num) (by norm_num) (by norm_num) (by norm_num)
    (abs_le.mpr (by constructor <;> linarith)) (abs_le.mpr (by constructor <;> linarith))
    (abs_le.mpr (by constructor <;> linarith)) (abs_le.mpr (by constructor <;> linarith))
    (by norm_num)
    (abs_le.mpr (by constructor <;> linarith))
    (abs_le.mpr (by constructor <;> linarith))
    (by norm_num) (by norm_num)
    (le_max_of_le_right (by linarith)) (abs_le.mpr (by constructor <;> linarith)) (le_max_of_le_right (by linarith))
    (abs_le.mpr (by constructor <;> linarith)) (abs_le.mpr (by constructor <;> linarith))
    (Or.inr (Or.inr ⟨by norm_num, by norm_num, by norm_num⟩))
    (Or.inl (by norm_num))

/-- Iteration 22 of the cycle, for every split variable near that of the cycle. -/
theorem turn22 (o : Orb eps x₀ x₁ z₀ z₁ y ρ) (heps : eps ≤ 1e-15) {t : ℕ} (ht : 0 < t)
    {u v : ℝ} (hu : |u| ≤ 138e-4) (hv : |v| ≤ 195e-5)
    (h : Close x₀ x₁ z₀ z₁ y ρ t (1 / 4) 2421e-11 2009e-11 ((-1299508662365171357e-18) + (-28879756675328601e-18) * u + 4035263126614693e-18 * v) (188987967233581892e-18 + 4173341383670589e-18 * u + (-583094345994154e-18) * v) ((-1018623363126348749e-18) + (-24876160550942346e-18) * u + 347849558248204e-17 * v) 0 (83227800056501179e-18 + (-16396311330934772e-18) * u + 228630548071899e-17 * v)) :
    Close x₀ x₁ z₀ z₁ y ρ (t + 1) (1 / 4) 3297e-11 2615e-11 ((-1514847009028939043e-18) + (-31772786760477913e-18) * u + 4437263550421338e-18 * v) (218970267321559955e-18 + 4573410371558146e-18 * u + (-638680512248366e-18) * v) ((-1299508662365171357e-18) + (-28879756675328601e-18) * u + 4035263126614693e-18 * v) 0 (130474791864896652e-18 + (-15352975985017125e-18) * u + 2140531894220452e-18 * v) ∧ Big x₀ x₁ z₀ z₁ ρ t := by
  rw [abs_le] at hu hv
  obtain ⟨hu1, hu2⟩ := hu
  obtain ⟨hv1, hv2⟩ := hv
  exact o.zero heps ht h (1 / 4) 3297e-11 2615e-11 ((-1514847009028939043e-18) + (-31772786760477913e-18) * u + 4437263550421338e-18 * v) (218970267321559955e-18 + 4573410371558146e-18 * u + (-638680512248366e-18) * v) (130474791864896652e-18 + (-15352975985017125e-18) * u + 2140531894220452e-18 * v) 1e-15 188929e-6 189047e-6 280828e-6 280942e-6 1e-6 1 (-1)
    (by norm_num) (by norm_num) (by norm_num) (by norm_num) (by norm_num) (by norm_num) (by norm_num)
    (abs_le.mpr (by constructor <;> linarith)) (abs_le.mpr (by constructor <;> linarith))
    (abs_le.mpr (by constructor <;> linarith)) (abs_le.mpr (by constructor <;> linarith))
    (by norm_num)
    (abs_le.mpr (by constructor <;> linarith))
    (abs_le.mpr (by constructor <;> linarith))
    (by norm_num) (by norm_num)
    (le_max_of_le_right (by linarith)) (abs_le.mpr (by constructor <;> linarith)) (le_max_of_le_right (by linarith))
    (abs_le.mpr (by constructor <;> linarith)) (abs_le.mpr (by constructor <;> linarith))
    (Or.inr (Or.inr ⟨by norm_num, by norm_num, by norm_num⟩))
    (Or.inl (by norm_num))

/-- Iteration 23 of the cycle, for every split variable near that of the cycle. -/
theorem turn23 (o : Orb eps x₀ x₁ z₀ z₁ y ρ) (heps : eps ≤ 1e-15) {t : ℕ} (ht : 0 < t)
    {u v : ℝ} (hu : |u| ≤ 138e-4) (hv : |v| ≤ 195e-5)
    (h : Close x₀ x₁ z₀ z₁ y ρ t (1 / 4) 3297e-11 2615e-11 ((-1514847009028939043e-18) + (-31772786760477913e-18) * u + 4437263550421338e-18 * v) (218970267321559955e-18 + 4573410371558146e-18 * u + (-638680512248366e-18) * v) ((-1299508662365171357e-18) + (-28879756675328601e-18) * u + 4035263126614693e-18 * v) 0 (130474791864896652e-18 + (-15352975985017125e-18) * u + 2140531894220452e-18 * v)) :
    Close x₀ x₁ z₀ z₁ y ρ (t + 1) (1 / 4) 4432e-11 344e-10 ((-1671107279246326663e-18) + (-33677712277674019e-18) * u + 4701582826993968e-18 * v) (240589852633015566e-18 + 4833779438681956e-18 * u + (-674801347625003e-18) * v) ((-1514847009028939043e-18) + (-31772786760477913e-18) * u + 4437263550421338e-18 * v) 0 (185217358695286641e-18 + (-14209623392127588e-18) * u + 198086176615836e-17 * v) ∧ Big x₀ x₁ z₀ z₁ ρ t := by
  rw [abs_le] at hu hv
  obtain ⟨hu1, hu2⟩ := hu
  obtain ⟨hv1, hv2⟩ := hv
  exact o.zero heps ht h (1 / 4) 4432e-11 344e-10 ((-1671107279246326663e-18) + (-33677712277674019e-18) * u + 4701582826993968e-18 * v) (240589852633015566e-18 + 4833779438681956e-18 * u + (-674801347625003e-18) * v) (185217358695286641e-18 + (-14209623392127588e-18) * u + 198086176615836e-17 * v) 1e-15 218905e-6 219035e-6 215297e-6 21538e-5 1e-6 1 (-1)
    (by norm_num) (by norm_num) (by norm_num) (by norm_num) (by norm_num) (by norm_num) (by norm_num)
    (abs_le.mpr (by constructor <;> linarith)) (abs_le.mpr (by constructor <;> linarith))
    (abs_le.mpr (by constructor <;> linarith)) (abs_le.mpr (by constructor <;> linarith))
    (by norm_num)
    (abs_le.mpr (by constructor <;> linarith))
    (abs_le.mpr (by constructor <;> linarith))
    (by norm_num) (by norm_num)
    (le_max_of_le_right (by linarith)) (abs_le.mpr (by constructor <;> linarith)) (le_max_of_le_right (by linarith))
    (abs_le.mpr (by constructor <;> linarith)) (abs_le.mpr (by constructor <;> linarith))
    (Or.inr (Or.inr ⟨by norm_num, by norm_num, by norm_num⟩))
    (Or.inl (by norm_num))

/-- Iteration 24 of the cycle, for every split variable near that of the cycle. -/
theorem turn24 (o : Orb eps x₀ x₁ z₀ z₁ y ρ) (heps : eps ≤ 1e-15) {t : ℕ} (ht : 0 < t)
    {u v : ℝ} (hu : |u| ≤ 138e-4) (hv : |v| ≤ 195e-5)
    (h : Close x₀ x₁ z₀ z₁ y ρ t (1 / 4) 4432e-11 344e-10 ((-1671107279246326663e-18) + (-33677712277674019e-18) * u + 4701582826993968e-18 * v) (240589852633015566e-18 + 4833779438681956e-18 * u + (-674801347625003e-18) * v) ((-1514847009028939043e-18) + (-31772786760477913e-18) * u + 4437263550421338e-18 * v) 0 (185217358695286641e-18 + (-14209623392127588e-18) * u + 198086176615836e-17 * v)) :
    Close x₀ x₁ z₀ z₁ y ρ (t + 1) (1 / 4) 5922e-11 4549e-11 ((-177476378094647858e-17) + (-3471487973996734e-17) * u + 4845008777225684e-18 * v) (254771688964974939e-18 + 4971615765975017e-18 * u + (-693851562820713e-18) * v) ((-1671107279246326663e-18) + (-33677712277674019e-18) * u + 4701582826993968e-18 * v) 0 (245364821853540532e-18 + (-13001178532457099e-18) * u + 1812161429252109e-18 * v) ∧ Big x₀ x₁ z₀ z₁ ρ t := by
  rw [abs_le] at hu hv
  obtain ⟨hu1, hu2⟩ := hu
  obtain ⟨hv1, hv2⟩ := hv
  exact o.zero heps ht h (1 / 4) 5922e-11 4549e-11 ((-177476378094647858e-17) + (-3471487973996734e-17) * u + 4845008777225684e-18 * v) (254771688964974939e-18 + 4971615765975017e-18 * u + (-693851562820713e-18) * v) (245364821853540532e-18 + (-13001178532457099e-18) * u + 1812161429252109e-18 * v) 1e-15 240521e-6 240658e-6 156233e-6 156288e-6 1e-6 1 (-1)
    (by norm_num) (by norm_num) (by norm_num) (by norm_num) (by norm_num) (by norm_num) (by norm_num)
    (abs_le.mpr (by constructor <;> linarith)) (abs_le.mpr (by constructor <;> linarith))
    (abs_le.mpr (by constructor <;> linarith)) (abs_le.mpr (by constructor <;> linarith))
    (by norm_num)
    (abs_le.mpr (by constructor <;> linarith))
    (abs_le.mpr (by constructor <;> linarith))
    (by norm_num) (by norm_num)
    (le_max_of_le_right (by linarith)) (abs_le.mpr (by constructor <;> linarith)) (le_max_of_le_right (by linarith))
    (abs_le.mpr (by constructor <;> linarith)) (abs_le.mpr (by constructor <;> linarith))
    (Or.inr (Or.inr ⟨by norm_num, by norm_num, by norm_num⟩))
    (Or.inl (by norm_num))

/-- Iteration 25 of the cycle, for every split variable near that of the cycle. -/
theorem turn25 (o : Orb eps x₀ x₁ z₀ z₁ y ρ) (heps : eps ≤ 1e-15) {t : ℕ} (ht : 0 < t)
    {u v : ℝ} (hu : |u| ≤ 138e-4) (hv : |v| ≤ 195e-5)
    (h : Close x₀ x₁ z₀ z₁ y ρ t (1 / 4) 5922e-11 4549e-11 ((-177476378094647858e-17) + (-3471487973996734e-17) * u + 4845008777225684e-18 * v) (254771688964974939e-18 + 4971615765975017e-18 * u + (-693851562820713e-18) * v) ((-1671107279246326663e-18) + (-33677712277674019e-18) * u + 4701582826993968e-18 * v) 0 (245364821853540532e-18 + (-13001178532457099e-18) * u + 1812161429252109e-18 * v)) :
    Close x₀ x₁ z₀ z₁ y ρ (t + 1) (1 / 2) 7889e-11 603e-10 ((-1832185213062695317e-18) + (-35000799244431469e-18) * u + 4883791416958159e-18 * v) (262424333200816197e-18 + 5003517981400497e-18 * u + (-698146186228933e-18) * v) ((-177476378094647858e-17) + (-3471487973996734e-17) * u + 4845008777225684e-18 * v) 0 (309057744094784267e-18 + (-11758274590963345e-18) * u + 1638698538546931e-18 * v) ∧ Big x₀ x₁ z₀ z₁ ρ t := by
  rw [abs_le] at hu hv
  obtain ⟨hu1, hu2⟩ := hu
  obtain ⟨hv1, hv2⟩ := hv
  exact o.zero heps ht h (1 / 2) 7889e-11 603e-10 ((-1832185213062695317e-18) + (-35000799244431469e-18) * u + 4883791416958159e-18 * v) (262424333200816197e-18 + 5003517981400497e-18 * u + (-698146186228933e-18) * v) (309057744094784267e-18 + (-11758274590963345e-18) * u + 1638698538546931e-18 * v) 1e-15 254701e-6 254842e-6 103641e-6 103672e-6 1e-6 1 (-1)
    (by norm_num) (by norm_num) (by norm_num) (by norm_num) (by norm_num) (by norm_num) (by norm_num)
    (abs_le.mpr (by constructor <;> linarith)) (abs_le.mpr (by constructor <;> linarith))
    (abs_le.mpr (by constructor <;> linarith)) (abs_le.mpr (by constructor <;> linarith))
    (by norm_num)
    (abs_le.mpr (by constructor <;> linarith))
    (abs_le.mpr (by constructor <;> linarith))
    (by norm_num) (by norm_num)
    (le_max_of_le_right (by linarith)) (abs_le.mpr (by constructor <;> linarith)) (le_max_of_le_right (by linarith))
    (abs_le.mpr (by constructor <;> linarith)) (abs_le.mpr (by constructor <;> linarith))
    (Or.inl ⟨by norm_num, by norm_num⟩)
    (Or.inl (by norm_num))

/-- Iteration 26 of the cycle, for every split variable near that of the cycle. -/
theorem turn26 (o : Orb eps x₀ x₁ z₀ z₁ y ρ) (heps : eps ≤ 1e-15) {t : ℕ} (ht : 0 < t)
    {u v : ℝ} (hu : |u| ≤ 138e-4) (hv : |v| ≤ 195e-5)
    (h : Close x₀ x₁ z₀ z₁ y ρ t (1 / 2) 7889e-11 603e-10 ((-1832185213062695317e-18) + (-35000799244431469e-18) * u + 4883791416958159e-18 * v) (262424333200816197e-18 + 5003517981400497e-18 * u + (-698146186228933e-18) * v) ((-177476378094647858e-17) + (-3471487973996734e-17) * u + 4845008777225684e-18 * v) 0 (309057744094784267e-18 + (-11758274590963345e-18) * u + 1638698538546931e-18 * v)) :
    Close x₀ x₁ z₀ z₁ y ρ (t + 1) 1 9717e-11 9975e-11 ((-1808026462636321401e-18) + (-34172602688471457e-18) * u + 4767726963789716e-18 * v) (257714286318846536e-18 + 4862081418449255e-18 * u + (-678340412608806e-18) * v) ((-1832185213062695317e-18) + (-35000799244431469e-18) * u + 4883791416958159e-18 * v) 0 (440269910695192366e-18 + (-9256515600263096e-18) * u + 1289625445432464e-18 * v) ∧ Big x₀ x₁ z₀ z₁ ρ t := by
  rw [abs_le] at hu hv
  obtain ⟨hu1, hu2⟩ := hu
  obtain ⟨hv1, hv2⟩ := hv
  exact o.zero heps ht h 1 9717e-11 9975e-11 ((-1808026462636321401e-18) + (-34172602688471457e-18) * u + 4767726963789716e-18 * v) (257714286318846536e-18 + 4862081418449255e-18 * u + (-678340412608806e-18) * v) (440269910695192366e-18 + (-9256515600263096e-18) * u + 1289625445432464e-18 * v) 1e-15 262353e-6 262495e-6 57417e-6 57426e-6 1e-6 1 (-1)
    (by norm_num) (by norm_num) (by norm_num) (by norm_num) (by norm_num) (by norm_num) (by norm_num)
    (abs_le.mpr (by constructor <;> linarith)) (abs_le.mpr (by constructor <;> linarith))
    (abs_le.mpr (by constructor <;> linarith)) (abs_le.mpr (by constructor <;> linarith))
    (by norm_num)
    (abs_le.mpr (by constructor <;> linarith))
    (abs_le.mpr (by constructor <;> linarith))
    (by norm_num) (by norm_num)
    (le_max_of_le_right (by linarith)) (abs_le.mpr (by constructor <;> linarith)) (le_max_of_le_right (by linarith))
    (abs_le.mpr (by constructor <;> linarith)) (abs_le.mpr (by constructor <;> linarith))
    (Or.inl ⟨by norm_num, by norm_num⟩)
    (Or.inl (by norm_num))

/-- Iteration 27 of the cycle, for every split variable near that of the cycle. -/
theorem turn27 (o : Orb eps x₀ x₁ z₀ z₁ y ρ) (heps : eps ≤ 1e-15) {t : ℕ} (ht : 0 < t)
    {u v : ℝ} (hu : |u| ≤ 138e-4) (hv : |v| ≤ 195e-5)
    (h : Close x₀ x₁ z₀ z₁ y ρ t 1 9717e-11 9975e-11 ((-1808026462636321401e-18) + (-34172602688471457e-18) * u + 4767726963789716e-18 * v) (257714286318846536e-18 + 4862081418449255e-18 * u + (-678340412608806e-18) * v) ((-1832185213062695317e-18) + (-35000799244431469e-18) * u + 4883791416958159e-18 * v) 0 (440269910695192366e-18 + (-9256515600263096e-18) * u + 1289625445432464e-18 * v)) :
    Close x₀ x₁ z₀ z₁ y ρ (t + 1) 2 1177e-10 197e-9 ((-174557422174939241e-17) + (-32818701390495655e-18) * u + 4578591385268894e-18 * v) (246393829731488011e-18 + 4623914422548151e-18 * u + (-645078027489803e-18) * v) ((-1808026462636321401e-18) + (-34172602688471457e-18) * u + 4767726963789716e-18 * v) 0 (697984197014038902e-18 + (-4394434181813841e-18) * u + 611285032823658e-18 * v) ∧ Big x₀ x₁ z₀ z₁ ρ t := by
  rw [abs_le] at hu hv
  obtain ⟨hu1, hu2⟩ := hu
  obtain ⟨hv1, hv2⟩ := hv
  exact o.zero heps ht h 2 1177e-10 197e-9 ((-174557422174939241e-17) + (-32818701390495655e-18) * u + 4578591385268894e-18 * v) (246393829731488011e-18 + 4623914422548151e-18 * u + (-645078027489803e-18) * v) (697984197014038902e-18 + (-4394434181813841e-18) * u + 611285032823658e-18 * v) 1e-15 257645e-6 257783e-6 24146e-6 24171e-6 1e-6 1 1
    (by norm_num) (by norm_num) (by norm_num) (by norm_num) (by norm_num) (by norm_num) (by norm_num)
    (abs_le.mpr (by constructor <;> linarith)) (abs_le.mpr (by constructor <;> linarith))
    (abs_le.mpr (by constructor <;> linarith)) (abs_le.mpr (by constructor <;> linarith))
    (by norm_num)
    (abs_le.mpr (by constructor <;> linarith))
    (abs_le.mpr (by constructor <;> linarith))
    (by norm_num) (by norm_num)
    (le_max_of_le_right (by linarith)) (abs_le.mpr (by constructor <;> linarith)) (le_max_of_le_right (by linarith))
    (abs_le.mpr (by constructor <;> linarith)) (abs_le.mpr (by constructor <;> linarith))
    (Or.inl ⟨by norm_num, by norm_num⟩)
    (Or.inl (by norm_num))

/-- Iteration 28 of the cycle, for every split variable near that of the cycle. -/
theorem turn28 (o : Orb eps x₀ x₁ z₀ z₁ y ρ) (heps : eps ≤ 1e-15) {t : ℕ} (ht : 0 < t)
    {u v : ℝ} (hu : |u| ≤ 138e-4) (hv : |v| ≤ 195e-5)
    (h : Close x₀ x₁ z₀ z₁ y ρ t 2 1177e-10 197e-9 ((-174557422174939241e-17) + (-32818701390495655e-18) * u + 4578591385268894e-18 * v) (246393829731488011e-18 + 4623914422548151e-18 * u + (-645078027489803e-18) * v) ((-1808026462636321401e-18) + (-34172602688471457e-18) * u + 4767726963789716e-18 * v) 0 (697984197014038902e-18 + (-4394434181813841e-18) * u + 611285032823658e-18 * v)) :
    Close x₀ x₁ z₀ z₁ y ρ (t + 1) 2 1422e-10 4325e-10 ((-1666105751535984696e-18) + (-31239893414015147e-18) * u + 4358211168426532e-18 * v) (230446681627673269e-18 + 4312479251861163e-18 * u + (-60161300340928e-17) * v) ((-174557422174939241e-17) + (-32818701390495655e-18) * u + 4578591385268894e-18 * v) 0 (1190771856477014924e-18 + 4853394663282461e-18 * u + (-678871022155948e-18) * v) ∧ Big x₀ x₁ z₀ z₁ ρ t := by
  rw [abs_le] at hu hv
  obtain ⟨hu1, hu2⟩ := hu
  obtain ⟨hv1, hv2⟩ := hv
  exact o.zero heps ht h 2 1422e-10 4325e-10 ((-1666105751535984696e-18) + (-31239893414015147e-18) * u + 4358211168426532e-18 * v) (230446681627673269e-18 + 4312479251861163e-18 * u + (-60161300340928e-17) * v) (1190771856477014924e-18 + 4853394663282461e-18 * u + (-678871022155948e-18) * v) 1e-15 246328e-6 24646e-5 62432e-6 62472e-6 1e-6 1 1
    (by norm_num) (by norm_num) (by norm_num) (by norm_num) (by norm_num) (by norm_num) (by norm_num)
    (abs_le.mpr (by constructor <;> linarith)) (abs_le.mpr (by constructor <;> linarith))
    (abs_le.mpr (by constructor <;> linarith)) (abs_le.mpr (by constructor <;> linarith))
    (by norm_num)
    (abs_le.mpr (by constructor <;> linarith))
    (abs_le.mpr (by constructor <;> linarith))
    (by norm_num) (by norm_num)
    (le_max_of_le_right (by linarith)) (abs_le.mpr (by constructor <;> linarith)) (le_max_of_le_right (by linarith))
    (abs_le.mpr (by constructor <;> linarith)) (abs_le.mpr (by constructor <;> linarith))
    (Or.inr (Or.inr ⟨by norm_num, by norm_num, by norm_num⟩))
    (Or.inl (by norm_num))

/-- Iteration 29 of the cycle, for every split variable near that of the cycle. -/
theorem turn29 (o : Orb eps x₀ x₁ z₀ z₁ y ρ) (heps : eps ≤ 1e-15) {t : ℕ} (ht : 0 < t)
    {u v : ℝ} (hu : |u| ≤ 138e-4) (hv : |v| ≤ 195e-5)
    (h : Close x₀ x₁ z₀ z₁ y ρ t 2 1422e-10 4325e-10 ((-1666105751535984696e-18) + (-31239893414015147e-18) * u + 4358211168426532e-18 * v) (230446681627673269e-18 + 4312479251861163e-18 * u + (-60161300340928e-17) * v) ((-174557422174939241e-17) + (-32818701390495655e-18) * u + 4578591385268894e-18 * v) 0 (1190771856477014924e-18 + 4853394663282461e-18 * u + (-678871022155948e-18) * v)) :
    Close x₀ x₁ z₀ z₁ y ρ (t + 1) 2 3585e-10 0 ((-1579136645153652767e-18) + (-30947430660954379e-18) * u + 4317528058832093e-18 * v) (217308177271252116e-18 + 4393207927463886e-18 * u + (-612915140824162e-18) * v) ((-1666105751535984696e-18) + (-31239893414015147e-18) * u + 4358211168426532e-18 * v) (75832609866180731e-18 + 6739176583502394e-18 * u + (-941048514487254e-18) * v) (3 / 2) ∧ Big x₀ x₁ z₀ z₁ ρ t := by
  rw [abs_le] at hu hv
  obtain ⟨hu1, hu2⟩ := hu
  obtain ⟨hv1, hv2⟩ := hv
  exact o.pos heps ht h 2 3585e-10 ((-1579136645153652767e-18) + (-30947430660954379e-18) * u + 4317528058832093e-18 * v) (217308177271252116e-18 + 4393207927463886e-18 * u + (-612915140824162e-18) * v) (75832609866180731e-18 + 6739176583502394e-18 * u + (-941048514487254e-18) * v) 1e-15 154579e-6 154649e-6 79445e-6 79491e-6 75928e-6 75737e-6 1 1 3585e-10
    (by norm_num) (by norm_num) (by norm_num) (by norm_num) (by norm_num) (by norm_num) (by norm_num) (by norm_num) (by norm_num)
    (abs_le.mpr (by constructor <;> linarith)) (abs_le.mpr (by constructor <;> linarith))
    (by linarith) (abs_le.mpr (by constructor <;> linarith))
    (by norm_num)
    (abs_le.mpr (by constructor <;> linarith))
    (abs_le.mpr (by constructor <;> linarith))
    (by norm_num) (by norm_num)
    (by linarith) (by linarith) (le_max_of_le_right (by linarith))
    (abs_le.mpr (by constructor <;> linarith)) (abs_le.mpr (by constructor <;> linarith))
    (le_max_of_le_right (by linarith))
    (Or.inr (Or.inr ⟨by norm_num, by norm_num, by norm_num⟩))
    (Or.inl (by norm_num))

/-- Iteration 30 of the cycle, for every split variable near that of the cycle. -/
theorem turn30 (o : Orb eps x₀ x₁ z₀ z₁ y ρ) (heps : eps ≤ 1e-15) {t : ℕ} (ht : 0 < t)
    {u v : ℝ} (hu : |u| ≤ 138e-4) (hv : |v| ≤ 195e-5)
    (h : Close x₀ x₁ z₀ z₁ y ρ t 2 3585e-10 0 ((-1579136645153652767e-18) + (-30947430660954379e-18) * u + 4317528058832093e-18 * v) (217308177271252116e-18 + 4393207927463886e-18 * u + (-612915140824162e-18) * v) ((-1666105751535984696e-18) + (-31239893414015147e-18) * u + 4358211168426532e-18 * v) (75832609866180731e-18 + 6739176583502394e-18 * u + (-941048514487254e-18) * v) (3 / 2)) :
    Close x₀ x₁ z₀ z₁ y ρ (t + 1) 1 3928e-10 0 ((-1514414682426101033e-18) + (-30352352842553203e-18) * u + 4234509266502888e-18 * v) (210180958182057125e-18 + 427937632813606e-17 * u + (-597023343564298e-18) * v) ((-1579136645153652767e-18) + (-30947430660954379e-18) * u + 4317528058832093e-18 * v) (217308177271252116e-18 + 4393207927463886e-18 * u + (-612915140824162e-18) * v) (3 / 2) ∧ Big x₀ x₁ z₀ z₁ ρ t := by
  rw [abs_le] at hu hv
  obtain ⟨hu1, hu2⟩ := hu
  obtain ⟨hv1, hv2⟩ := hv
  exact o.pos heps ht h 1 3928e-10 ((-1514414682426101033e-18) + (-30352352842553203e-18) * u + 4234509266502888e-18 * v) (210180958182057125e-18 + 427937632813606e-17 * u + (-597023343564298e-18) * v) (217308177271252116e-18 + 4393207927463886e-18 * u + (-612915140824162e-18) * v) 1e-15 0 0 86964e-6 86974e-6 14151e-5 141441e-6 1 1 3586e-10
    (by norm_num) (by norm_num) (by norm_num) (by norm_num) (by norm_num) (by norm_num) (by norm_num) (by norm_num) (by norm_num)
    (abs_le.mpr (by constructor <;> linarith)) (abs_le.mpr (by constructor <;> linarith))
    (by linarith) (abs_le.mpr (by constructor <;> linarith))
    (by norm_num)
    (abs_le.mpr (by constructor <;> linarith))
    (abs_le.mpr (by constructor <;> linarith))
    (by norm_num) (by norm_num)
    (by linarith) (by linarith) (le_max_of_le_right (by linarith))
    (abs_le.mpr (by constructor <;> linarith)) (abs_le.mpr (by constructor <;> linarith))
    (le_max_of_le_right (by linarith))
    (Or.inr (Or.inl ⟨by norm_num, by norm_num⟩))
    (Or.inr (by norm_num))

/-- Iteration 31 of the cycle, for every split variable near that of the cycle. -/
theorem turn31 (o : Orb eps x₀ x₁ z₀ z₁ y ρ) (heps : eps ≤ 1e-15) {t : ℕ} (ht : 0 < t)
    {u v : ℝ} (hu : |u| ≤ 138e-4) (hv : |v| ≤ 195e-5)
    (h : Close x₀ x₁ z₀ z₁ y ρ t 1 3928e-10 0 ((-1514414682426101033e-18) + (-30352352842553203e-18) * u + 4234509266502888e-18 * v) (210180958182057125e-18 + 427937632813606e-17 * u + (-597023343564298e-18) * v) ((-1579136645153652767e-18) + (-30947430660954379e-18) * u + 4317528058832093e-18 * v) (217308177271252116e-18 + 4393207927463886e-18 * u + (-612915140824162e-18) * v) (3 / 2)) :
    Close x₀ x₁ z₀ z₁ y ρ (t + 1) (1 / 2) 4225e-10 0 ((-1390415109973197199e-18) + (-29199495781596464e-18) * u + 4073672202454613e-18 * v) (192725988450794655e-18 + 4116458584944412e-18 * u + (-574294263967408e-18) * v) ((-1514414682426101033e-18) + (-30352352842553203e-18) * u + 4234509266502888e-18 * v) (210180958182057125e-18 + 427937632813606e-17 * u + (-597023343564298e-18) * v) (3 / 2) ∧ Big x₀ x₁ z₀ z₁ ρ t := by
  rw [abs_le] at hu hv
  obtain ⟨hu1, hu2⟩ := hu
  obtain ⟨hv1, hv2⟩ := hv
  exact o.pos heps ht h (1 / 2) 4225e-10 ((-1390415109973197199e-18) + (-29199495781596464e-18) * u + 4073672202454613e-18 * v) (192725988450794655e-18 + 4116458584944412e-18 * u + (-574294263967408e-18) * v) (210180958182057125e-18 + 427937632813606e-17 * u + (-597023343564298e-18) * v) 1e-15 0 0 64712e-6 64732e-6 713e-5 7124e-6 1 (-1) 3929e-10
    (by norm_num) (by norm_num) (by norm_num) (by norm_num) (by norm_num) (by norm_num) (by norm_num) (by norm_num) (by norm_num)
    (abs_le.mpr (by constructor <;> linarith)) (abs_le.mpr (by constructor <;> linarith))
    (by linarith) (abs_le.mpr (by constructor <;> linarith))
    (by norm_num)
    (abs_le.mpr (by constructor <;> linarith))
    (abs_le.mpr (by constructor <;> linarith))
    (by norm_num) (by norm_num)
    (by linarith) (by linarith) (le_max_of_le_right (by linarith))
    (abs_le.mpr (by constructor <;> linarith)) (abs_le.mpr (by constructor <;> linarith))
    (le_max_of_le_right (by linarith))
    (Or.inr (Or.inl ⟨by norm_num, by norm_num⟩))
    (Or.inr (by norm_num))

/-- Iteration 32 of the cycle, for every split variable near that of the cycle. -/
theorem turn32 (o : Orb eps x₀ x₁ z₀ z₁ y ρ) (heps : eps ≤ 1e-15) {t : ℕ} (ht : 0 < t)
    {u v : ℝ} (hu : |u| ≤ 138e-4) (hv : |v| ≤ 195e-5)
    (h : Close x₀ x₁ z₀ z₁ y ρ t (1 / 2) 4225e-10 0 ((-1390415109973197199e-18) + (-29199495781596464e-18) * u + 4073672202454613e-18 * v) (192725988450794655e-18 + 4116458584944412e-18 * u + (-574294263967408e-18) * v) ((-1514414682426101033e-18) + (-30352352842553203e-18) * u + 4234509266502888e-18 * v) (210180958182057125e-18 + 427937632813606e-17 * u + (-597023343564298e-18) * v) (3 / 2)) :
    Close x₀ x₁ z₀ z₁ y ρ (t + 1) (1 / 4) 438e-9 0 ((-1160573280841700116e-18) + (-2706243312846507e-17) * u + 3775526892463709e-18 * v) (160323758474254848e-18 + 3815179431372834e-18 * u + (-532262286780747e-18) * v) ((-1390415109973197199e-18) + (-29199495781596464e-18) * u + 4073672202454613e-18 * v) (192725988450794655e-18 + 4116458584944412e-18 * u + (-574294263967408e-18) * v) (3 / 2) ∧ Big x₀ x₁ z₀ z₁ ρ t := by
  rw [abs_le] at hu hv
  obtain ⟨hu1, hu2⟩ := hu
  obtain ⟨hv1, hv2⟩ := hv
  exact o.pos heps ht h (1 / 4) 438e-9 ((-1160573280841700116e-18) + (-2706243312846507e-17) * u + 3775526892463709e-18 * v) (160323758474254848e-18 + 3815179431372834e-18 * u + (-532262286780747e-18) * v) (192725988450794655e-18 + 4116458584944412e-18 * u + (-574294263967408e-18) * v) 1e-15 0 0 123982e-6 124017e-6 17459e-6 17451e-6 1 (-1) 4226e-10
    (by norm_num) (by norm_num) (by norm_num) (by norm_num) (by norm_num) (by norm_num) (by norm_num) (by norm_num) (by norm_num)
    (abs_le.mpr (by constructor <;> linarith)) (abs_le.mpr (by constructor <;> linarith))
    (by linarith) (abs_le.mpr (by constructor <;> linarith))
    (by norm_num)
    (abs_le.mpr (by constructor <;> linarith))
    (abs_le.mpr (by constructor <;> linarith))
    (by norm_num) (by norm_num)
    (by linarith) (by linarith) (le_max_of_le_right (by linarith))
    (abs_le.mpr (by constructor <;> linarith)) (abs_le.mpr (by constructor <;> linarith))
    (le_max_of_le_right (by linarith))
    (Or.inr (Or.inl ⟨by norm_num, by norm_num⟩))
    (Or.inr (by norm_num))

/-- Iteration 33 of the cycle, for every split variable near that of the cycle. -/
theorem turn33 (o : Orb eps x₀ x₁ z₀ z₁ y ρ) (heps : eps ≤ 1e-15) {t : ℕ} (ht : 0 < t)
    {u v : ℝ} (hu : |u| ≤ 138e-4) (hv : |v| ≤ 195e-5)
    (h : Close x₀ x₁ z₀ z₁ y ρ t (1 / 4) 438e-9 0 ((-1160573280841700116e-18) + (-2706243312846507e-17) * u + 3775526892463709e-18 * v) (160323758474254848e-18 + 3815179431372834e-18 * u + (-532262286780747e-18) * v) ((-1390415109973197199e-18) + (-29199495781596464e-18) * u + 4073672202454613e-18 * v) (192725988450794655e-18 + 4116458584944412e-18 * u + (-574294263967408e-18) * v) (3 / 2)) :
    Close x₀ x₁ z₀ z₁ y ρ (t + 1) (1 / 8) 4381e-10 0 ((-763587864360755144e-18) + (-23371273262310588e-18) * u + 3260566789915485e-18 * v) (104357963760096628e-18 + 3294810943828245e-18 * u + (-459664778290924e-18) * v) ((-1160573280841700116e-18) + (-2706243312846507e-17) * u + 3775526892463709e-18 * v) (160323758474254848e-18 + 3815179431372834e-18 * u + (-532262286780747e-18) * v) (3 / 2) ∧ Big x₀ x₁ z₀ z₁ ρ t := by
  rw [abs_le] at hu hv
  obtain ⟨hu1, hu2⟩ := hu
  obtain ⟨hv1, hv2⟩ := hv
  exact o.pos heps ht h (1 / 8) 4381e-10 ((-763587864360755144e-18) + (-23371273262310588e-18) * u + 3260566789915485e-18 * v) (104357963760096628e-18 + 3294810943828245e-18 * u + (-459664778290924e-18) * v) (160323758474254848e-18 + 3815179431372834e-18 * u + (-532262286780747e-18) * v) 1e-15 0 0 22981e-5 229873e-6 32408e-6 32397e-6 1 (-1) 4381e-10
    (by norm_num) (by norm_num) (by norm_num) (by norm_num) (by norm_num) (by norm_num) (by norm_num) (by norm_num) (by norm_num)
    (abs_le.mpr (by constructor <;> linarith)) (abs_le.mpr (by constructor <;> linarith))
    (by linarith) (abs_le.mpr (by constructor <;> linarith))
    (by norm_num)
    (abs_le.mpr (by constructor <;> linarith))
    (abs_le.mpr (by constructor <;> linarith))
    (by norm_num) (by norm_num)
    (by linarith) (by linarith) (le_max_of_le_right (by linarith))
    (abs_le.mpr (by constructor <;> linarith)) (abs_le.mpr (by constructor <;> linarith))
    (le_max_of_le_right (by linarith))
    (Or.inr (Or.inl ⟨by norm_num, by norm_num⟩))
    (Or.inr (by norm_num))

/-- Iteration 34 of the cycle, for every split variable near that of the cycle. -/
theorem turn34 (o : Orb eps x₀ x₁ z₀ z₁ y ρ) (heps : eps ≤ 1e-15) {t : ℕ} (ht : 0 < t)
    {u v : ℝ} (hu : |u| ≤ 138e-4) (hv : |v| ≤ 195e-5)
    (h : Close x₀ x₁ z₀ z₁ y ρ t (1 / 8) 4381e-10 0 ((-763587864360755144e-18) + (-23371273262310588e-18) * u + 3260566789915485e-18 * v) (104357963760096628e-18 + 3294810943828245e-18 * u + (-459664778290924e-18) * v) ((-1160573280841700116e-18) + (-2706243312846507e-17) * u + 3775526892463709e-18 * v) (160323758474254848e-18 + 3815179431372834e-18 * u + (-532262286780747e-18) * v) (3 / 2)) :
    Close x₀ x₁ z₀ z₁ y ρ (t + 1) (1 / 16) 4382e-10 0 ((-160207657772690269e-18) + (-17761060112741834e-18) * u + 2477876241800155e-18 * v) (19295259404502986e-18 + 2503900175929972e-18 * u + (-349323447946955e-18) * v) ((-763587864360755144e-18) + (-23371273262310588e-18) * u + 3260566789915485e-18 * v) (104357963760096628e-18 + 3294810943828245e-18 * u + (-459664778290924e-18) * v) (3 / 2) ∧ Big x₀ x₁ z₀ z₁ ρ t := by
  rw [abs_le] at hu hv
  obtain ⟨hu1, hu2⟩ := hu
  obtain ⟨hv1, hv2⟩ := hv
  exact o.pos heps ht h (1 / 16) 4382e-10 ((-160207657772690269e-18) + (-17761060112741834e-18) * u + 2477876241800155e-18 * v) (19295259404502986e-18 + 2503900175929972e-18 * u + (-349323447946955e-18) * v) (104357963760096628e-18 + 3294810943828245e-18 * u + (-459664778290924e-18) * v) 1e-15 0 0 396932e-6 397039e-6 55974e-6 55957e-6 1 (-1) 4382e-10
    (by norm_num) (by norm_num) (by norm_num) (by norm_num) (by norm_num) (by norm_num) (by norm_num) (by norm_num) (by norm_num)
    (abs_le.mpr (by constructor <;> linarith)) (abs_le.mpr (by constructor <;> linarith))
    (by linarith) (abs_le.mpr (by constructor <;> linarith))
    (by norm_num)
    (abs_le.mpr (by constructor <;> linarith))
    (abs_le.mpr (by constructor <;> linarith))
    (by norm_num) (by norm_num)
    (by linarith) (by linarith) (le_max_of_le_right (by linarith))
    (abs_le.mpr (by constructor <;> linarith)) (abs_le.mpr (by constructor <;> linarith))
    (le_max_of_le_right (by linarith))
    (Or.inr (Or.inl ⟨by norm_num, by norm_num⟩))
    (Or.inr (by norm_num))

/-- Iteration 35 of the cycle, for every split variable near that of the cycle. -/
theorem turn35 (o : Orb eps x₀ x₁ z₀ z₁ y ρ) (heps : eps ≤ 1e-15) {t : ℕ} (ht : 0 < t)
    {u v : ℝ} (hu : |u| ≤ 138e-4) (hv : |v| ≤ 195e-5)
    (h : Close x₀ x₁ z₀ z₁ y ρ t (1 / 16) 4382e-10 0 ((-160207657772690269e-18) + (-17761060112741834e-18) * u + 2477876241800155e-18 * v) (19295259404502986e-18 + 2503900175929972e-18 * u + (-349323447946955e-18) * v) ((-763587864360755144e-18) + (-23371273262310588e-18) * u + 3260566789915485e-18 * v) (104357963760096628e-18 + 3294810943828245e-18 * u + (-459664778290924e-18) * v) (3 / 2)) :
    Close x₀ x₁ z₀ z₁ y ρ (t + 1) (1 / 32) 4383e-10 0 (57934530840317982e-17 + (-10884716257999936e-18) * u + 1518545607257129e-18 * v) ((-84964665980739588e-18) + 1534494156337068e-18 * u + (-214079936052974e-18) * v) ((-160207657772690269e-18) + (-17761060112741834e-18) * u + 2477876241800155e-18 * v) (19295259404502986e-18 + 2503900175929972e-18 * u + (-349323447946955e-18) * v) (3 / 2) ∧ Big x₀ x₁ z₀ z₁ ρ t := by
  rw [abs_le] at hu hv
  obtain ⟨hu1, hu2⟩ := hu
  obtain ⟨hv1, hv2⟩ := hv
  exact o.pos heps ht h (1 / 32) 4383e-10 (57934530840317982e-17 + (-10884716257999936e-18) * u + 1518545607257129e-18 * v) ((-84964665980739588e-18) + 1534494156337068e-18 * u + (-214079936052974e-18) * v) (19295259404502986e-18 + 2503900175929972e-18 * u + (-349323447946955e-18) * v) 1e-15 0 0 6033e-4 603461e-6 85075e-6 8505e-5 1 (-1) 4383e-10
    (by norm_num) (by norm_num) (by norm_num) (by norm_num) (by norm_num) (by norm_num) (by norm_num) (by norm_num) (by norm_num)
    (abs_le.mpr (by constructor <;> linarith)) (abs_le.mpr (by constructor <;> linarith))
    (by linarith) (abs_le.mpr (by constructor <;> linarith))
    (by norm_num)
    (abs_le.mpr (by constructor <;> linarith))
    (abs_le.mpr (by constructor <;> linarith))
    (by norm_num) (by norm_num)
    (by linarith) (by linarith) (le_max_of_le_right (by linarith))
    (abs_le.mpr (by constructor <;> linarith)) (abs_le.mpr (by constructor <;> linarith))
    (le_max_of_le_right (by linarith))
    (Or.inr (Or.inl ⟨by norm_num, by norm_num⟩))
    (Or.inr (by norm_num))

/-- One turn of the cycle. -/
theorem turn_all (o : Orb eps x₀ x₁ z₀ z₁ y ρ) (heps : eps ≤ 1e-15) {t : ℕ} (ht : 0 < t)
    {u v : ℝ} (hu : |u| ≤ 138e-4) (hv : |v| ≤ 195e-5)
    (h : Close x₀ x₁ z₀ z₁ y ρ t (1 / 32) 1e-10 0 (579349508692365835e-18 + 60090702947845805e-17 * u + (-84656084656084656e-18) * v) ((-84965255731922399e-18) + (-84656084656084656e-18) * u + 12345679012345679e-18 * v) ((-1602e-4) + 1 * u + 0 * v) (193e-4 + 0 * u + 1 * v) (3 / 2)) :
    (∀ i < 35, Big x₀ x₁ z₀ z₁ ρ (t + i)) ∧
    (ρ (t + 34) = 1 / 16 ∧ |x₀ (t + 34)| ≤ 4 ∧ |x₁ (t + 34)| ≤ 1) ∧
    x₁ (t + 3) ≤ -1 / 5 ∧ 1 / 4 ≤ x₁ (t + 25) ∧
    Close x₀ x₁ z₀ z₁ y ρ (t + 35) (1 / 32) 4383e-10 0 (57934530840317982e-17 + (-10884716257999936e-18) * u + 1518545607257129e-18 * v) ((-84964665980739588e-18) + 1534494156337068e-18 * u + (-214079936052974e-18) * v) ((-160207657772690269e-18) + (-17761060112741834e-18) * u + 2477876241800155e-18 * v) (19295259404502986e-18 + 2503900175929972e-18 * u + (-349323447946955e-18) * v) (3 / 2) := by
  have hu' := abs_le.mp hu
  have hv' := abs_le.mp hv
  obtain ⟨h, b0⟩ := o.turn1 heps (by omega) hu hv h
  obtain ⟨h, b1⟩ := o.turn2 heps (by omega) hu hv h
  obtain ⟨h, b2⟩ := o.turn3 heps (by omega) hu hv h
  have s3 : |x₁ (t + 3) - _| ≤ _ := h.coef₁
  rw [abs_le] at s3
  obtain ⟨h, b3⟩ := o.turn4 heps (by omega) hu hv h
  obtain ⟨h, b4⟩ := o.turn5 heps (by omega) hu hv h
  obtain ⟨h, b5⟩ := o.turn6 heps (by omega) hu hv h
  obtain ⟨h, b6⟩ := o.turn7 heps (by omega) hu hv h
  obtain ⟨h, b7⟩ := o.turn8 heps (by omega) hu hv h
  obtain ⟨h, b8⟩ := o.turn9 heps (by omega) hu hv h
  obtain ⟨h, b9⟩ := o.turn10 heps (by omega) hu hv h
  obtain ⟨h, b10⟩ := o.turn11 heps (by omega) hu hv h
  obtain ⟨h, b11⟩ := o.turn12 heps (by omega) hu hv h
  obtain ⟨h, b12⟩ := o.turn13 heps (by omega) hu hv h
  obtain ⟨h, b13⟩ := o.turn14 heps (by omega) hu hv h
  obtain ⟨h, b14⟩ := o.turn15 heps (by omega) hu hv h
  obtain ⟨h, b15⟩ := o.turn16 heps (by omega) hu hv h
  obtain ⟨h, b16⟩ := o.turn17 heps (by omega) hu hv h
  obtain ⟨h, b17⟩ := o.turn18 heps (by omega) hu hv h
  obtain ⟨h, b18⟩ := o.turn19 heps (by omega) hu hv h
  obtain ⟨h, b19⟩ := o.turn20 heps (by omega) hu hv h
  obtain ⟨h, b20⟩ := o.turn21 heps (by omega) hu hv h
  obtain ⟨h, b21⟩ := o.turn22 heps (by omega) hu hv h
  obtain ⟨h, b22⟩ := o.turn23 heps (by omega) hu hv h
  obtain ⟨h, b23⟩ := o.turn24 heps (by omega) hu hv h
  obtain ⟨h, b24⟩ := o.turn25 heps (by omega) hu hv h
  have s25 : |x₁ (t + 25) - _| ≤ _ := h.coef₁
  rw [abs_le] at s25
  obtain ⟨h, b25⟩ := o.turn26 heps (by omega) hu hv h
  obtain ⟨h, b26⟩ := o.turn27 heps (by omega) hu hv h
  obtain ⟨h, b27⟩ := o.turn28 heps (by omega) hu hv h
  obtain ⟨h, b28⟩ := o.turn29 heps (by omega) hu hv h
  obtain ⟨h, b29⟩ := o.turn30 heps (by omega) hu hv h
  obtain ⟨h, b30⟩ := o.turn31 heps (by omega) hu hv h
  obtain ⟨h, b31⟩ := o.turn32 heps (by omega) hu hv h
  obtain ⟨h, b32⟩ := o.turn33 heps (by omega) hu hv h
  obtain ⟨h, b33⟩ := o.turn34 heps (by omega) hu hv h
  have k0 : ρ (t + 34) = _ := h.rho
  have k1 : |x₀ (t + 34) - _| ≤ _ := h.coef₀
  have k2 : |x₁ (t + 34) - _| ≤ _ := h.coef₁
  rw [abs_le] at k1 k2
  obtain ⟨h, b34⟩ := o.turn35 heps (by omega) hu hv h
  refine ⟨fun i hi => ?_, ⟨k0, abs_le.mpr ⟨by linarith, by linarith⟩,
    abs_le.mpr ⟨by linarith, by linarith⟩⟩, by linarith [s3.2], by linarith [s25.1], h⟩
  interval_cases i
  · exact b0
  · exact b1
  · exact b2
  · exact b3
  · exact b4
  · exact b5
  · exact b6
  · exact b7
  · exact b8
  · exact b9
  · exact b10
  · exact b11
  · exact b12
  · exact b13
  · exact b14
  · exact b15
  · exact b16
  · exact b17
  · exact b18
  · exact b19
  · exact b20
  · exact b21
  · exact b22
  · exact b23
  · exact b24
  · exact b25
  · exact b26
  · exact b27
  · exact b28
  · exact b29
  · exact b30
  · exact b31
  · exact b32
  · exact b33
  · exact b34

end Orb
end GLM
