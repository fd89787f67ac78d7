/-
  What C64, C65 assume of the distribution functions of `statrs`.
-/
import Verif.Model.Refit
import Verif.Lemmas.Real
import Mathlib.Order.Monotone.Basic

namespace GLM

/-- Facts about the chi-squared, Student t, Fisher F and normal distributions: a constructor accepts
its parameters exactly if they are positive; survival functions are decreasing probabilities; the
symmetric distributions have survival 1/2 at zero; the others have no mass below zero. -/
structure Dists.Lawful (ds : Dists ℝ) : Prop where
  chi2_some : ∀ ν, (∃ c, ds.chi2 ν = some c) ↔ 0 < ν
  chi2_sf : ∀ {ν c}, ds.chi2 ν = some c → ∀ x, c.2 x = 1 - c.1 x
  chi2_anti : ∀ {ν c}, ds.chi2 ν = some c → Antitone c.2
  chi2_nonneg : ∀ {ν c}, ds.chi2 ν = some c → ∀ x, 0 ≤ c.2 x
  chi2_zero : ∀ {ν c}, ds.chi2 ν = some c → ∀ x ≤ 0, c.2 x = 1
  t_some : ∀ ν, (∃ sf, ds.studentT ν = some sf) ↔ 0 < ν
  t_anti : ∀ {ν sf}, ds.studentT ν = some sf → Antitone sf
  t_nonneg : ∀ {ν sf}, ds.studentT ν = some sf → ∀ x, 0 ≤ sf x
  t_zero : ∀ {ν sf}, ds.studentT ν = some sf → sf 0 = 1 / 2
  f_some : ∀ d1 d2, (∃ sf, ds.fisherSnedecor d1 d2 = some sf) ↔ 0 < d1 ∧ 0 < d2
  f_anti : ∀ {d1 d2 sf}, ds.fisherSnedecor d1 d2 = some sf → Antitone sf
  f_nonneg : ∀ {d1 d2 sf}, ds.fisherSnedecor d1 d2 = some sf → ∀ x, 0 ≤ sf x
  f_zero : ∀ {d1 d2 sf}, ds.fisherSnedecor d1 d2 = some sf → ∀ x ≤ 0, sf x = 1
  normal_anti : Antitone ds.normalSf
  normal_nonneg : ∀ x, 0 ≤ ds.normalSf x
  normal_zero : ds.normalSf 0 = 1 / 2

/-- The square of a Student t variable is an F variable with one degree of freedom in the numerator:
`P(F > t²) = P(|T| > |t|)`. -/
def Dists.SquareLaw (ds : Dists ℝ) : Prop :=
  ∀ {ν sfT sfF}, ds.studentT ν = some sfT → ds.fisherSnedecor 1 ν = some sfF →
    ∀ t, sfF (t ^ 2) = 2 * sfT |t|

end GLM
