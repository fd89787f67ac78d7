/-
  Standardized features in floating-point arithmetic: what the stored numbers stand for.
-/
import Verif.Spec.ScoreAccuracy

namespace GLM.Spec
variable {fmt : FloatFormat} {n p : ℕ}

/-- The data of the fit with the features that the fit stores, which are standardized and rounded. -/
def storedRaw {b : Bool} (raw : Dataset (Fl fmt) n p false) (data : Dataset (Fl fmt) n p b) :
    Dataset (Fl fmt) n p false :=
  ⟨raw.y, data.features, raw.linearOffset, raw.weights, raw.freqs, none⟩

/-- The shift of feature `j`. -/
noncomputable def shiftOf (s : Standardizer (Fl fmt) p) (j : Fin p) : ℝ := real (s.shifts j)

/-- The scale of feature `j`. -/
noncomputable def scaleOf (s : Standardizer (Fl fmt) p) (j : Fin p) : ℝ := real (s.scales j)

/-- The user's data, with features that are read back from the stored ones without rounding. -/
noncomputable def readBack {b : Bool} (raw : Dataset (Fl fmt) n p false) (data : Dataset (Fl fmt) n p b)
    (s : Standardizer (Fl fmt) p) : Dataset ℝ n p false where
  y := fun i => real (raw.y i)
  x := fun i j => real (data.features i j) * scaleOf s j + shiftOf s j
  linearOffset := raw.linearOffset.map fun v i => real (v i)
  weights := raw.weights.map fun v i => real (v i)
  freqs := raw.freqs.map fun v i => real (v i)
  standardizer := none

/-- How far a feature that is read back may be from the feature `x` of the user. -/
noncomputable def featureError (u tiny x μ σ : ℝ) : ℝ :=
  (2 * u + u ^ 2) * |x - μ| + (1 + u + σ) * tiny

/-- The shift and the scale of a feature are finite, the scale is positive, and standardizing the feature
does not overflow. -/
def StdFits (u tiny big : ℝ) (raw : Dataset (Fl fmt) n p false) (s : Standardizer (Fl fmt) p) : Prop :=
  ∀ j, (s.shifts j).isFinite ∧ (s.scales j).isFinite ∧ 0 < scaleOf s j ∧
    ∀ i, (raw.x i j).isFinite ∧ |real (raw.x i j) - shiftOf s j| < big ∧
      ((1 + u) * |real (raw.x i j) - shiftOf s j| + tiny) / scaleOf s j < big

/-- The coefficients for the user's features that belong to the coefficients `γ` for standardized
ones. -/
noncomputable def exactBack : (b : Bool) → Standardizer (Fl fmt) p → Vec (Fl fmt) (ncols b p) →
    Vec ℝ (ncols b p)
  | true, s, γ => (Fin.cons (real (γ (0 : Fin (p + 1)))
      - ∑ j : Fin p, shiftOf s j * (real (γ (Fin.succ j : Fin (p + 1))) / scaleOf s j))
      fun j => real (γ (Fin.succ j : Fin (p + 1))) / scaleOf s j : Fin (p + 1) → ℝ)
  | false, s, γ => fun j => real (γ j) / scaleOf s j

/-- The error of a computed slope that is exactly `v`. -/
noncomputable def slopeBackError (u tiny v : ℝ) : ℝ := u * |v| + tiny

/-- The error of the computed shift of the intercept, where `v j` is the slope of feature `j`. -/
noncomputable def shiftError (fmt : FloatFormat) (u tiny : ℝ) (μ v : Fin p → ℝ) : ℝ :=
  totalError fmt u tiny p (∑ j, |μ j * v j|)
    (∑ j, afterRounding u tiny (|μ j| * slopeBackError u tiny (v j)) (μ j * v j))

/-- The error of the reported coefficients, as the coefficients that belong to `γ`. -/
noncomputable def backError (u tiny : ℝ) : (b : Bool) → Standardizer (Fl fmt) p →
    Vec (Fl fmt) (ncols b p) → Vec ℝ (ncols b p)
  | true, s, γ => (Fin.cons
      (afterRounding u tiny
        (shiftError fmt u tiny (shiftOf s) fun j => real (γ (Fin.succ j : Fin (p + 1))) / scaleOf s j)
        (exactBack true s γ (0 : Fin (p + 1))))
      (fun j => slopeBackError u tiny (real (γ (Fin.succ j : Fin (p + 1))) / scaleOf s j))
      : Fin (p + 1) → ℝ)
  | false, s, γ => fun j => slopeBackError u tiny (real (γ j) / scaleOf s j)

/-- Nothing overflows when the coefficients `γ` are transformed. -/
def BackFits (u tiny big : ℝ) : (b : Bool) → Standardizer (Fl fmt) p → Vec (Fl fmt) (ncols b p) → Prop
  | true, s, γ => (∀ j, (γ j).isFinite) ∧
      (∀ j : Fin p, |real (γ (Fin.succ j : Fin (p + 1))) / scaleOf s j| < big) ∧
      |real (γ (0 : Fin (p + 1)))|
        + ∑ j : Fin p, |shiftOf s j * (real (γ (Fin.succ j : Fin (p + 1))) / scaleOf s j)|
        + shiftError fmt u tiny (shiftOf s)
            (fun j => real (γ (Fin.succ j : Fin (p + 1))) / scaleOf s j) < big
  | false, s, γ => (∀ j, (γ j).isFinite) ∧ ∀ j, |real (γ j) / scaleOf s j| < big

/-- The error of the slope of feature `j`, after `β` is transformed to standardized features. -/
noncomputable def slopeForthError (u tiny σ β : ℝ) : ℝ := u * |β| + tiny / σ

/-- The error of the computed shift of the intercept in the other direction. -/
noncomputable def forthShiftError (fmt : FloatFormat) (u tiny : ℝ) (μ β : Fin p → ℝ) : ℝ :=
  totalError fmt u tiny p (∑ j, |μ j * β j|) (∑ j, afterRounding u tiny 0 (μ j * β j))

/-- How far the user's coefficients `β` are from what they are after the transformation to standardized
features, on the user's scale. -/
noncomputable def forthError (u tiny : ℝ) : (b : Bool) → Standardizer (Fl fmt) p →
    Vec (Fl fmt) (ncols b p) → Vec ℝ (ncols b p)
  | true, s, β => (Fin.cons
      (afterRounding u tiny
        (forthShiftError fmt u tiny (shiftOf s) fun j => real (β (Fin.succ j : Fin (p + 1))))
        (real (β (0 : Fin (p + 1))) + ∑ j : Fin p, shiftOf s j * real (β (Fin.succ j : Fin (p + 1))))
      + ∑ j : Fin p, |shiftOf s j|
          * slopeForthError u tiny (scaleOf s j) (real (β (Fin.succ j : Fin (p + 1)))))
      (fun j => slopeForthError u tiny (scaleOf s j) (real (β (Fin.succ j : Fin (p + 1)))))
      : Fin (p + 1) → ℝ)
  | false, s, β => fun j => slopeForthError u tiny (scaleOf s j) (real (β j))

/-- Nothing overflows when the coefficients `β` are transformed to standardized features. -/
def ForthFits (u tiny big : ℝ) : (b : Bool) → Standardizer (Fl fmt) p → Vec (Fl fmt) (ncols b p) → Prop
  | true, s, β => (∀ j, (β j).isFinite) ∧
      (∀ j : Fin p, |real (β (Fin.succ j : Fin (p + 1))) * scaleOf s j| < big) ∧
      |real (β (0 : Fin (p + 1)))|
        + ∑ j : Fin p, |shiftOf s j * real (β (Fin.succ j : Fin (p + 1)))|
        + forthShiftError fmt u tiny (shiftOf s) (fun j => real (β (Fin.succ j : Fin (p + 1)))) < big
  | false, s, β => (∀ j, (β j).isFinite) ∧ ∀ j, |real (β j) * scaleOf s j| < big

/-- How far the linear predictor of row `i` at the reported coefficients is from the one at the exactly
transformed coefficients and features. -/
noncomputable def predShift (u tiny : ℝ) (b : Bool) (raw : Dataset (Fl fmt) n p false)
    (s : Standardizer (Fl fmt) p) (γ : Vec (Fl fmt) (ncols b p)) (i : Fin n) : ℝ :=
  ∑ j, |design b (exactData raw).x i j| * backError u tiny b s γ j
    + ∑ j, |slopes b (exactBack b s γ) j|
        * featureError u tiny (real (raw.x i j)) (shiftOf s j) (scaleOf s j)

/-- The gradient with respect to the user's coefficients, from the gradient `v` with respect to the
standardized ones. -/
noncomputable def backScore : (b : Bool) → Standardizer (Fl fmt) p → Vec ℝ (ncols b p) →
    Vec ℝ (ncols b p)
  | true, s, v => (Fin.cons (v (0 : Fin (p + 1)))
      (fun j => v (Fin.succ j : Fin (p + 1)) * scaleOf s j + shiftOf s j * v (0 : Fin (p + 1)))
      : Fin (p + 1) → ℝ)
  | false, s, v => fun j => v j * scaleOf s j

/-- The error of the gradient with respect to the user's coefficients, if the gradient `v` with respect to
the standardized ones has the errors `e`. -/
noncomputable def backScoreError (u tiny : ℝ) : (b : Bool) → Standardizer (Fl fmt) p →
    Vec ℝ (ncols b p) → Vec ℝ (ncols b p) → Vec ℝ (ncols b p)
  | true, s, v, e => (Fin.cons (e (0 : Fin (p + 1)))
      (fun j => afterRounding u tiny
        (afterRounding u tiny (scaleOf s j * e (Fin.succ j : Fin (p + 1)))
            (v (Fin.succ j : Fin (p + 1)) * scaleOf s j)
          + afterRounding u tiny (|shiftOf s j| * e (0 : Fin (p + 1)))
            (shiftOf s j * v (0 : Fin (p + 1))))
        (v (Fin.succ j : Fin (p + 1)) * scaleOf s j + shiftOf s j * v (0 : Fin (p + 1))))
      : Fin (p + 1) → ℝ)
  | false, s, v, e => fun j => afterRounding u tiny (scaleOf s j * e j) (v j * scaleOf s j)

/-- Nothing overflows when the gradient is transformed. -/
def BackScoreFits (u tiny big : ℝ) : (b : Bool) → Standardizer (Fl fmt) p → Vec ℝ (ncols b p) →
    Vec ℝ (ncols b p) → Prop
  | true, s, v, e => ∀ j : Fin p,
      |v (Fin.succ j : Fin (p + 1)) * scaleOf s j| + |shiftOf s j * v (0 : Fin (p + 1))|
        + (afterRounding u tiny (scaleOf s j * e (Fin.succ j : Fin (p + 1)))
              (v (Fin.succ j : Fin (p + 1)) * scaleOf s j)
            + afterRounding u tiny (|shiftOf s j| * e (0 : Fin (p + 1)))
              (shiftOf s j * v (0 : Fin (p + 1)))) < big
  | false, s, v, e => ∀ j, |v j * scaleOf s j| + scaleOf s j * e j < big

/-- The error of the score of a fit with standardized features, at the internal coefficients `γ`. -/
noncomputable def stdScoreError {b : Bool} (u tiny big : ℝ) (fam : Family)
    (raw : Dataset (Fl fmt) n p false) (data : Dataset (Fl fmt) n p b) (s : Standardizer (Fl fmt) p)
    (l1 l2 : ℝ) (γ : Vec (Fl fmt) (ncols b p)) : Vec ℝ (ncols b p) :=
  backScoreError u tiny b s (exactScore fam (storedRaw raw data) b l1 l2 γ)
    (scoreError u tiny big fam (storedRaw raw data) b l1 l2 γ)

/-- Nothing overflows in the score of a fit with standardized features. -/
def StdScoreFits {b : Bool} (u tiny big : ℝ) (fam : Family) (raw : Dataset (Fl fmt) n p false)
    (data : Dataset (Fl fmt) n p b) (s : Standardizer (Fl fmt) p) (l1 l2 : Fl fmt)
    (γ : Vec (Fl fmt) (ncols b p)) : Prop :=
  (∀ j, (s.shifts j).isFinite ∧ (s.scales j).isFinite ∧ 0 < scaleOf s j) ∧
  (∀ j, ScoreFits u tiny big fam (storedRaw raw data) b l1 l2 γ j) ∧
  BackScoreFits u tiny big b s (exactScore fam (storedRaw raw data) b (real l1) (real l2) γ)
    (scoreError u tiny big fam (storedRaw raw data) b (real l1) (real l2) γ)

end GLM.Spec
