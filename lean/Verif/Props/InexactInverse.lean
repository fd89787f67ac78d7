/-
  C106: covariances, standard errors, leverages, influences and score tests are as accurate as the matrix
  inversion they use.
-/
import Verif.Spec.InexactInverse
import Verif.Props.InexactStop
import Verif.Props.Influence
import Mathlib.Analysis.Matrix.Order

namespace GLM
open Spec Matrix

/-! ### Matrices -/

section
variable {k : ℕ} {m E D : Matrix (Fin k) (Fin k) ℝ} {κ : ℝ}

theorem posDef_symm (hm : m.PosDef) : m.IsSymm := by
  have := hm.isHermitian
  rwa [IsHermitian, conjTranspose_eq_transpose_of_trivial] at this

theorem posDef_nonneg (hm : m.PosDef) (x : Fin k → ℝ) : 0 ≤ x ⬝ᵥ (m *ᵥ x) :=
  PosSemidef_real_nonneg hm.posSemidef x

theorem invSize_nonneg (hm : m.PosDef) (v : Fin k → ℝ) : 0 ≤ invSize m v := posDef_nonneg hm.inv v

theorem inv_size (hm : m.PosDef) (v : Fin k → ℝ) : (m⁻¹ *ᵥ v) ⬝ᵥ (m *ᵥ (m⁻¹ *ᵥ v)) = invSize m v := by
  rw [mulVec_mulVec, mul_nonsing_inv _ (posDef_det hm), one_mulVec, dotProduct_comm]
  rfl

theorem size_mulVec (hm : m.PosDef) (x : Fin k → ℝ) : invSize m (m *ᵥ x) = x ⬝ᵥ (m *ᵥ x) := by
  unfold invSize
  rw [mulVec_mulVec, nonsing_inv_mul _ (posDef_det hm), one_mulVec, dotProduct_comm]

theorem close_right (hm : m.PosDef)
    (h : ∀ v w, (v ⬝ᵥ (E *ᵥ w)) ^ 2 ≤ κ ^ 2 * (invSize m v * invSize m w)) (w : Fin k → ℝ) :
    (E *ᵥ w) ⬝ᵥ (m *ᵥ (E *ᵥ w)) ≤ κ ^ 2 * invSize m w := by
  have h1 := h (m *ᵥ (E *ᵥ w)) w
  rw [size_mulVec hm, dotProduct_comm] at h1
  have hN := posDef_nonneg hm (E *ᵥ w)
  have hW := invSize_nonneg hm w
  generalize (E *ᵥ w) ⬝ᵥ (m *ᵥ (E *ᵥ w)) = N at *
  rcases hN.eq_or_lt with h0 | h0
  · rw [← h0]; positivity
  · have : N * N ≤ κ ^ 2 * invSize m w * N := by nlinarith
    exact le_of_mul_le_mul_right this h0

theorem close_left (hm : m.PosDef)
    (h : ∀ v w, (v ⬝ᵥ (E *ᵥ w)) ^ 2 ≤ κ ^ 2 * (invSize m v * invSize m w)) (w : Fin k → ℝ) :
    (Eᵀ *ᵥ w) ⬝ᵥ (m *ᵥ (Eᵀ *ᵥ w)) ≤ κ ^ 2 * invSize m w := by
  refine close_right hm (fun v w => ?_) w
  have : v ⬝ᵥ (Eᵀ *ᵥ w) = w ⬝ᵥ (E *ᵥ v) := by
    rw [mulVec_transpose, dotProduct_comm, dotProduct_mulVec]
  rw [this, mul_comm (invSize m v)]
  exact h w v

/-- The sandwich with a perturbed inverse. -/
theorem sandwich_close (hm : m.PosDef) (hD : D.IsSymm) (hD0 : ∀ x, 0 ≤ x ⬝ᵥ (D *ᵥ x))
    (hDm : ∀ x, x ⬝ᵥ (D *ᵥ x) ≤ x ⬝ᵥ (m *ᵥ x)) (hκ : 0 ≤ κ) {a : Matrix (Fin k) (Fin k) ℝ}
    (h : ∀ v w, (v ⬝ᵥ ((a - m⁻¹) *ᵥ w)) ^ 2 ≤ κ ^ 2 * (invSize m v * invSize m w)) (v : Fin k → ℝ) :
    |v ⬝ᵥ ((a * D * a) *ᵥ v) - v ⬝ᵥ ((m⁻¹ * D * m⁻¹) *ᵥ v)| ≤ (2 * κ + κ ^ 2) * invSize m v := by
  have hr := close_right hm h v
  have hl := close_left hm h v
  set E := a - m⁻¹ with hE
  have ha : a = m⁻¹ + E := by rw [hE]; abel
  have hms : (m⁻¹)ᵀ = m⁻¹ := by rw [transpose_nonsing_inv, posDef_symm hm]
  have hW := invSize_nonneg hm v
  set x := m⁻¹ *ᵥ v with hx
  set e := E *ᵥ v with he
  set e' := Eᵀ *ᵥ v with he'
  have hxm : x ⬝ᵥ (m *ᵥ x) = invSize m v := inv_size hm v
  have q : ∀ y, v ⬝ᵥ (m⁻¹ *ᵥ y) = x ⬝ᵥ y := fun y => by
    rw [hx, dotProduct_mulVec, ← mulVec_transpose, hms]
  have q' : ∀ y, v ⬝ᵥ (E *ᵥ y) = e' ⬝ᵥ y := fun y => by
    rw [he', dotProduct_mulVec, ← mulVec_transpose]
  have h1 : v ⬝ᵥ ((m⁻¹ * D * m⁻¹) *ᵥ v) = x ⬝ᵥ (D *ᵥ x) := by
    rw [← mulVec_mulVec, ← mulVec_mulVec, q]
  have h2 : v ⬝ᵥ ((a * D * a) *ᵥ v)
      = x ⬝ᵥ (D *ᵥ x) + x ⬝ᵥ (D *ᵥ e) + e' ⬝ᵥ (D *ᵥ x) + e' ⬝ᵥ (D *ᵥ e) := by
    rw [← mulVec_mulVec, ← mulVec_mulVec, ha, add_mulVec, add_mulVec, dotProduct_add, q, q', mulVec_add,
      dotProduct_add, dotProduct_add]
    ring
  have cs : ∀ {y z : Fin k → ℝ} {s t : ℝ}, 0 ≤ s → 0 ≤ t → y ⬝ᵥ (m *ᵥ y) ≤ s ^ 2 * invSize m v →
      z ⬝ᵥ (m *ᵥ z) ≤ t ^ 2 * invSize m v → |y ⬝ᵥ (D *ᵥ z)| ≤ s * t * invSize m v := by
    intro y z s t hs ht hy hz
    refine (quad_cauchy hD hD0 y z).trans ?_
    have hyy : √(y ⬝ᵥ (D *ᵥ y)) ≤ s * √(invSize m v) := by
      rw [← Real.sqrt_sq hs, ← Real.sqrt_mul (sq_nonneg s)]
      exact Real.sqrt_le_sqrt ((hDm y).trans hy)
    have hzz : √(z ⬝ᵥ (D *ᵥ z)) ≤ t * √(invSize m v) := by
      rw [← Real.sqrt_sq ht, ← Real.sqrt_mul (sq_nonneg t)]
      exact Real.sqrt_le_sqrt ((hDm z).trans hz)
    calc _ ≤ s * √(invSize m v) * (t * √(invSize m v)) :=
          mul_le_mul hyy hzz (Real.sqrt_nonneg _) (by positivity)
      _ = s * t * (√(invSize m v) * √(invSize m v)) := by ring
      _ = _ := by rw [Real.mul_self_sqrt hW]
  have hx1 : x ⬝ᵥ (m *ᵥ x) ≤ (1 : ℝ) ^ 2 * invSize m v := by rw [hxm, one_pow, one_mul]
  have c1 := cs zero_le_one hκ hx1 hr
  have c2 := cs hκ zero_le_one hl hx1
  have c3 := cs hκ hκ hl hr
  rw [h1, h2]
  have : x ⬝ᵥ (D *ᵥ x) + x ⬝ᵥ (D *ᵥ e) + e' ⬝ᵥ (D *ᵥ x) + e' ⬝ᵥ (D *ᵥ e) - x ⬝ᵥ (D *ᵥ x)
      = x ⬝ᵥ (D *ᵥ e) + e' ⬝ᵥ (D *ᵥ x) + e' ⬝ᵥ (D *ᵥ e) := by ring
  rw [this]
  refine (abs_add_three _ _ _).trans ?_
  linarith

/-- Triangle inequality. -/
theorem sizeIn_add (hm : m.PosDef) (x y : Fin k → ℝ) : sizeIn m (x + y) ≤ sizeIn m x + sizeIn m y := by
  have hc := quad_cauchy (posDef_symm hm) (posDef_nonneg hm) x y
  have hx := posDef_nonneg hm x
  have hy := posDef_nonneg hm y
  have e : (x + y) ⬝ᵥ (m *ᵥ (x + y)) = x ⬝ᵥ (m *ᵥ x) + 2 * (x ⬝ᵥ (m *ᵥ y)) + y ⬝ᵥ (m *ᵥ y) := by
    have : y ⬝ᵥ (m *ᵥ x) = x ⬝ᵥ (m *ᵥ y) := by
      rw [dotProduct_mulVec, ← mulVec_transpose, posDef_symm hm, dotProduct_comm]
    rw [mulVec_add, dotProduct_add, add_dotProduct, add_dotProduct, this]
    ring
  unfold sizeIn
  rw [e]
  refine Real.sqrt_le_iff.mpr ⟨by positivity, ?_⟩
  rw [add_sq, Real.sq_sqrt hx, Real.sq_sqrt hy]
  have := (le_abs_self _).trans hc
  linarith

theorem sizeIn_smul (c : ℝ) (x : Fin k → ℝ) : sizeIn m (c • x) = |c| * sizeIn m x := by
  unfold sizeIn
  rw [mulVec_smul, smul_dotProduct, dotProduct_smul, smul_eq_mul, smul_eq_mul, ← mul_assoc,
    Real.sqrt_mul (mul_self_nonneg c), Real.sqrt_mul_self_eq_abs]

/-- The arithmetic of the influence bound. -/
theorem influence_arith {s l t N N' : ℝ} (hκ : 0 ≤ κ) (hN : 0 ≤ N) (hN' : N' ≤ κ * N) (ht : 0 ≤ t)
    (h1 : -(κ * t) ≤ l - t) (h2 : l - t ≤ κ * t) (h : (1 + κ) * t < 1) :
    |s / (1 - l)| * N' + |s / (1 - l) - s / (1 - t)| * N ≤ κ / (1 - (1 + κ) * t) * (|s / (1 - t)| * N) := by
  have hκt : 0 ≤ κ * t := mul_nonneg hκ ht
  have hq : 0 < 1 - (1 + κ) * t := by linarith
  have hl : 1 - (1 + κ) * t ≤ 1 - l := by linarith
  have hl0 : 0 < 1 - l := hq.trans_le hl
  have ht0 : 0 < 1 - t := by linarith
  have e1 : |s / (1 - l)| = |s| / (1 - l) := by rw [abs_div, abs_of_pos hl0]
  have e2 : |s / (1 - t)| = |s| / (1 - t) := by rw [abs_div, abs_of_pos ht0]
  have e3 : |s / (1 - l) - s / (1 - t)| ≤ |s| * (κ * t) / ((1 - l) * (1 - t)) := by
    have : s / (1 - l) - s / (1 - t) = s * (l - t) / ((1 - l) * (1 - t)) := by
      field_simp; ring
    rw [this, abs_div, abs_mul, abs_of_pos (mul_pos hl0 ht0)]
    gcongr
    exact abs_le.mpr ⟨h1, h2⟩
  rw [e1, e2]
  calc _ ≤ |s| / (1 - l) * (κ * N) + |s| * (κ * t) / ((1 - l) * (1 - t)) * N := by gcongr
    _ = κ / (1 - l) * (|s| / (1 - t) * N) := by field_simp; ring
    _ ≤ _ := by gcongr

end

variable {n p : ℕ} {b : Bool} {env env' : Env ℝ} {g : Glm ℝ} {raw : Dataset ℝ n p false} {std : Bool}
  {d : Dataset ℝ n p b} {options : FitOptions ℝ (ncols b p)} {f : Fit ℝ n p b} {κ : ℝ}

/-! ### Statistics -/

section
variable (hg : LawfulAdj g) (hd : raw.finalize std b = some d)
  (h : regression env g d options = .ok f) (hi : InvertsWithin env' κ)
  (hpd : (Matrix.of (f.fisher f.result)).PosDef)
include hg hd h hi hpd

/-- **C106** (covariance).  The reported variance of every linear combination `v` of the coefficients. -/
theorem C106_covariance (hw : ∀ i, 0 ≤ totalWt raw i)
    (hv : ∀ i, 0 ≤ g.variance (meanAt g raw b f.result i)) (hφ : 0 ≤ f.dispersion) :
    ∃ cov, f.covariance env' = .ok cov ∧ ∀ v,
      |v ⬝ᵥ (Matrix.of cov *ᵥ v) - f.dispersion * (v ⬝ᵥ (((Matrix.of (f.fisher f.result))⁻¹
          * fisherMat g raw b f.result * (Matrix.of (f.fisher f.result))⁻¹) *ᵥ v))|
        ≤ (2 * κ + κ ^ 2) * (f.dispersion * invSize (Matrix.of (f.fisher f.result)) v) := by
  obtain ⟨a, ha⟩ := hi.answers hpd
  obtain ⟨P, hP, hF, -⟩ := fisher_decomp hg hd h
  have hD := fisherMat_posSemidef (g := g) (raw := raw) (b := b) (β := f.result) hw hv
  have hclose := hi.close hpd ha
  obtain ⟨rfl, rfl, rfl, hf⟩ := regression_ofRaw hd h
  refine ⟨_, by unfold Fit.covariance Fit.fisherInv; rw [ha]; rfl, fun v => ?_⟩
  have hdat : Matrix.of (f.data.inverseTransformFisher (f.fisherDataStd f.resultStd))
      = fisherMat f.g raw b f.result := by
    rw [← Dataset.finalize_fisher hg hd, ← hf.resultStd]
    exact f.data.inverseTransformFisher_eq _
  have hc : Matrix.of (fun i j => ((Mat.dotM (Mat.dotM a (f.data.inverseTransformFisher
      (f.fisherDataStd f.resultStd))) a) i j * f.dispersion))
      = f.dispersion • (Matrix.of a * fisherMat f.g raw b f.result * Matrix.of a) := by
    rw [← hdat, ← of_dotM, ← of_dotM]
    ext i j
    exact mul_comm _ _
  have hDm : ∀ x, x ⬝ᵥ (fisherMat f.g raw b f.result *ᵥ x) ≤ x ⬝ᵥ (Matrix.of (f.fisher f.result) *ᵥ x) := by
    intro x
    rw [hF, add_mulVec, dotProduct_add]
    have := PosSemidef_real_nonneg hP x
    linarith
  have key := sandwich_close hpd (fisherMat_symm _) (PosSemidef_real_nonneg hD) hDm hi.nonneg hclose v
  change |v ⬝ᵥ (Matrix.of (fun i j => ((Mat.dotM (Mat.dotM a (f.data.inverseTransformFisher
      (f.fisherDataStd f.resultStd))) a) i j * f.dispersion)) *ᵥ v) - _| ≤ _
  rw [hc, smul_mulVec, dotProduct_smul, smul_eq_mul, ← mul_sub, abs_mul, abs_of_nonneg hφ]
  calc _ ≤ f.dispersion * ((2 * κ + κ ^ 2) * invSize (Matrix.of (f.fisher f.result)) v) :=
        mul_le_mul_of_nonneg_left key hφ
    _ = _ := by ring

omit hi hpd in
/-- The exact leverages, for comparison. -/
theorem exactLeverage_bounds (hw : ∀ i, 0 ≤ totalWt raw i)
    (hv : ∀ i, 0 ≤ g.variance (meanAt g raw b f.result i))
    (hpd : (Matrix.of (f.fisher f.result)).PosDef) :
    (∀ i, 0 ≤ exactLeverage g raw b (Matrix.of (f.fisher f.result)) f.result i ∧
      exactLeverage g raw b (Matrix.of (f.fisher f.result)) f.result i ≤ 1) ∧
    (options.l1 ≤ 0 → options.l2 ≤ 0 →
      ∑ i, exactLeverage g raw b (Matrix.of (f.fisher f.result)) f.result i = (ncols b p : ℕ)) := by
  have he := exactEnv_exact (le_refl (0 : ℝ)) 0
  obtain ⟨H, hH, hlev⟩ := C40_available hd h he (posDef_det hpd)
  obtain ⟨-, hl⟩ := leverage_eq hg hd h he hlev
  have hb := C40_leverage hg hd h he hw hv hlev
  refine ⟨fun i => ?_, fun hl1 hl2 => ?_⟩
  · have := hb i
    rw [hl i] at this
    exact this
  · have := C40_trace hg hd h he hl1 hl2 hlev
    rw [← this]
    exact Finset.sum_congr rfl fun i _ => (hl i).symm

/-- **C106** (leverage).  Every leverage has relative error at most `κ`. -/
theorem C106_leverage (hw : ∀ i, 0 ≤ totalWt raw i)
    (hv : ∀ i, 0 ≤ g.variance (meanAt g raw b f.result i)) :
    ∃ lev, f.leverage env' = .ok lev ∧ ∀ i,
      |lev i - exactLeverage g raw b (Matrix.of (f.fisher f.result)) f.result i|
        ≤ κ * exactLeverage g raw b (Matrix.of (f.fisher f.result)) f.result i := by
  obtain ⟨rfl, rfl, rfl, hf⟩ := regression_ofRaw hd h
  have hwf := Dataset.finalize_wf hd
  have hT : IsUnit f.data.tmat.det := isUnit_iff_ne_zero.mpr hwf.det_tmat
  have hFe : Matrix.of (f.fisher f.result)
      = f.data.tmatᵀ * Matrix.of (f.fisherStd f.resultStd) * f.data.tmat := by
    rw [hf.resultStd, ← Dataset.inverseTransformFisher_eq]; rfl
  have hTt : IsUnit f.data.tmatᵀ.det := by rwa [det_transpose]
  have hS : Matrix.of (f.fisherStd f.resultStd)
      = (f.data.tmat⁻¹)ᵀ * Matrix.of (f.fisher f.result) * f.data.tmat⁻¹ := by
    rw [hFe, transpose_nonsing_inv, Matrix.mul_assoc, Matrix.mul_assoc, Matrix.mul_assoc,
      mul_nonsing_inv _ hT, Matrix.mul_one, ← Matrix.mul_assoc, nonsing_inv_mul _ hTt, Matrix.one_mul]
  have hSpd : (Matrix.of (f.fisherStd f.resultStd)).PosDef := by
    rw [hS]
    have := hpd.conjTranspose_mul_mul_same (B := f.data.tmat⁻¹)
      (mulVec_injective_of_isUnit ((isUnit_iff_isUnit_det _).mpr (isUnit_nonsing_inv_det _ hT)))
    rwa [conjTranspose_eq_transpose_of_trivial] at this
  obtain ⟨a, ha⟩ := hi.answers hSpd
  have hrow : ∀ i, design b raw.x i = f.data.tmatᵀ *ᵥ f.data.x i := by
    intro i
    have := Dataset.finalize_design hd
    funext j
    rw [this, Matrix.mul_apply, mulVec, dotProduct]
    exact Finset.sum_congr rfl fun k _ => mul_comm _ _
  have hsize : ∀ i, invSize (Matrix.of (f.fisherStd f.resultStd)) (f.data.x i)
      = invSize (Matrix.of (f.fisher f.result)) (design b raw.x i) := by
    intro i
    unfold invSize
    rw [hFe, hrow, Matrix.mul_inv_rev, Matrix.mul_inv_rev, mulVec_mulVec, Matrix.mul_assoc, Matrix.mul_assoc,
      nonsing_inv_mul _ hTt, Matrix.mul_one, mulVec_transpose, ← dotProduct_mulVec, mulVec_mulVec,
      ← Matrix.mul_assoc, mul_nonsing_inv _ hT, Matrix.one_mul]
  refine ⟨_, by unfold Fit.leverage Fit.hat Fit.fisherStdInv; rw [ha]; rfl, fun i => ?_⟩
  set c := totalWt raw i * f.g.link.dNatParam (linPred raw b f.result i) ^ 2
    * f.g.variance (meanAt f.g raw b f.result i) with hcdef
  have hc0 : 0 ≤ c := mul_nonneg (mul_nonneg (hw i) (sq_nonneg _)) (hv i)
  have hlev : Mat.diag (Mat.dotM (fun i j => f.g.variance (f.yHat i) * f.g.link.dNatParam (f.xLinPred i)
      * f.data.x i j) (a.dotM fun j i => f.data.xConj j i * f.g.link.dNatParam (f.xLinPred i))) i
      = c * (f.data.x i ⬝ᵥ (Matrix.of a *ᵥ f.data.x i)) := by
    simp only [Mat.diag, Mat.dotM, vdotBy_real, Dataset.xConj_real, Dataset.finalize_totalWt hd, hf.mean, hf.lin,
      hcdef, dotProduct, mulVec, Finset.mul_sum, of_apply]
    exact Finset.sum_congr rfl fun j _ => Finset.sum_congr rfl fun k _ => by ring
  have hcl := hi.close hSpd ha (f.data.x i) (f.data.x i)
  rw [sub_mulVec, dotProduct_sub] at hcl
  change (_ - invSize _ _) ^ 2 ≤ _ at hcl
  rw [hsize] at hcl
  have hW := invSize_nonneg hpd (design b raw.x i)
  have h1 : |f.data.x i ⬝ᵥ (Matrix.of a *ᵥ f.data.x i)
      - invSize (Matrix.of (f.fisher f.result)) (design b raw.x i)|
      ≤ κ * invSize (Matrix.of (f.fisher f.result)) (design b raw.x i) :=
    abs_le_of_sq_le_sq (hcl.trans (le_of_eq (by ring))) (mul_nonneg hi.nonneg hW)
  change |Mat.diag (Mat.dotM (fun i j => f.g.variance (f.yHat i) * f.g.link.dNatParam (f.xLinPred i)
      * f.data.x i j) (a.dotM fun j i => f.data.xConj j i * f.g.link.dNatParam (f.xLinPred i))) i
      - c * _| ≤ κ * (c * _)
  rw [hlev, ← mul_sub, abs_mul, abs_of_nonneg hc0]
  calc _ ≤ c * (κ * invSize (Matrix.of (f.fisher f.result)) (design b raw.x i)) :=
        mul_le_mul_of_nonneg_left h1 hc0
    _ = _ := by ring

/-- **C106** (sum of the leverages).  Without penalty it is the number of coefficients up to a factor
between `1 - κ` and `1 + κ`. -/
theorem C106_leverage_sum (hw : ∀ i, 0 ≤ totalWt raw i)
    (hv : ∀ i, 0 ≤ g.variance (meanAt g raw b f.result i)) (hl1 : options.l1 ≤ 0) (hl2 : options.l2 ≤ 0) :
    ∃ lev, f.leverage env' = .ok lev ∧ |∑ i, lev i - (ncols b p : ℕ)| ≤ κ * (ncols b p : ℕ) := by
  obtain ⟨lev, hlev, hc⟩ := C106_leverage hg hd h hi hpd hw hv
  have ht := (exactLeverage_bounds hg hd h hw hv hpd).2 hl1 hl2
  refine ⟨lev, hlev, ?_⟩
  rw [← ht, ← Finset.sum_sub_distrib, Finset.mul_sum]
  exact (Finset.abs_sum_le_sum_abs _ _).trans (Finset.sum_le_sum fun i _ => hc i)

/-- **C106** (variances).  Without penalty every reported variance of a coefficient has relative error at
most `2 κ + κ²`. -/
theorem C106_variance (hw : ∀ i, 0 ≤ totalWt raw i)
    (hv : ∀ i, 0 ≤ g.variance (meanAt g raw b f.result i)) (hφ : 0 ≤ f.dispersion)
    (hl1 : options.l1 ≤ 0) (hl2 : options.l2 ≤ 0) :
    ∃ cov, f.covariance env' = .ok cov ∧ ∀ j,
      |cov j j - f.dispersion * (Matrix.of (f.fisher f.result))⁻¹ j j|
        ≤ (2 * κ + κ ^ 2) * (f.dispersion * (Matrix.of (f.fisher f.result))⁻¹ j j) := by
  obtain ⟨cov, hcov, hc⟩ := C106_covariance hg hd h hi hpd hw hv hφ
  refine ⟨cov, hcov, fun j => ?_⟩
  have hF : Matrix.of (f.fisher f.result) = fisherMat g raw b f.result := by
    obtain ⟨-, -, h3, -⟩ := C10_external hg hd hl1 h
    rw [h3, ridgeMat, max_eq_right hl2]; simp [onSlopes_zero]
  have hk := hc (Pi.single j 1)
  rw [← hF, nonsing_inv_mul _ (posDef_det hpd), Matrix.one_mul] at hk
  have hs : ∀ m : Matrix (Fin (ncols b p)) (Fin (ncols b p)) ℝ,
      Pi.single j 1 ⬝ᵥ (m *ᵥ Pi.single j 1) = m j j := fun m => by simp
  rw [invSize, hs, hs] at hk
  exact hk

/-- **C106** (z statistics).  Without penalty, if the error is small enough that variances stay positive:
the reported z statistics have the sign of the coefficient and the right size up to the given factors. -/
theorem C106_z (hw : ∀ i, 0 ≤ totalWt raw i)
    (hv : ∀ i, 0 ≤ g.variance (meanAt g raw b f.result i)) (hφ : 0 < f.dispersion)
    (hl1 : options.l1 ≤ 0) (hl2 : options.l2 ≤ 0) (hκ : 2 * κ + κ ^ 2 < 1) :
    ∃ z, f.waldZ env' = .ok z ∧ ∀ j,
      0 ≤ z j * f.result j ∧
      (1 - 2 * κ - κ ^ 2) * z j ^ 2
        ≤ f.result j ^ 2 / (f.dispersion * (Matrix.of (f.fisher f.result))⁻¹ j j) ∧
      f.result j ^ 2 / (f.dispersion * (Matrix.of (f.fisher f.result))⁻¹ j j) ≤ (1 + κ) ^ 2 * z j ^ 2 := by
  obtain ⟨cov, hcov, hc⟩ := C106_variance hg hd h hi hpd hw hv hφ.le hl1 hl2
  refine ⟨fun j => f.result j / √(cov j j), by unfold Fit.waldZ; rw [hcov]; rfl, fun j => ?_⟩
  have hV : 0 < f.dispersion * (Matrix.of (f.fisher f.result))⁻¹ j j := mul_pos hφ (by
    exact hpd.inv.diag_pos)
  have hj := abs_le.mp (hc j)
  set V := f.dispersion * (Matrix.of (f.fisher f.result))⁻¹ j j
  have hlo : (1 - 2 * κ - κ ^ 2) * V ≤ cov j j := by linarith [hj.1]
  have hhi : cov j j ≤ (1 + κ) ^ 2 * V := by linarith [hj.2]
  have hq : 0 < 1 - 2 * κ - κ ^ 2 := by linarith
  have hpos : 0 < cov j j := lt_of_lt_of_le (mul_pos hq hV) hlo
  have hz : (f.result j / √(cov j j)) ^ 2 = f.result j ^ 2 / cov j j := by
    rw [div_pow, Real.sq_sqrt hpos.le]
  have hr := sq_nonneg (f.result j)
  refine ⟨?_, ?_, ?_⟩
  · rw [div_mul_eq_mul_div]
    exact div_nonneg (mul_self_nonneg _) (Real.sqrt_nonneg _)
  · rw [hz, mul_div_assoc', div_le_div_iff₀ hpos hV]
    nlinarith
  · rw [hz, mul_div_assoc', div_le_div_iff₀ hV hpos]
    nlinarith

/-- **C106** (influence).  Row `i` of `infl_coef()` if the leverage `h` is not so close to 1 that the
error of the inversion matters: relative error at most `κ / (1 - (1 + κ) h)` in the norm of the information
matrix. -/
theorem C106_influence (hw : ∀ i, 0 ≤ totalWt raw i)
    (hv : ∀ i, 0 ≤ g.variance (meanAt g raw b f.result i)) :
    ∃ Δ, f.inflCoef env' = .ok Δ ∧ ∀ i,
      (1 + κ) * exactLeverage g raw b (Matrix.of (f.fisher f.result)) f.result i < 1 →
      sizeIn (Matrix.of (f.fisher f.result))
          (Δ i - exactInfluence g raw b (Matrix.of (f.fisher f.result)) f.result i)
        ≤ κ / (1 - (1 + κ) * exactLeverage g raw b (Matrix.of (f.fisher f.result)) f.result i)
          * sizeIn (Matrix.of (f.fisher f.result))
            (exactInfluence g raw b (Matrix.of (f.fisher f.result)) f.result i) := by
  obtain ⟨lev, hlev, hlc⟩ := C106_leverage hg hd h hi hpd hw hv
  obtain ⟨a, ha⟩ := hi.answers hpd
  have hb := (exactLeverage_bounds hg hd h hw hv hpd).1
  refine ⟨_, by unfold Fit.inflCoef Fit.fisherInv; rw [hlev, ha]; rfl, fun i hlt => ?_⟩
  have hcl := close_left hpd (hi.close hpd ha) (design b raw.x i)
  have hlci := abs_le.mp (hlc i)
  have hbi := hb i
  have hκ := hi.nonneg
  obtain ⟨rfl, rfl, rfl, hf⟩ := regression_ofRaw hd h
  unfold exactInfluence
  set F := Matrix.of (f.fisher f.result) with hFdef
  set t := exactLeverage f.g raw b F f.result i with ht
  set s := totalWt raw i * f.g.link.dNatParam (linPred raw b f.result i)
    * (raw.y i - meanAt f.g raw b f.result i) with hs
  set x := design b raw.x i with hx
  have hrow : (Mat.dotM (Mat.tr fun j i => f.data.xConjExt j i
      * (f.g.link.adjustErrors (f.residResp i) (f.xLinPred i) / (-(lev i) + 1))) a) i
      = (s / (1 - lev i)) • ((Matrix.of a)ᵀ *ᵥ x) := by
    funext k
    rw [Pi.smul_apply, smul_eq_mul, mulVec, dotProduct, Finset.mul_sum]
    simp only [Mat.dotM, vdotBy_real]
    refine Finset.sum_congr rfl fun j _ => ?_
    have hxe : f.data.xExt i j = design b raw.x i j := by
      rw [← Dataset.finalize_xExt hd]; rfl
    simp only [Mat.tr, Dataset.xConjExt_real, Dataset.finalize_totalWt hd, hxe, hg.errors,
      hf.residResp, hf.lin, transpose_apply, of_apply, hs, hx]
    rw [show -lev i + 1 = 1 - lev i by ring]
    ring
  have hFs : (F⁻¹)ᵀ = F⁻¹ := by rw [transpose_nonsing_inv, posDef_symm hpd]
  change sizeIn F ((Mat.dotM (Mat.tr fun j i => f.data.xConjExt j i
      * (f.g.link.adjustErrors (f.residResp i) (f.xLinPred i) / (-(lev i) + 1))) a) i - _) ≤ _
  rw [hrow]
  have hsplit : (s / (1 - lev i)) • ((Matrix.of a)ᵀ *ᵥ x) - (s / (1 - t)) • (F⁻¹ *ᵥ x)
      = (s / (1 - lev i)) • ((Matrix.of a - F⁻¹)ᵀ *ᵥ x) + (s / (1 - lev i) - s / (1 - t)) • (F⁻¹ *ᵥ x) := by
    rw [transpose_sub, hFs, sub_mulVec, smul_sub, sub_smul]
    abel
  rw [hsplit]
  refine (sizeIn_add hpd _ _).trans ?_
  rw [sizeIn_smul, sizeIn_smul, sizeIn_smul]
  have hN : sizeIn F (F⁻¹ *ᵥ x) = √(invSize F x) := by rw [sizeIn, inv_size hpd]
  have hE : sizeIn F ((Matrix.of a - F⁻¹)ᵀ *ᵥ x) ≤ κ * sizeIn F (F⁻¹ *ᵥ x) := by
    rw [hN, sizeIn, ← Real.sqrt_sq hκ, ← Real.sqrt_mul (sq_nonneg κ)]
    exact Real.sqrt_le_sqrt hcl
  have hN0 : 0 ≤ sizeIn F (F⁻¹ *ᵥ x) := Real.sqrt_nonneg _
  exact influence_arith hκ hN0 hE hbi.1 hlci.1 hlci.2 hlt

/-- **C106** (Cook's distances).  They lie between the values for leverages that are too small and too
large by the factor `κ`. -/
theorem C106_cooks (hw : ∀ i, 0 ≤ totalWt raw i)
    (hv : ∀ i, 0 ≤ g.variance (meanAt g raw b f.result i)) (hφ : 0 ≤ f.dispersion) (hκ : κ ≤ 1) :
    ∃ c, f.cooks env' = .ok c ∧ ∀ i, ∀ t,
      t = exactLeverage g raw b (Matrix.of (f.fisher f.result)) f.result i → (1 + κ) * t < 1 →
      f.residPear i ^ 2 * ((1 - κ) * t / (1 - (1 - κ) * t) ^ 2) / ((ncols b p : ℕ) * f.dispersion) ≤ c i ∧
      c i ≤ f.residPear i ^ 2 * ((1 + κ) * t / (1 - (1 + κ) * t) ^ 2) / ((ncols b p : ℕ) * f.dispersion) := by
  obtain ⟨lev, hlev, hlc⟩ := C106_leverage hg hd h hi hpd hw hv
  have hb := (exactLeverage_bounds hg hd h hw hv hpd).1
  refine ⟨_, by unfold Fit.cooks; rw [hlev]; rfl, fun i t ht hlt => ?_⟩
  have hj := abs_le.mp (hlc i)
  have hbi := hb i
  rw [← ht] at hj hbi
  have hκ0 := hi.nonneg
  have h0 : 0 ≤ (1 - κ) * t := mul_nonneg (by linarith) hbi.1
  have h1 : (1 - κ) * t ≤ lev i := by linarith [hj.1]
  have h2 : lev i ≤ (1 + κ) * t := by linarith [hj.2]
  have hl1 : lev i < 1 := h2.trans_lt hlt
  have hden : 0 ≤ ((ncols b p : ℕ) : ℝ) * f.dispersion := by positivity
  simp only [Fit.rank, ofNat_real]
  rw [← sq, ← sq]
  have m : ∀ {u v : ℝ}, 0 ≤ u → u ≤ v → v < 1 → u / (1 - u) ^ 2 ≤ v / (1 - v) ^ 2 := by
    intro u v hu huv hv1
    have : 0 < 1 - v := by linarith
    gcongr
    linarith
  constructor
  · have := m h0 h1 hl1
    gcongr
  · have := m (h0.trans h1) h2 hlt
    gcongr

/-- **C106** (standardized Pearson residuals).  They keep their sign, and lie between the values for
leverages that are too small and too large by the factor `κ`. -/
theorem C106_resid_pear_std (hw : ∀ i, 0 ≤ totalWt raw i)
    (hv : ∀ i, 0 ≤ g.variance (meanAt g raw b f.result i)) (hφ : 0 < f.dispersion) :
    ∃ r, f.residPearStd env' = .ok r ∧ ∀ i, ∀ t,
      t = exactLeverage g raw b (Matrix.of (f.fisher f.result)) f.result i → (1 + κ) * t < 1 →
      0 ≤ r i * f.residPear i ∧
      |f.residPear i| / √((1 - (1 - κ) * t) * f.dispersion) ≤ |r i| ∧
      |r i| ≤ |f.residPear i| / √((1 - (1 + κ) * t) * f.dispersion) := by
  obtain ⟨lev, hlev, hlc⟩ := C106_leverage hg hd h hi hpd hw hv
  have hb := (exactLeverage_bounds hg hd h hw hv hpd).1
  refine ⟨_, by unfold Fit.residPearStd; rw [hlev]; rfl, fun i t ht hlt => ?_⟩
  have hj := abs_le.mp (hlc i)
  have hbi := hb i
  rw [← ht] at hj hbi
  have h1 : (1 - κ) * t ≤ lev i := by linarith [hj.1]
  have h2 : lev i ≤ (1 + κ) * t := by linarith [hj.2]
  have hl1 : 0 < 1 - lev i := by linarith
  have hs : 0 < √((1 - lev i) * f.dispersion) := Real.sqrt_pos.mpr (mul_pos hl1 hφ)
  have hs2 : 0 < √((1 - (1 + κ) * t) * f.dispersion) :=
    Real.sqrt_pos.mpr (mul_pos (by linarith) hφ)
  have e : -lev i + 1 = 1 - lev i := by ring
  simp only [sqrt_real, e]
  refine ⟨?_, ?_, ?_⟩
  · rw [div_mul_eq_mul_div]
    exact div_nonneg (mul_self_nonneg _) hs.le
  · rw [abs_div, abs_of_pos hs]
    gcongr
  · rw [abs_div, abs_of_pos hs]
    gcongr

omit hpd in
/-- **C106** (score test), without L1, for every alternative at which the information is positive definite:
relative error at most `κ`. -/
theorem C106_score_test (hl1 : options.l1 ≤ 0) {α : Vec ℝ (ncols b p)}
    (hα : (fisherMat g raw b α + ridgeMat options.l2 (scale d) b).PosDef) :
    ∃ s, f.scoreTestAgainst env' α = .ok s ∧
      |s - invSize (fisherMat g raw b α + ridgeMat options.l2 (scale d) b)
          (penScore g raw b options.l1 options.l2 (scale d) α)|
        ≤ κ * invSize (fisherMat g raw b α + ridgeMat options.l2 (scale d) b)
          (penScore g raw b options.l1 options.l2 (scale d) α) := by
  obtain ⟨-, hsc, hfi, -⟩ := C10_external hg hd hl1 h
  rw [← hfi α] at hα ⊢
  rw [← hsc α]
  obtain ⟨a, ha⟩ := hi.answers hα
  have hW := invSize_nonneg hα (f.score α)
  refine ⟨f.score α ⬝ᵥ (Matrix.of a *ᵥ f.score α), ?_, ?_⟩
  · unfold Fit.scoreTestAgainst
    simp only [ha]
    simp only [bind, Except.bind, pure, Except.pure, vdot_real, dotV_real]
  · have hc := hi.close hα ha (f.score α) (f.score α)
    rw [sub_mulVec, dotProduct_sub] at hc
    change (_ - invSize _ _) ^ 2 ≤ _ at hc
    exact abs_le_of_sq_le_sq (hc.trans (le_of_eq (by ring))) (mul_nonneg hi.nonneg hW)

end

/-! ### Example -/

/-- Inversion whose answers are too large by the factor `1 + κ`. -/
noncomputable def inflatedEnv (κ : ℝ) : Env ℝ :=
  { exactEnv 0 0 with inv := fun m => ((exactEnv 0 0).inv m).map fun a i j => (1 + κ) * a i j }

theorem inflatedEnv_inv {κ : ℝ} {k : ℕ} {m : Mat ℝ k k} (hm : IsUnit (Matrix.of m).det) :
    (inflatedEnv κ).inv m = .ok fun i j => (1 + κ) * (Matrix.of m)⁻¹ i j := by
  have he := exactEnv_exact (le_refl (0 : ℝ)) 0
  obtain ⟨a, ha⟩ := he.inv_complete hm
  obtain ⟨-, ha'⟩ := he.inv_ok ha
  change ((exactEnv 0 0).inv m).map _ = _
  rw [ha, ← ha']
  rfl

theorem inflatedEnv_within {κ : ℝ} (hκ : 0 ≤ κ) : InvertsWithin (inflatedEnv κ) κ where
  nonneg := hκ
  answers {k m} hm := ⟨_, inflatedEnv_inv (posDef_det hm)⟩
  close {k m a} hm ha v w := by
    rw [inflatedEnv_inv (posDef_det hm)] at ha
    cases ha
    have e : (Matrix.of fun i j => (1 + κ) * (Matrix.of m)⁻¹ i j) - (Matrix.of m)⁻¹
        = κ • (Matrix.of m)⁻¹ := by
      ext i j
      simp only [Matrix.sub_apply, of_apply, Matrix.smul_apply, smul_eq_mul]
      ring
    rw [e, smul_mulVec, dotProduct_smul, smul_eq_mul, mul_pow]
    have hs : ((Matrix.of m)⁻¹).IsSymm := posDef_symm hm.inv
    have hq := quad_cauchy hs (posDef_nonneg hm.inv) v w
    have h2 := mul_self_le_mul_self (abs_nonneg _) hq
    change _ ≤ √(invSize _ v) * √(invSize _ w) * (√(invSize _ v) * √(invSize _ w)) at h2
    rw [abs_mul_abs_self, mul_mul_mul_comm, Real.mul_self_sqrt (invSize_nonneg hm v),
      Real.mul_self_sqrt (invSize_nonneg hm w), ← sq] at h2
    exact mul_le_mul_of_nonneg_left h2 (sq_nonneg κ)

section
variable {f : Fit ℝ n p b} {κ : ℝ}

theorem inflatedEnv_map {k : ℕ} (m : Mat ℝ k k) :
    (inflatedEnv κ).inv m = ((exactEnv 0 0).inv m).map fun a i j => (1 + κ) * a i j := rfl

theorem inflatedEnv_leverage {lev : Vec ℝ n} (h : f.leverage (exactEnv 0 0) = .ok lev) :
    f.leverage (inflatedEnv κ) = .ok fun i => (1 + κ) * lev i := by
  unfold Fit.leverage Fit.hat Fit.fisherStdInv at h ⊢
  simp only [inflatedEnv_map]
  cases hF : (exactEnv 0 0).inv (f.fisherStd f.resultStd) with
  | error e => rw [hF] at h; simp [bind, Except.bind] at h
  | ok a =>
    rw [hF] at h
    simp only [bind, Except.bind, pure, Except.pure, Except.ok.injEq, Except.map] at h ⊢
    rw [← h]
    funext i
    simp only [Mat.diag, Mat.dotM, vdotBy_real, Finset.mul_sum]
    exact Finset.sum_congr rfl fun j _ => Finset.sum_congr rfl fun k _ => by ring

theorem inflatedEnv_covariance {cov : Mat ℝ (ncols b p) (ncols b p)}
    (h : f.covariance (exactEnv 0 0) = .ok cov) :
    f.covariance (inflatedEnv κ) = .ok fun i j => (1 + κ) ^ 2 * cov i j := by
  unfold Fit.covariance Fit.fisherInv at h ⊢
  simp only [inflatedEnv_map]
  cases hF : (exactEnv 0 0).inv (f.fisher f.result) with
  | error e => rw [hF] at h; simp [bind, Except.bind] at h
  | ok a =>
    rw [hF] at h
    simp only [bind, Except.bind, pure, Except.pure, Except.ok.injEq, Except.map] at h ⊢
    rw [← h]
    funext i j
    simp only [Mat.dotM, vdotBy_real, Finset.mul_sum, Finset.sum_mul]
    exact Finset.sum_congr rfl fun j _ => Finset.sum_congr rfl fun k _ => by ring

theorem inflatedEnv_scoreTest {α : Vec ℝ (ncols b p)} {v : ℝ}
    (h : f.scoreTestAgainst (exactEnv 0 0) α = .ok v) :
    f.scoreTestAgainst (inflatedEnv κ) α = .ok ((1 + κ) * v) := by
  unfold Fit.scoreTestAgainst at h ⊢
  simp only [inflatedEnv_map] at h ⊢
  cases hF : (exactEnv 0 0).inv (f.fisher α) with
  | error e => rw [hF] at h; simp [bind, Except.bind] at h
  | ok a =>
    rw [hF] at h
    simp only [bind, Except.bind, pure, Except.pure, Except.ok.injEq, Except.map, vdot_real, dotV_real] at h ⊢
    rw [← h]
    simp only [dotProduct, mulVec, Finset.mul_sum, of_apply]
    exact Finset.sum_congr rfl fun j _ => Finset.sum_congr rfl fun k _ => by ring

end

/-- The exact leverages of the example. -/
theorem exRaw_exactLeverage (y : Vec ℝ 3) (β : Vec ℝ (ncols true 1)) (i : Fin 3) :
    exactLeverage Family.linear.glm (exRaw y) true (gram (exRaw y) true) β i = ![3 / 4, 1 / 2, 3 / 4] i := by
  have hu := exRaw_gram_det y
  have key : ∀ z : Fin 2 → ℝ, gram (exRaw y) true *ᵥ z = design true (exRaw y).x i →
      invSize (gram (exRaw y) true) (design true (exRaw y).x i) = z 0 + ![0, 1, 2] i * z 1 := by
    intro z hz
    have : (gram (exRaw y) true)⁻¹ *ᵥ design true (exRaw y).x i = z := by
      rw [← hz, mulVec_mulVec, nonsing_inv_mul _ hu, one_mulVec]
    rw [invSize, this]
    refine (Fin.sum_univ_two _).trans ?_
    fin_cases i <;> simp [design, exRaw]
  have hz : ∀ z : Fin 2 → ℝ, 4 * z 0 + 4 * z 1 = 1 → 4 * z 0 + 6 * z 1 = ![0, 1, 2] i →
      gram (exRaw y) true *ᵥ z = design true (exRaw y).x i := by
    intro z h0 h1
    funext j
    change Fin 2 at j
    have e : (gram (exRaw y) true *ᵥ z) j = gram (exRaw y) true j (0 : Fin 2) * z 0
        + gram (exRaw y) true j (1 : Fin 2) * z 1 :=
      Fin.sum_univ_two fun k : Fin 2 => gram (exRaw y) true j k * z k
    rw [e]
    simp only [gram, exRaw_totalWt, Fin.sum_univ_three]
    fin_cases i <;> fin_cases j <;> simp [design, exRaw] at h0 h1 ⊢ <;> linarith
  simp only [exactLeverage, dNatParam_real, variance_real, varianceFn, one_pow, mul_one, exRaw_totalWt]
  fin_cases i
  · rw [key ![3 / 4, -1 / 2] (hz _ (by norm_num) (by norm_num))]; norm_num
  · rw [key ![1 / 4, 0] (hz _ (by norm_num) (by norm_num))]; norm_num
  · rw [key ![-1 / 4, 1 / 2] (hz _ (by norm_num) (by norm_num))]; norm_num

/-- **C106** (example).  The hypotheses hold, and the bounds are attained: with inverses too large by the
factor `1 + κ` the leverages of the example sum to `2 (1 + κ)`, its score test against the null model is
`8 (1 + κ)`, and every variance is too large by the factor `(1 + κ)²`. -/
theorem C106_example (std : Bool) {κ : ℝ} (hκ : 0 ≤ κ) :
    InvertsWithin (inflatedEnv κ) κ ∧
    ∃ d f lev cov, (exRaw ![0, 1, 4]).finalize std true = some d ∧
    regression (exactEnv 0 0) Family.linear.glm d (exOpts 0 0 none 1) = .ok f ∧
    (Matrix.of (f.fisher f.result)).PosDef ∧ 0 < f.dispersion ∧
    (∀ i, exactLeverage Family.linear.glm (exRaw ![0, 1, 4]) true (Matrix.of (f.fisher f.result)) f.result i
      = ![3 / 4, 1 / 2, 3 / 4] i) ∧
    f.leverage (inflatedEnv κ) = .ok lev ∧ ∑ i, lev i = 2 * (1 + κ) ∧
    f.covariance (inflatedEnv κ) = .ok cov ∧
    (∀ j, cov j j = (1 + κ) ^ 2 * (f.dispersion * (Matrix.of (f.fisher f.result))⁻¹ j j)) ∧
    f.scoreTest (inflatedEnv κ) = .ok (8 * (1 + κ)) := by
  have he := exactEnv_exact (le_refl (0 : ℝ)) 0
  have hg := Family.lawfulAdj Family.linear
  obtain ⟨d, f, hd, hf, hφ⟩ := exLinFit_dispersion std
  obtain ⟨d', f', hd', hf', -, -, hst, -⟩ := exLinFit_tests std
  obtain rfl : d = d' := by rw [hd] at hd'; exact Option.some.inj hd'
  obtain rfl : f = f' := by rw [hf] at hf'; cases hf'; rfl
  obtain ⟨-, -, h3, -⟩ := C10_external hg hd le_rfl hf
  have hF : ∀ β, Matrix.of (f.fisher β) = fisherMat Family.linear.glm (exRaw ![0, 1, 4]) true β := fun β => by
    rw [h3, ridgeMat]; simp [exOpts, onSlopes_zero]
  have hpd : ∀ β, (Matrix.of (f.fisher β)).PosDef := fun β => by
    rw [hF]
    refine (fisherMat_posSemidef (fun i => (exRaw_totalWt_pos _ i).le)
      (fun i => Family.variance_nonneg .linear trivial _)).posDef_iff_isUnit.mpr ?_
    rw [isUnit_iff_isUnit_det, show fisherMat Family.linear.glm (exRaw ![0, 1, 4]) true β
      = gram (exRaw ![0, 1, 4]) true from lin_fisher _]
    exact exRaw_gram_det _
  have hW0 : weightSum (exRaw ![0, 1, 4]) ≠ 0 := by
    have : weightSum (exRaw ![0, 1, 4]) = 4 := by
      simp only [weightSum, exRaw_totalWt, Fin.sum_univ_three]; simp; norm_num
    rw [this]; norm_num
  have hu := posDef_det (hpd f.result)
  obtain ⟨H, hH, hlev⟩ := C40_available hd hf he hu
  obtain ⟨cov, hcov⟩ := (C41_unregularized hg hd hf he le_rfl le_rfl).2.mpr (by rwa [hF] at hu)
  have hce := (C41_unregularized hg hd hf he le_rfl le_rfl).1 cov hcov
  have htr := C40_trace hg hd hf he le_rfl le_rfl hlev
  refine ⟨inflatedEnv_within hκ, d, f, _, _, hd, hf, hpd _, by rw [hφ]; norm_num, fun i => ?_,
    inflatedEnv_leverage hlev, ?_, inflatedEnv_covariance hcov, fun j => ?_, ?_⟩
  · rw [hF, show fisherMat Family.linear.glm (exRaw ![0, 1, 4]) true f.result
      = gram (exRaw ![0, 1, 4]) true from lin_fisher _]
    exact exRaw_exactLeverage _ _ i
  · rw [← Finset.mul_sum, htr]
    push_cast [ncols]
    ring
  · have := congrFun (congrFun hce j) j
    rw [of_apply] at this
    rw [this]
    rfl
  · have hn1 := (C37_intercept (env' := exactEnv 0 0) hd hf rfl hW0).1
    have hn2 := (C37_intercept (env' := inflatedEnv κ) hd hf rfl hW0).1
    obtain ⟨-, -, s1⟩ := C38_lr_null hd hf (fun _ => hW0) hn1
    obtain ⟨-, -, s2⟩ := C38_lr_null hd hf (fun _ => hW0) hn2
    rw [s2]
    rw [hst] at s1
    generalize interceptOnly (linkFn Family.linear (meanY (exRaw ![0, 1, 4]))) = α at s1 ⊢
    cases hs : f.scoreTestAgainst (exactEnv 0 0) α with
    | error e => rw [hs] at s1; simp at s1
    | ok v =>
      rw [hs] at s1
      cases s1
      rw [inflatedEnv_scoreTest hs, mul_comm]

end GLM
