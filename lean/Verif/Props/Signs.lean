/-
  C102: counting a feature in the opposite direction reverses its coefficient and changes nothing else.
-/
import Verif.Lemmas.FlipFit
import Verif.Props.FeaturesExact
import Verif.Props.Units

namespace GLM
open Spec Matrix Scalar
variable {n p k : ℕ} {b : Bool}

/-- Exact linear algebra does not depend on the direction in which the unknowns are counted. -/
theorem exactEnv_signFree {s : Fin k → ℝ} (hs : IsSigns s) (eps : ℝ) (fuel : ℕ) :
    SignFree s (exactEnv eps fuel) := by
  have hD : (Matrix.diagonal s) * (Matrix.diagonal s) = 1 := by
    rw [Matrix.diagonal_mul_diagonal, ← Matrix.diagonal_one]
    exact congrArg _ (funext fun j => IsSigns.sq hs j)
  have hM : ∀ m : Mat ℝ k k, (Matrix.of (flipM s m))
      = Matrix.diagonal s * Matrix.of m * Matrix.diagonal s := by
    intro m
    ext i j
    simp [flipM, Matrix.mul_diagonal, Matrix.diagonal_mul]
  have hDi : (Matrix.diagonal s)⁻¹ = Matrix.diagonal s := Matrix.inv_eq_left_inv hD
  have hinv : ∀ m : Mat ℝ k k, (Matrix.of (flipM s m))⁻¹
      = Matrix.diagonal s * (Matrix.of m)⁻¹ * Matrix.diagonal s := by
    intro m
    rw [hM, Matrix.mul_inv_rev, Matrix.mul_inv_rev, hDi, Matrix.mul_assoc]
  have hu : ∀ m : Mat ℝ k k, IsUnit (Matrix.of (flipM s m)).det ↔ IsUnit (Matrix.of m).det := by
    intro m
    have hd : (Matrix.diagonal s).det * (Matrix.diagonal s).det = 1 := by
      rw [← Matrix.det_mul, hD, Matrix.det_one]
    rw [hM, Matrix.det_mul, Matrix.det_mul, mul_right_comm, hd, one_mul]
  refine ⟨fun m v => ?_, fun m => ?_⟩
  · simp only [exactEnv]
    by_cases h : IsUnit (Matrix.of m).det
    · rw [if_pos h, if_pos ((hu m).mpr h), hinv]
      refine congrArg Except.ok ?_
      have hv : (flipV s v : Fin k → ℝ) = Matrix.diagonal s *ᵥ v := by
        funext j; rw [Matrix.mulVec_diagonal]; rfl
      have hv' : ∀ v : Fin k → ℝ, Matrix.diagonal s *ᵥ v = flipV s v := by
        intro v; funext j; rw [Matrix.mulVec_diagonal]; rfl
      rw [hv, Matrix.mulVec_mulVec, Matrix.mul_assoc, hD, Matrix.mul_one, ← Matrix.mulVec_mulVec, hv']
    · rw [if_neg h, if_neg (mt (hu m).mp h)]; rfl
  · simp only [exactEnv]
    by_cases h : IsUnit (Matrix.of m).det
    · rw [if_pos h, if_pos ((hu m).mpr h), hinv]
      refine congrArg Except.ok ?_
      funext i j
      simp [flipM, Matrix.mul_diagonal, Matrix.diagonal_mul]
    · rw [if_neg h, if_neg (mt (hu m).mp h)]; rfl

section
variable (s : Fin p → ℝ)

theorem coefSigns_isSigns {s : Fin p → ℝ} (hs : IsSigns s) (b : Bool) : IsSigns (coefSigns s b) := by
  cases b
  · exact hs
  · exact fun j => Fin.cases (Or.inl rfl) hs j

/-- The built data set with some of its features reversed. -/
noncomputable def flipDesign (d : Dataset ℝ n p b) : Dataset ℝ n p b :=
  { d with
    x := fun i j => coefSigns s b j * d.x i j
    standardizer := d.standardizer.map fun t =>
      { shifts := flipV s t.shifts, scales := t.scales } }

theorem flipFeatures_fromDataset {s : Fin p → ℝ} (hs : IsSigns s) (raw : Dataset ℝ n p false)
    (b : Bool) :
    Standardizer.fromDataset (flipFeatures s raw) b
      = (Standardizer.fromDataset raw b).map fun t =>
        { shifts := flipV s t.shifts, scales := t.scales } := by
  have hw : (flipFeatures s raw).applyTotalWeights = raw.applyTotalWeights := rfl
  have hn : (flipFeatures s raw).nEff = raw.nEff := rfl
  have hx : ∀ i j, (flipFeatures s raw).x i j = s j * raw.x i j := fun _ _ => rfl
  have hz : flipV s (vzeros : Vec ℝ p) = vzeros := funext fun j => mul_zero _
  have hmean : ∀ (W : ℝ) (w : Vec ℝ n) (j : Fin p), (vsum fun i => w i * (s j * raw.x i j)) / W
      = s j * ((vsum fun i => w i * raw.x i j) / W) := by
    intro W w j
    simp only [vsum_real, mul_div_assoc', Finset.mul_sum]
    exact congrArg (· / W) (Finset.sum_congr rfl fun i _ => by ring)
  have hvar : ∀ (m : ℝ) (i : Fin n) (j : Fin p),
      (s j * raw.x i j - s j * m) * (s j * raw.x i j - s j * m)
        = (raw.x i j - m) * (raw.x i j - m) := by
    intro m i j
    rw [← mul_sub]
    exact IsSigns.mul_mul hs j _ _
  unfold Standardizer.fromDataset
  rw [hw, hn]
  dsimp only
  by_cases h1 : n ≤ 1
  · rw [if_pos h1, if_pos h1]
    cases b
    · simp only [Option.map_some, Bool.false_eq_true, if_false, hz]
    · by_cases h0 : n = 0
      · simp only [h0, if_true, Option.map_some, hz]
      · simp only [if_neg h0, if_true, Option.map_some, hx, hmean]
        rfl
  · have h0 : n ≠ 0 := by omega
    rw [if_neg h1, if_neg h1, if_neg h0, if_neg h0]
    cases gt raw.nEff 1
    · rfl
    · simp only [hx, hmean, hvar, if_true, Option.map_some]
      cases b
      · simp only [Bool.false_eq_true, if_false, hz]
      · rfl

theorem flipFeatures_finalize {s : Fin p → ℝ} (hs : IsSigns s) (raw : Dataset ℝ n p false)
    (std b : Bool) :
    (flipFeatures s raw).finalize std b = (raw.finalize std b).map (flipDesign s) := by
  have hp : ∀ x : Mat ℝ n p, Dataset.padded b (fun i j => s j * x i j)
      = fun i j => coefSigns s b j * Dataset.padded b x i j := by
    intro x
    cases b
    · rfl
    · funext i j
      refine Fin.cases ?_ (fun j => ?_) j
      · exact (one_mul (1 : ℝ)).symm
      · rfl
  unfold Dataset.finalize
  cases std
  · simp only [Bool.false_eq_true, if_false, Option.map_some, flipDesign, Option.map_none]
    exact congrArg some (by rw [← hp]; rfl)
  · simp only [if_true, flipFeatures_fromDataset hs, Option.map_map]
    congr 1
    funext t
    simp only [Function.comp, flipDesign, Option.map_some]
    rw [← hp]
    have ht : (Standardizer.transform { shifts := flipV s t.shifts, scales := t.scales }
        (flipFeatures s raw).x) = fun i j => s j * t.transform raw.x i j := by
      funext i j
      simp only [Standardizer.transform, flipFeatures, flipCols, flipV]
      ring
    rw [ht]
    rfl

theorem flipDesign_flips {s : Fin p → ℝ} (hs : IsSigns s) (d : Dataset ℝ n p b) :
    FlipsExt (coefSigns s b) d (flipDesign s d) where
  signs := coefSigns_isSigns hs b
  y := rfl
  x _ _ := rfl
  offset := rfl
  weights := rfl
  freqs := rfl
  inv γ := by
    obtain ⟨y, x, off, w, fr, st⟩ := d
    cases b with
    | false =>
      cases st with
      | none => rfl
      | some t => funext j; exact mul_div_assoc _ _ _
    | true =>
      cases st with
      | none => rfl
      | some t =>
        funext j
        refine Fin.cases ?_ (fun j => ?_) j
        · change 1 * γ (0 : Fin (p + 1)) - vsum (fun j : Fin p => s j * t.shifts j
              * (s j * γ (j.succ : Fin (p + 1)) / t.scales j))
            = 1 * (γ (0 : Fin (p + 1)) - vsum fun j : Fin p => t.shifts j
              * (γ (j.succ : Fin (p + 1)) / t.scales j))
          simp only [mul_div_assoc, IsSigns.mul_mul hs, one_mul]
        · exact mul_div_assoc _ _ _
  beta γ := by
    obtain ⟨y, x, off, w, fr, st⟩ := d
    cases b with
    | false =>
      cases st with
      | none => rfl
      | some t => funext j; exact mul_assoc _ _ _
    | true =>
      cases st with
      | none => rfl
      | some t =>
        funext j
        refine Fin.cases ?_ (fun j => ?_) j
        · change 1 * γ (0 : Fin (p + 1)) + vsum (fun j : Fin p => s j * t.shifts j
              * (s j * γ (j.succ : Fin (p + 1))))
            = 1 * (γ (0 : Fin (p + 1)) + vsum fun j : Fin p => t.shifts j * γ (j.succ : Fin (p + 1)))
          simp only [IsSigns.mul_mul hs, one_mul]
        · exact mul_assoc _ _ _
  fisher m := by
    obtain ⟨y, x, off, w, fr, st⟩ := d
    cases b with
    | false =>
      cases st with
      | none => rfl
      | some t =>
        funext i j
        change s i * m i j * s j * t.scales i * t.scales j = s i * (m i j * t.scales i * t.scales j) * s j
        ring
    | true =>
      cases st with
      | none => rfl
      | some t =>
        funext i j
        refine Fin.cases ?_ (fun i => ?_) i <;> refine Fin.cases ?_ (fun j => ?_) j
        · rfl
        · change 1 * m (0 : Fin (p + 1)) (j.succ : Fin (p + 1)) * s j * t.scales j
            + s j * t.shifts j * (1 * m (0 : Fin (p + 1)) (0 : Fin (p + 1)) * 1)
            = 1 * (m (0 : Fin (p + 1)) (j.succ : Fin (p + 1)) * t.scales j
              + t.shifts j * m (0 : Fin (p + 1)) (0 : Fin (p + 1))) * s j
          ring
        · change s i * m (i.succ : Fin (p + 1)) (0 : Fin (p + 1)) * 1 * t.scales i
            + s i * t.shifts i * (1 * m (0 : Fin (p + 1)) (0 : Fin (p + 1)) * 1)
            = s i * (m (i.succ : Fin (p + 1)) (0 : Fin (p + 1)) * t.scales i
              + t.shifts i * m (0 : Fin (p + 1)) (0 : Fin (p + 1))) * 1
          ring
        · change s i * m (i.succ : Fin (p + 1)) (j.succ : Fin (p + 1)) * s j * (t.scales i * t.scales j)
            + (s i * t.shifts i * (1 * m (0 : Fin (p + 1)) (j.succ : Fin (p + 1)) * s j * t.scales j)
              + s i * m (i.succ : Fin (p + 1)) (0 : Fin (p + 1)) * 1 * t.scales i * (s j * t.shifts j)
              + s i * t.shifts i * (s j * t.shifts j
                * (1 * m (0 : Fin (p + 1)) (0 : Fin (p + 1)) * 1)))
            = s i * (m (i.succ : Fin (p + 1)) (j.succ : Fin (p + 1)) * (t.scales i * t.scales j)
              + (t.shifts i * (m (0 : Fin (p + 1)) (j.succ : Fin (p + 1)) * t.scales j)
                + m (i.succ : Fin (p + 1)) (0 : Fin (p + 1)) * t.scales i * t.shifts j
                + t.shifts i * (t.shifts j * m (0 : Fin (p + 1)) (0 : Fin (p + 1))))) * s j
          ring
  score v := by
    obtain ⟨y, x, off, w, fr, st⟩ := d
    cases b with
    | false =>
      cases st with
      | none => rfl
      | some t => funext j; exact mul_assoc _ _ _
    | true =>
      cases st with
      | none => rfl
      | some t =>
        funext j
        refine Fin.cases ?_ (fun j => ?_) j
        · rfl
        · change s j * v (j.succ : Fin (p + 1)) * t.scales j
              + s j * t.shifts j * (1 * v (0 : Fin (p + 1)))
            = s j * (v (j.succ : Fin (p + 1)) * t.scales j + t.shifts j * v (0 : Fin (p + 1)))
          ring
  xExt i j := by
    obtain ⟨y, x, off, w, fr, st⟩ := d
    cases b with
    | false =>
      cases st with
      | none => rfl
      | some t =>
        change s j * x i j * t.scales j + s j * t.shifts j = s j * (x i j * t.scales j + t.shifts j)
        ring
    | true =>
      cases st with
      | none => exact Fin.cases rfl (fun j => rfl) j
      | some t =>
        refine Fin.cases rfl (fun j => ?_) j
        change s j * x i (j.succ : Fin (p + 1)) * t.scales j + s j * t.shifts j
          = s j * (x i (j.succ : Fin (p + 1)) * t.scales j + t.shifts j)
        ring

end

theorem getReg_flip (s : Fin (ncols b p) → ℝ) (o : FitOptions ℝ (ncols b p)) :
    getReg (b := b) (flipStart s o) = (getReg (b := b) o).flip s := by
  have hz : flipV s (vzeros : Vec ℝ (ncols b p)) = vzeros := funext fun j => mul_zero _
  have hi : Admm.flip s (Admm.init : Admm ℝ (ncols b p)) = Admm.init := by
    simp only [Admm.flip, Admm.init, hz]
  have h1 : (flipStart s o).l1 = o.l1 := rfl
  have h2 : (flipStart s o).l2 = o.l2 := rfl
  simp only [getReg, h1, h2]
  cases gt o.l1 0 <;> cases gt o.l2 0 <;>
    simp only [Bool.and_true, Bool.and_false, Bool.false_eq_true, if_true, if_false, Reg.flip,
      Bool.and_self, hi]

/-- The fit of reversed data, up to the construction of the `Fit`. -/
theorem flip_core {s : Fin (ncols b p) → ℝ} {d d' : Dataset ℝ n p b} (h : FlipsExt s d d')
    {env : Env ℝ} (he : SignFree s env) (g : Glm ℝ) (o : FitOptions ℝ (ncols b p)) :
    regressionCore env g d' (flipStart s o)
      = (regressionCore env g d o).mapBoth (FitError.flip s)
        fun r => (flipStep s r.1, r.2.flip s) := by
  refine h.toFlips.regressionCore he g rfl rfl (getReg_flip s o) ?_
  have hi : (flipStart s o).initGuess = o.initGuess.map (flipV s) := rfl
  unfold initialGuess
  rw [hi]
  cases o.initGuess with
  | none => exact h.toFlips.initGuess he g
  | some β => exact h.beta β

section
variable {s : Fin p → ℝ} (hs : IsSigns s)

/-- Reversing the features of the data set of a fit. -/
structure Flipped (s : Fin p → ℝ) (f f' : Fit ℝ n p b) : Prop where
  signs : IsSigns s
  same : SameFitFlipped (coefSigns s b) f f'
  data : f'.data = flipDesign s f.data
  options : f'.options = flipStart (coefSigns s b) f.options
  g : f'.g = f.g
  std : f'.resultStd = flipV (coefSigns s b) f.resultStd

namespace Flipped
variable {f f' : Fit ℝ n p b} (h : Flipped s f f')
include h

theorem null (env : Env ℝ) : f'.nullModelFit env
    = (f.nullModelFit env).map fun r => (r.1, flipV (coefSigns s b) r.2) := by
  have hd := h.data
  have hg := h.g
  have ho : f'.options.maxIter = f.options.maxIter := by rw [h.options]; rfl
  have hz : ∀ a : ℝ, (b = false → a = 0) → (Fit.firstParam a : Outcome Empty (Vec ℝ (ncols b p)))
      = (Fit.firstParam a).map (flipV (coefSigns s b)) := by
    intro a ha
    cases b
    · cases p with
      | zero => rfl
      | succ p =>
        rw [ha rfl]
        refine congrArg Outcome.ok ?_
        funext j
        have hc : (Fin.cons 0 vzeros : Vec ℝ (p + 1)) j = 0 := by
          refine Fin.cases ?_ (fun j => ?_) j <;> rfl
        change (Fin.cons 0 vzeros : Vec ℝ (p + 1)) j = s j * (Fin.cons 0 vzeros : Vec ℝ (p + 1)) j
        rw [hc, mul_zero]
    · refine congrArg Outcome.ok ?_
      funext j
      refine Fin.cases ?_ (fun j => ?_) j
      · exact (one_mul a).symm
      · exact (mul_zero (s j)).symm
  have hfl := (flipDesign_flips h.signs f.data).toFlips
  have hws := hfl.weightedSum
  have hsw := hfl.sumWeights
  have hy : (flipDesign s f.data).y = f.data.y := rfl
  have hoff : (flipDesign s f.data).linearOffset = f.data.linearOffset := rfl
  have hnd : ∀ off, f'.nullDataset off = f.nullDataset off := by
    intro off
    unfold Fit.nullDataset
    rw [hd]
    rfl
  unfold Fit.nullModelFit Fit.nullIntercept
  rw [hd, hg, hws, hsw, hy, hoff, ho]
  cases f.data.linearOffset with
  | none =>
    dsimp only
    conv_lhs => rw [hz _ (fun hb => if_neg (by simp [hb]))]
    cases (Fit.firstParam _ : Outcome Empty (Vec ℝ (ncols b p))) <;> rfl
  | some off =>
    dsimp only
    rw [hnd]
    cases b with
    | false =>
      refine congrArg Outcome.ok (Prod.ext rfl ?_)
      exact funext fun j => (mul_zero _).symm
    | true =>
      simp only [if_true]
      cases regression env f.g (f.nullDataset off)
          { FitOptions.default env with maxIter := f.options.maxIter } with
      | ok nf =>
        dsimp only
        conv_lhs => rw [hz _ (by simp)]
        rfl
      | err e => rfl
      | panic => rfl
      | diverge => rfl

theorem xOrig (i : Fin n) (j : Fin p) : f'.data.xOrig i j = s j * f.data.xOrig i j := by
  rw [h.data]
  generalize f.data = d
  obtain ⟨y, x, off, w, fr, st⟩ := d
  cases st with
  | none => cases b <;> rfl
  | some t =>
    cases b with
    | false =>
      change s j * x i j * t.scales j + s j * t.shifts j = s j * (x i j * t.scales j + t.shifts j)
      ring
    | true =>
      change s j * x i (j.succ : Fin (p + 1)) * t.scales j + s j * t.shifts j
        = s j * (x i (j.succ : Fin (p + 1)) * t.scales j + t.shifts j)
      ring

theorem lrTest (env : Env ℝ) : f'.lrTest env = f.lrTest env := by
  unfold Fit.lrTest Fit.nullLike
  rw [h.null, h.same.modelLike]
  cases f.nullModelFit env <;> rfl

theorem predict {m : ℕ} (x : Mat ℝ m p) (off : Option (Vec ℝ m)) :
    f'.predict (flipCols s x) off = f.predict x off := by
  have hp : Mat.dotV (Dataset.padded b (flipCols s x)) f'.result
      = Mat.dotV (Dataset.padded b x) f.result := by
    funext i
    rw [h.same.result]
    have hx : ∀ j, Dataset.padded b (flipCols s x) i j
        = coefSigns s b j * Dataset.padded b x i j := by
      intro j
      cases b
      · rfl
      · refine Fin.cases ?_ (fun j => ?_) j
        · exact (one_mul (1 : ℝ)).symm
        · rfl
    simp only [Mat.dotV, vdotBy_real, hx, flipV, IsSigns.mul_mul (coefSigns_isSigns h.signs b)]
  simp only [Fit.predict, hp, h.g]

theorem residPart : f'.residPart = f.residPart := by
  have hfc : ∀ j, f'.featureCoef j = s j * f.featureCoef j := by
    intro j
    have := h.same.result
    cases b
    · exact congrFun this _
    · exact congrFun this _
  have hwt : f'.data.applyTotalWeights = f.data.applyTotalWeights := by
    rw [h.data]; exact (flipDesign_flips h.signs f.data).toFlips.totalW
  funext i j
  unfold Fit.residPart
  have hmean : ∀ w : Vec ℝ n, (vsum fun i => s j * f.data.xOrig i j * w i)
      = s j * vsum fun i => f.data.xOrig i j * w i := by
    intro w
    simp only [vsum_real, Finset.mul_sum, mul_assoc]
  simp only [hfc, h.same.residWork, hwt]
  cases b
  · simp only [h.xOrig, Bool.false_eq_true, if_false]
    rw [IsSigns.mul_mul h.signs]
  · simp only [h.xOrig, if_true, hmean]
    refine congrArg (f.residWork i + ·) ?_
    refine Eq.trans ?_ (IsSigns.mul_mul h.signs j _ _)
    ring

theorem waldTest (env : Env ℝ) : f'.waldTest env = f.waldTest env := by
  unfold Fit.waldTest
  rw [h.null]
  cases f.nullModelFit env with
  | ok r =>
    simp only [Outcome.map, Outcome.bind]
    rw [h.same.waldTestAgainst]
  | err e => simp only [Outcome.map, Outcome.bind]
  | panic => simp only [Outcome.map, Outcome.bind]
  | diverge => simp only [Outcome.map, Outcome.bind]

theorem scoreTest {env : Env ℝ} (he : SignFree (coefSigns s b) env) :
    f'.scoreTest env = f.scoreTest env := by
  unfold Fit.scoreTest
  rw [h.null]
  cases f.nullModelFit env with
  | ok r =>
    simp only [Outcome.map, Outcome.bind]
    rw [h.same.scoreTestAgainst env he]
  | err e => rfl
  | panic => rfl
  | diverge => rfl

theorem looData (i : Fin n) : f'.looData i = (f.looData i).map (flipDesign s) := by
  have hstd : f'.data.standardizer.isSome = f.data.standardizer.isSome := by
    rw [h.data]
    unfold flipDesign
    dsimp only
    rw [Option.isSome_map]
  have hx : f'.data.xOrig = flipCols s f.data.xOrig := by
    funext i j; exact h.xOrig i j
  unfold Fit.looData
  dsimp only
  rw [hstd, ← flipFeatures_finalize h.signs, hx, h.data]
  rfl

theorem looFit {env : Env ℝ} (he : SignFree (coefSigns s b) env) (A : Mat ℝ n (ncols b p))
    (i : Fin n) :
    Related (SameErrorFlipped (coefSigns s b)) (fun v v' => v' = flipV (coefSigns s b) v)
      (f.looFit env A i) (f'.looFit env (fun i => flipV (coefSigns s b) (A i)) i) := by
  unfold Fit.looFit
  rw [h.looData, h.options, h.g]
  cases f.looData i with
  | none => exact .panic
  | some dI =>
    dsimp only [Option.map_some]
    have hcore := flip_core (flipDesign_flips h.signs dI) he f.g
      { f.options with initGuess := some (A i) }
    have hopt : ({ flipStart (coefSigns s b) f.options with
        initGuess := some (flipV (coefSigns s b) (A i)) } : FitOptions ℝ (ncols b p))
        = flipStart (coefSigns s b) { f.options with initGuess := some (A i) } := rfl
    rw [hopt]
    unfold regression
    rw [hcore]
    cases regressionCore env f.g dI { f.options with initGuess := some (A i) } with
    | ok r => exact .ok ((flipDesign_flips h.signs dI).inv _)
    | err e => exact .err (FitError.flip_same e)
    | panic => exact .panic
    | diverge => exact .diverge

theorem looExact {env : Env ℝ} (he : SignFree (coefSigns s b) env) :
    Related (SameErrorFlipped (coefSigns s b))
      (fun m m' => m' = fun i => flipV (coefSigns s b) (m i)) (f.looExact env) (f'.looExact env) := by
  unfold Fit.looExact
  rw [h.same.inflCoef env he, h.same.result]
  cases f.inflCoef env with
  | error e => exact .err .linalg
  | ok A =>
    have hseq := seqOutcome_related (h.looFit he fun i => vsub f.result (A i))
    simp only [← flipV_sub] at hseq
    have hfun : ∀ {u v : Outcome (FitError ℝ (ncols b p)) (Mat ℝ n (ncols b p))},
        Related (SameErrorFlipped (coefSigns s b))
          (fun x y => ∀ i, y i = flipV (coefSigns s b) (x i)) u v →
        Related (SameErrorFlipped (coefSigns s b))
          (fun x y => y = fun i => flipV (coefSigns s b) (x i)) u v := by
      intro u v h
      cases h with
      | ok h => exact .ok (funext h)
      | err h => exact .err h
      | panic => exact .panic
      | diverge => exact .diverge
    exact hfun hseq

/-- The statistics of a fit do not depend on the directions of the features. -/
theorem sameUpToSigns : SameUpToSigns s f f' :=
  { h.same with
    predict := fun x off => h.predict x off
    residPart := h.residPart
    lrTest := h.lrTest
    rSq := fun env => by simp only [Fit.rSq, h.lrTest, h.same.deviance]
    waldTest := h.waldTest
    scoreTest := fun _ he => h.scoreTest he
    pvalueLrTest := fun ds env => by
      have htn : f'.testNdf = f.testNdf := rfl
      unfold Fit.pvalueLrTest
      rw [h.lrTest, htn]
    looExact := fun _ he => h.looExact he }

end Flipped

end

/-- **C102**: for every family, penalty (also L1), tolerance, budget, weights and offset, with and
without standardization and intercept: counting some of the features in the opposite direction
(`x ↦ -x`) reverses what belongs to these features and changes nothing else.  The changed data build
when the original data do, the fits succeed or fail alike after the same steps, and successful fits
agree in everything except that the coefficients of the reversed features are reversed. -/
theorem C102_direction {s : Fin p → ℝ} (hs : IsSigns s) {raw : Dataset ℝ n p false} {std : Bool}
    {d : Dataset ℝ n p b} (hd : raw.finalize std b = some d) :
    ∃ d', (flipFeatures s raw).finalize std b = some d' ∧
      ∀ (env : Env ℝ), SignFree (coefSigns s b) env → ∀ (g : Glm ℝ) (o : FitOptions ℝ (ncols b p)),
        Related (SameErrorFlipped (coefSigns s b)) (SameUpToSigns s) (regression env g d o)
          (regression env g d' (flipStart (coefSigns s b) o)) := by
  refine ⟨flipDesign s d, by rw [flipFeatures_finalize hs, hd]; rfl, fun env he g o => ?_⟩
  unfold regression
  rw [flip_core (flipDesign_flips hs d) he]
  cases regressionCore env g d o with
  | panic => exact .panic
  | diverge => exact .diverge
  | err e => exact .err (FitError.flip_same e)
  | ok r =>
    exact .ok (Flipped.sameUpToSigns
      ⟨hs, (flipDesign_flips hs d).sameFit g r.1 r.2, rfl, rfl, rfl, rfl⟩)

/-- **C102**: data that cannot be built cannot be built with reversed features. -/
theorem C102_build {s : Fin p → ℝ} (hs : IsSigns s) (raw : Dataset ℝ n p false) (std b : Bool) :
    ((flipFeatures s raw).finalize std b).isSome = (raw.finalize std b).isSome := by
  rw [flipFeatures_finalize hs]
  cases raw.finalize std b <;> rfl

/-- Without a standardizer the two scales are the same. -/
theorem flipsExt_bare {s : Fin (ncols b p) → ℝ} {d d' : Dataset ℝ n p b} (h : Flips s d d')
    (hn : d.standardizer = none) (hn' : d'.standardizer = none) : FlipsExt s d d' := by
  have hx : ∀ d : Dataset ℝ n p b, d.standardizer = none → d.xExt = d.x := by
    intro d hd
    funext i j
    cases b with
    | false => simp only [Dataset.xExt, Dataset.xOrig, hd]; rfl
    | true =>
      refine Fin.cases rfl (fun j => ?_) j
      simp only [Dataset.xExt, Dataset.xOrig, hd, Fin.cons_succ]; rfl
  have h1 : ∀ d : Dataset ℝ n p b, d.standardizer = none → ∀ γ, d.inverseTransformBeta γ = γ := by
    intro d hd γ; cases b <;> simp only [Dataset.inverseTransformBeta, hd]
  have h2 : ∀ d : Dataset ℝ n p b, d.standardizer = none → ∀ γ, d.transformBeta γ = γ := by
    intro d hd γ; cases b <;> simp only [Dataset.transformBeta, hd]
  have h3 : ∀ d : Dataset ℝ n p b, d.standardizer = none → ∀ γ, d.inverseTransformFisher γ = γ := by
    intro d hd γ; cases b <;> simp only [Dataset.inverseTransformFisher, hd]
  have h4 : ∀ d : Dataset ℝ n p b, d.standardizer = none → ∀ γ, d.inverseTransformScore γ = γ := by
    intro d hd γ; cases b <;> simp only [Dataset.inverseTransformScore, hd]
  exact
    { toFlips := h
      inv := fun γ => by rw [h1 _ hn', h1 _ hn]
      beta := fun γ => by rw [h2 _ hn', h2 _ hn]
      fisher := fun γ => by rw [h3 _ hn', h3 _ hn]
      score := fun γ => by rw [h4 _ hn', h4 _ hn]
      xExt := fun i j => by rw [hx _ hn', hx _ hn, h.x] }

/-- The deviance of a reduced fit does not depend on the directions of its features. -/
theorem reducedDeviance_flip {s : Fin (ncols b p) → ℝ} {d d' : Dataset ℝ n p b} (h : FlipsExt s d d')
    {env : Env ℝ} (he : SignFree s env) (g : Glm ℝ) {k : ℕ} (o : FitOptions ℝ k) {o' : FitOptions ℝ k}
    (ht : o'.tol = o.tol) (hm : o'.maxIter = o.maxIter) (h1 : o'.l1 = o.l1) (h2 : o'.l2 = o.l2)
    (β : Vec ℝ (ncols b p)) :
    Related (fun _ _ => True) (· = ·) (Fit.reducedDeviance env g d (Fit.reducedOptions o β))
      (Fit.reducedDeviance env g d' (Fit.reducedOptions o' (flipV s β))) := by
  have ho : (Fit.reducedOptions o' (flipV s β)) = flipStart s (Fit.reducedOptions o β) := by
    simp only [Fit.reducedOptions, flipStart, ht, hm, h1, h2, Option.map_some]
  unfold Fit.reducedDeviance
  rw [ho]
  unfold regression
  rw [flip_core h he g]
  cases regressionCore env g d (Fit.reducedOptions o β) with
  | panic => exact .panic
  | diverge => exact .diverge
  | err e => exact .err trivial
  | ok r => exact .ok (h.sameFit g r.1 r.2).deviance.symm

namespace Flipped
variable {s : Fin p → ℝ} {f f' : Fit ℝ n p b}

/-- The deviance without one of the parameters does not depend on the directions. -/
theorem devWithoutCovariate (h : Flipped s f f') {env : Env ℝ}
    (he : ∀ {k : ℕ} (s : Fin k → ℝ), IsSigns s → SignFree s env) (j : Fin (ncols b p)) :
    Related (fun _ _ => True) (· = ·) (f.devWithoutCovariate env j)
      (f'.devWithoutCovariate env j) := by
  have hs := h.signs
  have hg := h.g
  have hres := h.same.result
  have hy : f'.data.y = f.data.y := by rw [h.data]; rfl
  have hoff : f'.data.linearOffset = f.data.linearOffset := by rw [h.data]; rfl
  have hw : f'.data.weights = f.data.weights := by rw [h.data]; rfl
  have hfr : f'.data.freqs = f.data.freqs := by rw [h.data]; rfl
  have hx : ∀ i j, f'.data.x i j = coefSigns s b j * f.data.x i j := by
    intro i j; rw [h.data]; rfl
  have hxe : ∀ i j, f'.data.xExt i j = coefSigns s b j * f.data.xExt i j := by
    intro i j; rw [h.data]; exact (flipDesign_flips hs f.data).xExt i j
  have ht : f'.options.tol = f.options.tol := by rw [h.options]; rfl
  have hm : f'.options.maxIter = f.options.maxIter := by rw [h.options]; rfl
  have h1 : f'.options.l1 = f.options.l1 := by rw [h.options]; rfl
  have h2 : f'.options.l2 = f.options.l2 := by rw [h.options]; rfl
  have hcs := coefSigns_isSigns hs b
  cases b with
  | true =>
    have hint : Related (fun _ _ => True) (· = ·) (f.devWithoutIntercept env)
        (f'.devWithoutIntercept env) := by
      unfold Fit.devWithoutIntercept
      rw [hg, hres]
      refine reducedDeviance_flip (b := false) (s := s) (flipsExt_bare ?_ rfl rfl) (he _ hs) f.g
        f.options ht hm h1 h2 (fun j => f.result (j.succ : Fin (p + 1)))
      exact { signs := hs, y := hy, offset := hoff, weights := hw, freqs := hfr
              x := fun i j => hxe i (j.succ : Fin (p + 1)) }
    cases p with
    | zero => exact hint
    | succ p =>
      refine Fin.cases hint (fun j => ?_) j
      change Related (fun _ _ => True) (· = ·) (f.devWithoutFeature env j)
        (f'.devWithoutFeature env j)
      have hstd : f'.resultStd = flipV (coefSigns s true) f.resultStd := h.std
      unfold Fit.devWithoutFeature
      rw [hg, hstd]
      dsimp only
      have hss : IsSigns (fun k : Fin (p + 1) =>
          coefSigns s true ((j.succ : Fin (p + 2)).succAbove k)) := fun k => hcs _
      refine reducedDeviance_flip (b := true) (p := p)
        (s := fun k : Fin (p + 1) => coefSigns s true ((j.succ : Fin (p + 2)).succAbove k))
        (flipsExt_bare ?_ rfl rfl) (he _ hss) f.g f.options ht hm h1 h2
        (fun k : Fin (p + 1) => f.resultStd ((j.succ : Fin (p + 2)).succAbove k))
      exact { signs := hss, y := hy, offset := hoff, weights := hw, freqs := hfr
              x := fun i k => hx i _ }
  | false =>
    match p, s, f, f', h, hs, hg, hres, hy, hoff, hw, hfr, hx, hxe, ht, hm, h1, h2, hcs, j with
    | 0, _, _, _, _, _, _, _, _, _, _, _, _, _, _, _, _, _, _, j => exact j.elim0
    | 1, s, f, f', h, hs, hg, hres, hy, hoff, hw, hfr, hx, hxe, ht, hm, h1, h2, hcs, j =>
      change Related (fun _ _ => True) (· = ·) (f.devWithoutOnlyColumn env)
        (f'.devWithoutOnlyColumn env)
      have : f'.devWithoutOnlyColumn env = f.devWithoutOnlyColumn env := by
        unfold Fit.devWithoutOnlyColumn
        rw [h1, h2, hg, hy, hoff, hw, hfr]
        simp only [Fit.reducedOptions, ht, hm, h1, h2]
      rw [this]
      cases f.devWithoutOnlyColumn env with
      | ok v => exact .ok rfl
      | err e => exact .err trivial
      | panic => exact .panic
      | diverge => exact .diverge
    | p + 2, s, f, f', h, hs, hg, hres, hy, hoff, hw, hfr, hx, hxe, ht, hm, h1, h2, hcs, j =>
      change Related (fun _ _ => True) (· = ·) (f.devWithoutColumn env j)
        (f'.devWithoutColumn env j)
      have hstd : f'.resultStd = flipV s f.resultStd := h.std
      unfold Fit.devWithoutColumn
      rw [hg, hstd]
      dsimp only
      have hss : IsSigns (fun k : Fin (p + 1) => s (j.succAbove k)) := fun k => hs _
      refine reducedDeviance_flip (b := true) (p := p)
        (s := fun k : Fin (p + 1) => s (j.succAbove k))
        (flipsExt_bare ?_ rfl rfl) (he _ hss) f.g f.options ht hm h1 h2
        (fun k : Fin (p + 1) => f.resultStd (j.succAbove k))
      exact { signs := hss, y := hy, offset := hoff, weights := hw, freqs := hfr
              x := fun i k => hx i _ }

theorem pvalueExactAt (h : Flipped s f f') (ds : Dists ℝ) {env : Env ℝ}
    (he : ∀ {k : ℕ} (s : Fin k → ℝ), IsSigns s → SignFree s env) (j : Fin (ncols b p)) :
    Related (fun _ _ => True) (· = ·) (f.pvalueExactAt ds env j) (f'.pvalueExactAt ds env j) := by
  have hd := h.devWithoutCovariate he j
  unfold Fit.pvalueExactAt
  rw [h.same.deviance, h.same.dispersion, h.same.ndf, h.g]
  generalize f.devWithoutCovariate env j = u at hd
  generalize f'.devWithoutCovariate env j = v at hd
  cases hd with
  | panic => exact .panic
  | diverge => exact .diverge
  | err _ => exact .err trivial
  | @ok x y hxy =>
    subst hxy
    simp only [Outcome.bind]
    cases f.g.dispersed with
    | none => cases ds.chi2 1 <;> first | exact .panic | exact .ok rfl
    | free => cases ds.fisherSnedecor 1 f.ndf <;> first | exact .panic | exact .ok rfl

end Flipped

/-- **C102**: the exact p-values do not depend on the directions of the features, for every penalty,
with and without intercept. -/
theorem C102_pvalue_exact {s : Fin p → ℝ} (hs : IsSigns s) {raw : Dataset ℝ n p false} {std : Bool}
    {d : Dataset ℝ n p b} (hd : raw.finalize std b = some d) {env : Env ℝ}
    (he : ∀ {k : ℕ} (s : Fin k → ℝ), IsSigns s → SignFree s env) (g : Glm ℝ)
    {o : FitOptions ℝ (ncols b p)} {f : Fit ℝ n p b} (hf : regression env g d o = .ok f) :
    ∃ d' f', (flipFeatures s raw).finalize std b = some d' ∧
      regression env g d' (flipStart (coefSigns s b) o) = .ok f' ∧
      ∀ ds : Dists ℝ,
        (∀ j, Related (fun _ _ => True) (· = ·) (f.pvalueExactAt ds env j)
          (f'.pvalueExactAt ds env j)) ∧
        ∀ v, f.pvalueExact ds env = .ok v → f'.pvalueExact ds env = .ok v := by
  unfold regression at hf
  cases hc : regressionCore env g d o with
  | panic => rw [hc] at hf; cases hf
  | diverge => rw [hc] at hf; cases hf
  | err e => rw [hc] at hf; cases hf
  | ok r =>
    rw [hc] at hf
    cases hf
    have hcs := coefSigns_isSigns hs b
    have hR : Flipped s (Fit.new g d o r.1 r.2) (Fit.new g (flipDesign s d)
        (flipStart (coefSigns s b) o) (flipStep (coefSigns s b) r.1) (r.2.flip (coefSigns s b))) :=
      ⟨hs, (flipDesign_flips hs d).sameFit g r.1 r.2, rfl, rfl, rfl, rfl⟩
    refine ⟨flipDesign s d, _, by rw [flipFeatures_finalize hs, hd]; rfl, ?_, fun ds => ⟨fun j =>
      hR.pvalueExactAt ds he j, fun v hv => ?_⟩⟩
    · unfold regression
      rw [flip_core (flipDesign_flips hs d) (he _ hcs), hc]
      rfl
    · unfold Fit.pvalueExact at hv ⊢
      rw [seqOutcome_ok] at hv ⊢
      intro j
      have h := hR.pvalueExactAt ds he j
      rw [hv] at h
      generalize (Fit.pvalueExactAt ds env _ j) = u at h
      cases h with
      | ok h => rw [h]

/-! Any change of units of a standardized fit, also with negative factors. -/

theorem direction_isSigns (a : Fin p → ℝ) : IsSigns (direction a) := by
  intro j
  unfold direction
  split
  · exact Or.inl rfl
  · exact Or.inr rfl

theorem direction_mul {a : Fin p → ℝ} (ha : ∀ j, a j ≠ 0) (j : Fin p) : |a j| * direction a j = a j := by
  unfold direction
  split
  · rename_i h; rw [abs_of_pos h, mul_one]
  · rename_i h
    rw [abs_of_neg (lt_of_le_of_ne (not_lt.mp h) (ha j))]; ring

theorem newUnits_direction {m : ℕ} {a : Fin p → ℝ} (ha : ∀ j, a j ≠ 0) (c : Fin p → ℝ)
    (x : Mat ℝ m p) : newUnits (fun j => |a j|) c (flipCols (direction a) x) = newUnits a c x := by
  funext i j
  simp only [newUnits, flipCols]
  rw [← mul_assoc, direction_mul ha]

theorem unitCoef_direction {a : Fin p → ℝ} (ha : ∀ j, a j ≠ 0) (c : Fin p → ℝ)
    (β : Vec ℝ (ncols b p)) :
    unitCoef (fun j => |a j|) c (flipV (coefSigns (direction a) b) β) = unitCoef a c β := by
  have hq : ∀ (j : Fin p) (v : ℝ), direction a j * v / |a j| = v / a j := by
    intro j v
    have h0 : |a j| ≠ 0 := abs_ne_zero.mpr (ha j)
    rw [div_eq_div_iff h0 (ha j)]
    have h1 := direction_mul ha j
    have h2 := IsSigns.sq (direction_isSigns a) j
    linear_combination (-(direction a j * v)) * h1 + (v * |a j|) * h2
  cases b with
  | false => funext j; exact hq j (β j)
  | true =>
    funext j
    refine Fin.cases ?_ (fun j => ?_) j
    · change 1 * β (0 : Fin (p + 1)) - ∑ j : Fin p, c j
          * (direction a j * β (j.succ : Fin (p + 1)) / |a j|)
        = β (0 : Fin (p + 1)) - ∑ j : Fin p, c j * (β (j.succ : Fin (p + 1)) / a j)
      simp only [hq, one_mul]
    · exact hq j _

/-- **C102**: a fit of standardized data does not depend on the units and the directions of the
features, whatever the family and the penalties: reporting feature `j` as `a j * x + c j` with
`a j ≠ 0` (without an intercept only `a j * x`) converts the coefficients and changes nothing else.
This covers exchanging the two levels of an indicator (`x ↦ 1 - x`). -/
theorem C102_recoding {a c : Fin p → ℝ} {raw : Dataset ℝ n p false} {d : Dataset ℝ n p b}
    (ha : ∀ j, a j ≠ 0) (hc : b = false → ∀ j, c j = 0)
    (hw : 0 < ∑ i, totalWt raw i) (hv : ∀ j, Varies raw j) (hd : raw.finalize true b = some d) :
    ∃ d', (changeUnits a c raw).finalize true b = some d' ∧
      ∀ (env : Env ℝ), SignFree (coefSigns (direction a) b) env →
        ∀ (g : Glm ℝ) (o : FitOptions ℝ (ncols b p)),
        Related (SameErrorFlipped (coefSigns (direction a) b)) (SameUpToRecoding a c)
          (regression env g d o) (regression env g d' { o with
            initGuess := o.initGuess.map fun β => unitCoef a c β }) := by
  have hs := direction_isSigns a
  obtain ⟨d1, hd1, h1⟩ := C102_direction hs hd
  have hpos : ∀ j, 0 < |a j| := fun j => abs_pos.mpr (ha j)
  have hm : ∀ j, wMean (flipFeatures (direction a) raw) j = direction a j * wMean raw j := by
    intro j
    change (∑ i, totalWt raw i * (direction a j * raw.x i j)) / (∑ i, totalWt raw i)
      = direction a j * ((∑ i, totalWt raw i * raw.x i j) / ∑ i, totalWt raw i)
    rw [mul_div_assoc', Finset.mul_sum]
    exact congrArg (· / _) (Finset.sum_congr rfl fun i _ => by ring)
  have hv1 : ∀ j, Varies (flipFeatures (direction a) raw) j := by
    intro j
    unfold Varies
    rw [hm]
    refine lt_of_lt_of_eq (hv j) (Finset.sum_congr rfl fun i _ => ?_)
    change totalWt raw i * (raw.x i j - wMean raw j) ^ 2
      = totalWt raw i * (direction a j * raw.x i j - direction a j * wMean raw j) ^ 2
    have h2 := IsSigns.sq hs j
    linear_combination (-(totalWt raw i * (raw.x i j - wMean raw j) ^ 2)) * h2
  obtain ⟨d', hd', h2⟩ := C67_units (raw := flipFeatures (direction a) raw) hpos hc hw hv1 hd1
  have hraw : changeUnits (fun j => |a j|) c (flipFeatures (direction a) raw) = changeUnits a c raw := by
    unfold changeUnits
    exact congrArg (fun x : Mat ℝ n p => ({ raw with x := x } : Dataset ℝ n p false))
      (newUnits_direction ha c raw.x)
  rw [hraw] at hd'
  refine ⟨d', hd', fun env he g o => ?_⟩
  have hr1 := h1 env he g o
  have hr2 := h2 env g (flipStart (coefSigns (direction a) b) o)
  have ho : ({ flipStart (coefSigns (direction a) b) o with
        initGuess := (flipStart (coefSigns (direction a) b) o).initGuess.map
          fun β => unitCoef (fun j => |a j|) c β } : FitOptions ℝ (ncols b p))
      = { o with initGuess := o.initGuess.map fun β => unitCoef a c β } := by
    obtain ⟨mi, t, l2, l1, ig⟩ := o
    cases ig with
    | none => rfl
    | some β =>
      simp only [flipStart, Option.map_some]
      rw [unitCoef_direction ha]
  rw [ho] at hr2
  generalize regression env g d o = r0 at hr1
  generalize regression env g d1 (flipStart (coefSigns (direction a) b) o) = r1 at hr1 hr2
  generalize regression env g d' _ = r2 at hr2
  cases hr1 with
  | panic => cases hr2; exact .panic
  | diverge => cases hr2; exact .diverge
  | err h => cases hr2 with | err h' => exact .err (h' ▸ h)
  | @ok f f1 hf1 =>
    cases hr2 with
    | @ok _ f' hf2 =>
      refine .ok ?_
      exact
        { result := by rw [hf2.result, hf1.result, unitCoef_direction ha]
          history := by
            rw [hf2.history, hf1.history, List.map_map]
            refine List.map_congr_left fun st _ => ?_
            simp only [Function.comp, flipStep, unitCoef_direction ha]
          nIter := hf2.nIter.trans hf1.nIter
          modelLike := hf2.modelLike.trans hf1.modelLike
          yHat := hf2.yHat.trans hf1.yHat
          predict := fun x off => by
            rw [← newUnits_direction ha, hf2.predict, hf1.predict]
          deviance := hf2.deviance.trans hf1.deviance
          dispersion := hf2.dispersion.trans hf1.dispersion
          aic := hf2.aic.trans hf1.aic
          bic := hf2.bic.trans hf1.bic
          lrTest := fun env => (hf2.lrTest env).trans (hf1.lrTest env)
          rSq := fun env => (hf2.rSq env).trans (hf1.rSq env)
          residWork := hf2.residWork.trans hf1.residWork
          leverage := fun env he => (hf2.leverage env).trans (hf1.leverage env he)
          cooks := fun env he => (hf2.cooks env).trans (hf1.cooks env he)
          residStudent := fun env he => (hf2.residStudent env).trans (hf1.residStudent env he)
          waldZ := fun env hx he z hz => by
            have h1 := hf1.waldZ env he
            rw [hz] at h1
            obtain ⟨z', hz', hs'⟩ := hf2.waldZ env hx _ h1
            refine ⟨z', hz', fun j => (hs' j).trans ?_⟩
            cases b <;> rfl }

/-- Exact linear algebra is what the theorems ask for. -/
example {s : Fin k → ℝ} (hs : IsSigns s) : SignFree s (exactEnv (1 / 1000) 5) :=
  exactEnv_signFree hs _ _

/-- Exchanging the levels of an indicator is one of the changes of C102. -/
example (x : Mat ℝ n 1) : newUnits (fun _ => -1) (fun _ => 1) x = fun i j => 1 - x i j := by
  funext i j; simp only [newUnits]; ring

/-- It turns `β₀ + β₁ x` into `(β₀ + β₁) - β₁ x`. -/
example (β : Vec ℝ 2) : unitCoef (p := 1) (b := true) (fun _ => -1) (fun _ => 1) β
    = (![β 0 + β 1, -β 1] : Fin 2 → ℝ) := by
  funext j
  fin_cases j
  · simp [unitCoef, div_neg]
  · simp [unitCoef, div_neg]

/-- A data set and a change that meet the hypotheses: seven minus the feature. -/
example : ∃ d d' : Dataset ℝ 3 1 true, (exRaw ![0, 1, 4]).finalize true true = some d ∧
    (changeUnits (fun _ => -1) (fun _ => 7) (exRaw ![0, 1, 4])).finalize true true = some d' ∧
    ∀ (g : Glm ℝ) (o : FitOptions ℝ 2),
      Related (SameErrorFlipped (coefSigns (direction fun _ : Fin 1 => (-1 : ℝ)) true))
        (SameUpToRecoding (b := true) (fun _ => -1) fun _ => 7)
        (regression (exactEnv (1 / 1000) 5) g d o) (regression (exactEnv (1 / 1000) 5) g d'
          { o with initGuess := o.initGuess.map fun β =>
              unitCoef (p := 1) (b := true) (fun _ => -1) (fun _ => 7) β }) := by
  obtain ⟨d, hd⟩ := exRaw_finalize ![0, 1, 4] true true
  obtain ⟨d', hd', h⟩ := C102_recoding (a := fun _ => -1) (c := fun _ => 7) (fun _ => by norm_num)
    (by simp) (Finset.sum_pos (fun i _ => exRaw_totalWt_pos _ i) ⟨0, Finset.mem_univ _⟩)
    (exRaw_varies _) hd
  exact ⟨d, d', hd, hd', fun g o => h _
    (exactEnv_signFree (coefSigns_isSigns (direction_isSigns _) true) _ _) g o⟩

end GLM
