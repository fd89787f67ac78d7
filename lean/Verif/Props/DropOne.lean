/-
  C48: what `pvalue_exact` compares against.
-/
import Verif.Lemmas.DropOne
import Verif.Spec.DropOne
import Verif.Props.Deviance
import Verif.Props.Optimum

namespace GLM
open Spec Matrix Scalar

section
variable {F : Type} [Scalar F] {n p : ℕ} {b : Bool}

/-- Standardization acts column by column. -/
theorem fromDataset_drop (raw : Dataset F n (p + 1) false) (j : Fin (p + 1)) (icpt : Bool) :
    Standardizer.fromDataset (dropFeature raw j) icpt =
      (Standardizer.fromDataset raw icpt).map fun s =>
        { shifts := fun k => s.shifts (j.succAbove k), scales := fun k => s.scales (j.succAbove k) } := by
  have hN : (dropFeature raw j).nEff = raw.nEff := rfl
  unfold Standardizer.fromDataset
  dsimp only
  rw [hN]
  by_cases h0 : n = 0 <;> by_cases h1 : n ≤ 1 <;> cases gt raw.nEff 1 <;> cases icpt <;>
    simp only [h0, h1, if_true, if_false, Bool.false_eq_true] <;> rfl

/-- The columns kept when column `j` is removed. -/
theorem finalize_drop_true {raw : Dataset F n (p + 1) false} {std : Bool}
    {d : Dataset F n (p + 1) true} (hd : raw.finalize std true = some d) (j : Fin (p + 1)) :
    ∃ d' : Dataset F n p true, (dropFeature raw j).finalize std true = some d' ∧
      d' = { y := d.y
             x := fun i k => d.x i ((j.succ : Fin (p + 2)).succAbove k)
             linearOffset := d.linearOffset
             weights := d.weights
             freqs := d.freqs
             standardizer := d.standardizer.map fun s =>
              { shifts := fun k => s.shifts (j.succAbove k)
                scales := fun k => s.scales (j.succAbove k) } } := by
  unfold Dataset.finalize at hd ⊢
  cases std
  · simp only [Bool.false_eq_true, if_false, Option.some.injEq] at hd
    subst hd
    refine ⟨_, rfl, ?_⟩
    congr 1
    funext i k
    refine Fin.cases ?_ (fun k => ?_) k
    · rw [Fin.succ_succAbove_zero]; rfl
    · rw [Fin.succ_succAbove_succ]; rfl
  · simp only [if_true, Option.map_eq_some_iff] at hd
    obtain ⟨s, hs, rfl⟩ := hd
    rw [if_pos rfl, fromDataset_drop, hs]
    refine ⟨_, rfl, ?_⟩
    dsimp only
    congr 1
    funext i k
    refine Fin.cases ?_ (fun k => ?_) k
    · rw [Fin.succ_succAbove_zero]; rfl
    · rw [Fin.succ_succAbove_succ]; rfl

theorem finalize_drop_false {raw : Dataset F n (p + 1) false} {std : Bool}
    {d : Dataset F n (p + 1) false} (hd : raw.finalize std false = some d) (j : Fin (p + 1)) :
    ∃ d' : Dataset F n p false, (dropFeature raw j).finalize std false = some d' ∧
      d' = { y := d.y
             x := fun i k => d.x i (j.succAbove k)
             linearOffset := d.linearOffset
             weights := d.weights
             freqs := d.freqs
             standardizer := d.standardizer.map fun s =>
              { shifts := fun k => s.shifts (j.succAbove k)
                scales := fun k => s.scales (j.succAbove k) } } := by
  unfold Dataset.finalize at hd ⊢
  cases std
  · simp only [Bool.false_eq_true, if_false, Option.some.injEq] at hd
    subst hd
    exact ⟨_, rfl, rfl⟩
  · simp only [if_true, Option.map_eq_some_iff] at hd
    obtain ⟨s, hs, rfl⟩ := hd
    rw [if_pos rfl, fromDataset_drop, hs]
    exact ⟨_, rfl, rfl⟩

end

variable {n p : ℕ} {env : Env ℝ} {g : Glm ℝ} {std : Bool}

theorem gt_real_false {x y : ℝ} (h : x ≤ y) : gt x y = false := by
  rw [Bool.eq_false_iff, ne_eq, gt_real]; exact not_lt.mpr h

theorem inverseTransformBeta_succ (d : Dataset ℝ n p true) (v : Vec ℝ (p + 1)) (k : Fin p) :
    d.inverseTransformBeta v (k.succ : Fin (p + 1)) = v k.succ / scale d k := by
  rcases d with ⟨y, x, o, w, fr, _ | s⟩
  · exact (div_one (_ : ℝ)).symm
  · rfl

theorem inverseTransformBeta_noInt (d : Dataset ℝ n p false) (v : Vec ℝ p) (k : Fin p) :
    d.inverseTransformBeta v k = v k / scale d k := by
  rcases d with ⟨y, x, o, w, fr, _ | s⟩
  · exact (div_one (_ : ℝ)).symm
  · rfl

/-- **C48**: dropping feature `j` of a model with intercept compares against the fit of the model
built, in the same way, from the data without that feature, with the same options (in particular the
same penalty on the same scale), started at the coefficients of the full fit. -/
theorem C48_feature {raw : Dataset ℝ n (p + 1) false} {d : Dataset ℝ n (p + 1) true}
    {options : FitOptions ℝ (p + 2)} (hd : raw.finalize std true = some d) {f : Fit ℝ n (p + 1) true}
    (hf : regression env g d options = .ok f) (j : Fin (p + 1)) :
    ∃ d' : Dataset ℝ n p true, (dropFeature raw j).finalize std true = some d' ∧
    ∃ β0 : Vec ℝ (p + 1), (∀ k : Fin p, β0 k.succ = f.result ((j.succAbove k).succ : Fin (p + 2))) ∧
      f.devWithoutCovariate env (j.succ : Fin (p + 2)) =
        ((regression env g d'
          { maxIter := options.maxIter, tol := options.tol, l1 := options.l1, l2 := options.l2
            initGuess := some β0 }).map Fit.deviance).mapErr fun e => ⟨_, e⟩ := by
  obtain ⟨d', hd', hd'e⟩ := finalize_drop_true hd j
  obtain ⟨rfl, rfl, rfl, hr⟩ := regression_ofRaw hd hf
  have hwf := Dataset.finalize_wf hd'
  set skip : Fin (p + 1) → Fin (p + 2) := (j.succ : Fin (p + 2)).succAbove with hskip
  refine ⟨d', hd', d'.inverseTransformBeta fun k => f.resultStd (skip k), ?_, ?_⟩
  · intro k
    have hk : skip k.succ = (j.succAbove k).succ := Fin.succ_succAbove_succ _ _
    rw [hr.result, hd'e]
    rw [inverseTransformBeta_succ, inverseTransformBeta_succ, hk]
    congr 1
    unfold scale
    cases f.data.standardizer <;> rfl
  · have h1 : f.devWithoutCovariate env (j.succ : Fin (p + 2)) =
        (fitDeviance env f.g d'.bare
          (Fit.reducedOptions f.options fun k => f.resultStd (skip k))).mapErr fun e => ⟨_, e⟩ := by
      rw [hd'e]; rfl
    rw [h1]
    congr 1
    refine fitDeviance_bare env f.g d' _ _ ⟨rfl, rfl, rfl, rfl⟩ ?_
    exact (hwf.transformBeta_inverseTransformBeta _).symm

/-- **C48**: dropping the intercept compares against the fit of the model built from the same data
without intercept and without standardization.  If the full model was standardized, its penalty
counts coefficient `j` in units of the standard deviation of feature `j`, and the penalty of the
reduced model does not. -/
theorem C48_intercept {raw : Dataset ℝ n p false} {d : Dataset ℝ n p true}
    {options : FitOptions ℝ (p + 1)} (hd : raw.finalize std true = some d) {f : Fit ℝ n p true}
    (hf : regression env g d options = .ok f) :
    ∃ d' : Dataset ℝ n p false, raw.finalize false false = some d' ∧
      f.devWithoutCovariate env (0 : Fin (p + 1)) =
        ((regression env g d'
          { maxIter := options.maxIter, tol := options.tol, l1 := options.l1, l2 := options.l2
            initGuess := some fun k : Fin p => f.result (k.succ : Fin (p + 1)) }
          ).map Fit.deviance).mapErr fun e => ⟨_, e⟩ := by
  obtain ⟨rfl, rfl, rfl, hr⟩ := regression_ofRaw hd hf
  refine ⟨_, rfl, ?_⟩
  have h0 : f.devWithoutCovariate env (0 : Fin (p + 1)) = f.devWithoutIntercept env := by
    cases p <;> rfl
  obtain ⟨h1, h2, h3, h4, -⟩ := Dataset.finalize_cases hd
  have h5 := Dataset.finalize_xOrig hd
  rw [h0]
  unfold Fit.devWithoutIntercept
  have h6 : (fun (i : Fin n) (j : Fin p) => f.data.xExt i (j.succ : Fin (p + 1))) = raw.x := by
    rw [← h5]; rfl
  dsimp only
  rw [h6, h1, h2, h3, h4]
  rfl

/-- **C48**: without intercept and without penalty, dropping a column compares against the fit of the
model built, in the same way, from the data without that feature. -/
theorem C48_column {raw : Dataset ℝ n (p + 2) false} {d : Dataset ℝ n (p + 2) false}
    {options : FitOptions ℝ (p + 2)} (hd : raw.finalize std false = some d)
    (hl1 : options.l1 ≤ 0) (hl2 : options.l2 ≤ 0) {f : Fit ℝ n (p + 2) false}
    (hf : regression env g d options = .ok f) (j : Fin (p + 2)) :
    ∃ d' : Dataset ℝ n (p + 1) false, (dropFeature raw j).finalize std false = some d' ∧
      ∃ e : FitError ℝ (p + 1) → AnyFitError ℝ, f.devWithoutCovariate env j =
        ((regression env g d'
          { maxIter := options.maxIter, tol := options.tol, l1 := options.l1, l2 := options.l2
            initGuess := some fun k : Fin (p + 1) => f.result (j.succAbove k) }
          ).map Fit.deviance).mapErr e := by
  obtain ⟨d', hd', hd'e⟩ := finalize_drop_false hd j
  obtain ⟨rfl, rfl, rfl, hr⟩ := regression_ofRaw hd hf
  have hwf := Dataset.finalize_wf hd'
  refine ⟨d', hd', fun e => ⟨_, e⟩, ?_⟩
  let red : Dataset ℝ n p true :=
    { y := d'.y, x := d'.x, linearOffset := d'.linearOffset, weights := d'.weights
      freqs := d'.freqs, standardizer := none }
  have h1 : f.devWithoutCovariate env j =
      (fitDeviance env f.g red
        (Fit.reducedOptions f.options fun k => f.resultStd (j.succAbove (k : Fin (p + 1))))).mapErr
          fun e => ⟨_, e⟩ := by
    simp only [red, hd'e]; rfl
  rw [h1]
  congr 1
  rw [← fitDeviance_unmark env f.g red _ (gt_real_false hl1) (gt_real_false hl2) rfl]
  refine fitDeviance_bare env f.g d' _ _ ⟨rfl, rfl, rfl, rfl⟩ ?_
  have h2 : (fun k : Fin (p + 1) => f.result (j.succAbove k))
      = d'.inverseTransformBeta fun k => f.resultStd (j.succAbove k) := by
    funext k
    rw [hr.result, inverseTransformBeta_noInt, inverseTransformBeta_noInt, hd'e]
    congr 1
    unfold scale
    cases f.data.standardizer <;> rfl
  rw [h2]
  exact (hwf.transformBeta_inverseTransformBeta _).symm

/-- **C48**: the same for the only column of a model without intercept. -/
theorem C48_only_column {raw : Dataset ℝ n 1 false} {d : Dataset ℝ n 1 false}
    {options : FitOptions ℝ 1} (hd : raw.finalize std false = some d)
    (hl1 : options.l1 ≤ 0) (hl2 : options.l2 ≤ 0) {f : Fit ℝ n 1 false}
    (hf : regression env g d options = .ok f) :
    ∃ d' : Dataset ℝ n 0 false, (dropFeature raw 0).finalize std false = some d' ∧
      f.devWithoutCovariate env (0 : Fin 1) =
        ((regression env g d'
          { maxIter := options.maxIter, tol := options.tol, l1 := options.l1, l2 := options.l2
            initGuess := some Fin.elim0 }).map Fit.deviance).mapErr fun e => ⟨_, e⟩ := by
  obtain ⟨d', hd', hd'e⟩ := finalize_drop_false hd 0
  obtain ⟨rfl, rfl, rfl, hr⟩ := regression_ofRaw hd hf
  refine ⟨d', hd', ?_⟩
  have h0 : f.devWithoutCovariate env (0 : Fin 1) = f.devWithoutOnlyColumn env := rfl
  rw [h0, Fit.devWithoutOnlyColumn, if_neg (by
    rw [gt_real_false hl1, gt_real_false hl2]; simp)]
  have h1 : ({ y := f.data.y, x := fun _ => Fin.elim0, linearOffset := f.data.linearOffset
               weights := f.data.weights, freqs := f.data.freqs
               standardizer := none } : Dataset ℝ n 0 false) = d'.bare := by
    rw [hd'e]
    unfold Dataset.bare
    congr 1
    funext i k
    exact k.elim0
  dsimp only
  rw [h1, reducedDeviance_eq]
  congr 1
  refine fitDeviance_bare env f.g d' _ _ ⟨rfl, rfl, rfl, rfl⟩ ?_
  funext k
  exact k.elim0

/-- **C48** fails for the only column of a penalized model without intercept: `pvalue_exact`
panics. -/
theorem C48_only_column_panics {F : Type} [Scalar F] {env : Env F} {g : Glm F}
    {d : Dataset F n 1 false} {options : FitOptions F 1} {f : Fit F n 1 false}
    (hf : regression env g d options = .ok f)
    (hl : gt options.l1 0 = true ∨ gt options.l2 0 = true) (ds : Dists F) :
    f.devWithoutCovariate env (0 : Fin 1) = .panic ∧ f.pvalueExact ds env = .panic := by
  obtain ⟨-, -, ho, -⟩ := regression_coherent hf
  have h0 : f.devWithoutCovariate env (0 : Fin 1) = .panic := by
    change f.devWithoutOnlyColumn env = _
    rw [Fit.devWithoutOnlyColumn, if_pos]
    rw [ho]; simpa using hl
  refine ⟨h0, ?_⟩
  have h1 : f.pvalueExactAt ds env (0 : Fin 1) = .panic := by
    unfold Fit.pvalueExactAt; rw [h0]; rfl
  change (f.pvalueExactAt ds env (0 : Fin 1)).bind _ = _
  rw [h1]; rfl

/-! ### With a penalty and no intercept the reduced model is a different one -/

/-- Two features, no intercept: responses -1 and 3, features (1, -1) and (1, 0). -/
noncomputable def exNoInt : Dataset ℝ 2 2 false where
  y := ![-1, 3]
  x := fun i j => ![![1, -1], ![1, 0]] i j
  linearOffset := none
  weights := none
  freqs := none
  standardizer := none

/-- A model fitted from a stationary start, with its sum of squared errors. -/
theorem exLin_start {n p : ℕ} {b : Bool} {raw : Dataset ℝ n p false} {d : Dataset ℝ n p b}
    (hd : raw.finalize false b = some d) (β : Vec ℝ (ncols b p)) (m : ℕ)
    (hu : (gram raw b + ridgeMat 1 (fun _ => 1) b).det ≠ 0)
    (hs : penScore linG raw b 0 1 (fun _ => 1) β = 0) :
    ∃ f, regression (exactEnv 0 0) Family.linear.glm d (exOpts 0 1 (some β) m) = .ok f ∧
      f.result = β ∧ f.deviance = sse raw b β := by
  have hσ : scale d = fun _ => 1 := by
    obtain ⟨-, -, -, -, h | h⟩ := Dataset.finalize_cases hd
    · funext j; unfold scale; rw [h.2.2]
    · exact absurd h.1 (by simp)
  have he := exactEnv_exact le_rfl 0
  obtain ⟨f, hf, -, -, hr⟩ := C22_stationary_start (options := exOpts 0 1 (some β) m) he
    (Family.lawfulAdj .linear) hd le_rfl rfl
    (by
      rw [hσ, isUnit_iff_ne_zero]
      have : newtonMat (exactEnv 0 0).eps Family.linear.glm raw b 1 (fun _ => 1) β
          = gram raw b + ridgeMat 1 (fun _ => 1) b := by
        rw [newtonMat]
        change fisherMat linG raw b β + (0 : ℝ) • gram raw b + _ = _
        rw [lin_fisher, zero_smul, add_zero]
      change (newtonMat (exactEnv 0 0).eps Family.linear.glm raw b 1 (fun _ => 1) β).det ≠ 0
      rw [this]; exact hu)
    (by rw [hσ]; exact hs)
  refine ⟨f, hf, hr, ?_⟩
  obtain ⟨h1, h2⟩ := C36_linear hd hf
  rw [h1, h2, hr]; rfl

/-- **C48** fails with a penalty and no intercept: the reduced model leaves its first coefficient
unpenalized.  Here the ridge fit with coefficients (1, 1) is compared, for its second column, with a
model of deviance 8, although the ridge fit of the first column alone, with the same penalty, is
2/3 and has deviance 74/9. -/
theorem C48_penalized_no_intercept :
    ∃ (raw : Dataset ℝ 2 2 false) (d : Dataset ℝ 2 2 false) (d' : Dataset ℝ 2 1 false)
      (f : Fit ℝ 2 2 false) (f' : Fit ℝ 2 1 false),
      raw.finalize false false = some d ∧
      regression (exactEnv 0 0) Family.linear.glm d (exOpts 0 1 (some fun _ => 1) 128) = .ok f ∧
      (dropFeature raw 1).finalize false false = some d' ∧
      regression (exactEnv 0 0) Family.linear.glm d' (exOpts 0 1 (some fun _ => 2 / 3) 128)
        = .ok f' ∧
      (∀ β : Vec ℝ 1, β ≠ f'.result →
        penLogLik Family.linear.glm (dropFeature raw 1) false 0 1 (fun _ => 1) β
          < penLogLik Family.linear.glm (dropFeature raw 1) false 0 1 (fun _ => 1) f'.result) ∧
      f'.deviance = 74 / 9 ∧ f.devWithoutCovariate (exactEnv 0 0) (1 : Fin 2) = .ok 8 := by
  obtain ⟨f, hf, hr, -⟩ := exLin_start (raw := exNoInt) (b := false) rfl (fun _ => 1) 128
    (by
      rw [Matrix.det_fin_two]
      simp [gram, ridgeMat, totalWt, freq, varWt, design, exNoInt, onSlopes, Fin.sum_univ_two]
      norm_num)
    (by
      funext j
      fin_cases j
      · simp [penScore, lin_score, linPred, totalWt, freq, varWt, offset, design, onSlopes, slopes,
          exNoInt, Fin.sum_univ_two]
        norm_num
      · simp [penScore, lin_score, linPred, totalWt, freq, varWt, offset, design, onSlopes, slopes,
          exNoInt, Fin.sum_univ_two])
  have hsse : ∀ β : Vec ℝ 1, sse (dropFeature exNoInt 1) false β
      = (-1 - β 0) ^ 2 + (3 - β 0) ^ 2 := by
    intro β
    simp [sse, linPred, totalWt, freq, varWt, offset, design, dropFeature, exNoInt]
  have hs' : penScore linG (dropFeature exNoInt 1) false 0 1 (fun _ => 1) (fun _ => 2 / 3) = 0 := by
    funext j
    fin_cases j
    simp [penScore, lin_score, linPred, totalWt, freq, varWt, offset, design, onSlopes, slopes,
      dropFeature, exNoInt]
    norm_num
  obtain ⟨f', hf', hr', hdev'⟩ := exLin_start (raw := dropFeature exNoInt 1) (b := false) rfl
    (fun _ => 2 / 3) 128 (by
      rw [Matrix.det_fin_one]
      simp [gram, ridgeMat, totalWt, freq, varWt, design, dropFeature, exNoInt, onSlopes]
      norm_num) hs'
  refine ⟨exNoInt, _, _, f, f', rfl, hf, rfl, hf', ?_, ?_, ?_⟩
  · intro β hβ
    have hne : β 0 - 2 / 3 ≠ 0 := by
      intro h
      refine hβ (funext fun k => ?_)
      rw [hr', Fin.fin_one_eq_zero k]
      linarith
    have hp : ∀ β : Vec ℝ 1, penalty 0 1 (fun _ => 1) false β = (β 0) ^ 2 / 2 := by
      intro β
      simp [penalty, slopes]; ring
    have h2 := lin_logLik (raw := dropFeature exNoInt 1) (b := false) β
    have h3 := lin_logLik (raw := dropFeature exNoInt 1) (b := false) fun _ => 2 / 3
    rw [penLogLik, penLogLik, hr', hp, hp]
    change logLik linG _ _ _ - _ < logLik linG _ _ _ - _
    rw [h2, h3, hsse, hsse]
    have := sq_pos_of_ne_zero hne
    nlinarith
  · rw [hdev', hsse]; norm_num
  · obtain ⟨-, hda, ho, hfr⟩ := regression_ofRaw (raw := exNoInt) (std := false) rfl hf
    let raw0 : Dataset ℝ 2 0 false :=
      { y := exNoInt.y, x := fun _ => Fin.elim0, linearOffset := none, weights := none, freqs := none
        standardizer := none }
    let d0 : Dataset ℝ 2 0 true :=
      { y := exNoInt.y, x := onePad raw0.x, linearOffset := none, weights := none, freqs := none
        standardizer := none }
    obtain ⟨f0, hf0, hr0, hdev0⟩ := exLin_start (raw := raw0) (d := d0) (b := true) rfl (fun _ => 1) 128
      (by
        rw [Matrix.det_fin_one]
        simp [gram, ridgeMat, totalWt, freq, varWt, design, raw0, onSlopes])
      (by
        funext j
        fin_cases j
        simp [penScore, lin_score, linPred, totalWt, freq, varWt, offset, design, onSlopes,
          raw0, exNoInt]
        norm_num)
    have h8 : f0.deviance = 8 := by
      rw [hdev0]
      simp [sse, linPred, totalWt, freq, varWt, offset, design, raw0, exNoInt]
      norm_num
    have hred : f.devWithoutCovariate (exactEnv 0 0) (1 : Fin 2) =
        ((regression (exactEnv 0 0) Family.linear.glm d0 (exOpts 0 1 (some fun _ => 1) 128)).map
          Fit.deviance).mapErr fun e => ⟨_, e⟩ := by
      have hstd : f.resultStd = fun _ => 1 := by
        rw [hfr.resultStd, hr, hda]; rfl
      change f.devWithoutColumn (exactEnv 0 0) (1 : Fin 2) = _
      unfold Fit.devWithoutColumn Fit.reducedDeviance
      have hg' : f.g = Family.linear.glm := (regression_coherent hf).1
      rw [hg', hstd, ho, hda]
      have hx : (fun (i : Fin 2) (k : Fin 1) => exNoInt.x i ((1 : Fin 2).succAbove k))
          = (onePad raw0.x : Mat ℝ 2 1) := by
        funext i k
        fin_cases k; fin_cases i <;> simp [exNoInt, onePad]
      simp only [d0, ← hx]
      rfl
    rw [hred, hf0]
    exact congrArg Outcome.ok h8

/-- A fit with an intercept and one feature to which `C48_feature` and `C48_intercept` apply. -/
example (std : Bool) : ∃ (d : Dataset ℝ 3 1 true) (f : Fit ℝ 3 1 true),
    (exRaw ![0, 1, 4]).finalize std true = some d ∧
    regression (exactEnv 0 0) Family.linear.glm d (exOpts 0 0 none 1) = .ok f := by
  obtain ⟨d, f, hd, hf, -⟩ := exLinFit std
  exact ⟨d, f, hd, hf⟩

/-- A fit without intercept and with two features to which `C48_column` applies. -/
example : ∃ f : Fit ℝ 2 2 false, regression (exactEnv 0 0) Family.linear.glm exNoInt
    (exOpts 0 0 (some ![3, 4]) 1) = .ok f := by
  have hd : exNoInt.finalize false false = some exNoInt := rfl
  have hu : IsUnit (gram exNoInt false).det := by
    rw [isUnit_iff_ne_zero, Matrix.det_fin_two]
    simp [gram, totalWt, freq, varWt, design, exNoInt, Fin.sum_univ_two]
  have hw : ∀ i, 0 ≤ totalWt exNoInt i := fun i => by simp [totalWt, freq, varWt, exNoInt]
  obtain ⟨f, hf, -⟩ := C57_exact_least_squares (βs := ![3, 4]) (options := exOpts 0 0 (some ![3, 4]) 1)
    ⟨exactEnv_exact le_rfl 0, hd, le_rfl, le_rfl, hw, hu, by
      rw [isLeastSquares_iff hw]
      funext j
      fin_cases j <;> (simp [lin_score, linPred, totalWt, freq, varWt, offset, design, exNoInt,
        Fin.sum_univ_two]; try norm_num)⟩ rfl le_rfl
  exact ⟨f, hf⟩

end GLM
