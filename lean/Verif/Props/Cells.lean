/-
  C112: models with one coefficient for each cell.
-/
import Verif.Spec.Cells
import Verif.Props.Exposure
import Verif.Props.UnitDeviance

namespace GLM
open Spec Matrix
variable {n m p : ℕ} {b : Bool} {env env' : Env ℝ} {fam : Family} {c : Fin n → Fin (ncols b p)}
  {X : Mat ℝ (ncols b p) p} {raw : Dataset ℝ n p false} {std : Bool} {d : Dataset ℝ n p b}
  {o : FitOptions ℝ (ncols b p)} {f : Fit ℝ n p b}

/-- Derivative of the log-likelihood by the predictor of cell `k`. -/
noncomputable def cellScore (fam : Family) (c : Fin n → Fin m) (X : Mat ℝ m p) (raw : Dataset ℝ n p false)
    (b : Bool) (β : Vec ℝ (ncols b p)) (k : Fin m) : ℝ :=
  (fam.glm (F := ℝ)).link.dNatParam (cellPred b X β k)
    * (cellSum c raw k - (fam.glm (F := ℝ)).link.funcInv (cellPred b X β k) * cellWt c raw k)

section
variable {c : Fin n → Fin m} {X : Mat ℝ m p} (hx : ∀ i, raw.x i = X (c i)) (ho : raw.linearOffset = none)
include hx

theorem cell_design (i : Fin n) (j : Fin (ncols b p)) : design b raw.x i j = design b X (c i) j := by
  cases b
  · exact congrFun (hx i) j
  · refine Fin.cases rfl (fun j => ?_) j
    exact congrFun (hx i) j

include ho

theorem cell_linPred (β : Vec ℝ (ncols b p)) (i : Fin n) : linPred raw b β i = cellPred b X β (c i) := by
  rw [linPred, offset_none ho, add_zero, cellPred]
  exact Finset.sum_congr rfl fun j _ => by rw [cell_design hx]

theorem cell_scoreVec (fam : Family) (β : Vec ℝ (ncols b p)) :
    scoreVec fam.glm raw b β = (design b X)ᵀ *ᵥ cellScore fam c X raw b β := by
  funext j
  rw [scoreVec, sum_cells c, mulVec, dotProduct]
  refine Finset.sum_congr rfl fun k _ => ?_
  rw [cellScore, cellSum, cellWt, Finset.mul_sum, ← Finset.sum_sub_distrib, Finset.mul_sum, Finset.mul_sum]
  refine Finset.sum_congr rfl fun i hi => ?_
  rw [meanAt, cell_linPred hx ho, cell_design hx, (Finset.mem_filter.mp hi).2, transpose_apply]
  ring

theorem cell_fisherMat (fam : Family) (β : Vec ℝ (ncols b p)) : fisherMat fam.glm raw b β
    = (design b X)ᵀ * diagonal (cellInfo fam c X raw b β) * design b X := by
  ext j j'
  rw [fisherMat, sum_cells c, mul_apply]
  refine Finset.sum_congr rfl fun k _ => ?_
  rw [mul_diagonal, transpose_apply, cellInfo, cellWt, Finset.mul_sum, Finset.mul_sum, Finset.sum_mul]
  refine Finset.sum_congr rfl fun i hi => ?_
  rw [meanAt, cell_linPred hx ho, cell_design hx, cell_design hx, (Finset.mem_filter.mp hi).2, variance_real]
  ring

end

/-- The inverse of the information, seen from the cells. -/
theorem cell_inverse {k : ℕ} {A : Matrix (Fin k) (Fin k) ℝ} {D : Fin k → ℝ} (hA : IsUnit A.det)
    (hD : ∀ i, D i ≠ 0) : IsUnit (Aᵀ * diagonal D * A).det ∧
    A * (Aᵀ * diagonal D * A)⁻¹ * Aᵀ = diagonal fun i => 1 / D i := by
  have hu : IsUnit (Aᵀ * diagonal D * A).det := by
    rw [det_mul, det_mul, det_transpose, det_diagonal]
    exact (hA.mul (Finset.prod_ne_zero_iff.mpr fun i _ => hD i).isUnit).mul hA
  refine ⟨hu, ?_⟩
  have hT : IsUnit Aᵀ.det := by rwa [det_transpose]
  have hDi : diagonal D * diagonal (fun i => 1 / D i) = 1 := by
    rw [diagonal_mul_diagonal, ← diagonal_one]
    exact congrArg diagonal (funext fun i => mul_one_div_cancel (hD i))
  have e : (Aᵀ * diagonal D * A)⁻¹ = A⁻¹ * diagonal (fun i => 1 / D i) * Aᵀ⁻¹ := by
    refine inv_eq_right_inv ?_
    calc Aᵀ * diagonal D * A * (A⁻¹ * diagonal (fun i => 1 / D i) * Aᵀ⁻¹)
        = Aᵀ * diagonal D * (A * A⁻¹) * diagonal (fun i => 1 / D i) * Aᵀ⁻¹ := by simp only [Matrix.mul_assoc]
      _ = 1 := by
        rw [mul_nonsing_inv _ hA, Matrix.mul_one, Matrix.mul_assoc Aᵀ, hDi, Matrix.mul_one,
          mul_nonsing_inv _ hT]
  calc A * (Aᵀ * diagonal D * A)⁻¹ * Aᵀ = A * A⁻¹ * diagonal (fun i => 1 / D i) * (Aᵀ⁻¹ * Aᵀ) := by
        rw [e]; simp only [Matrix.mul_assoc]
    _ = _ := by rw [mul_nonsing_inv _ hA, nonsing_inv_mul _ hT, Matrix.one_mul, Matrix.mul_one]

namespace Spec.CellFit
variable (h : CellFit env fam c X raw std d o f)
include h

theorem score_eq (β : Vec ℝ (ncols b p)) : f.score β = scoreVec fam.glm raw b β := by
  rw [(C10_external (Family.lawfulAdj fam) h.built h.l1 h.fit).2.1]
  funext j
  simp only [penScore, max_eq_right h.l1, max_eq_right h.l2, zero_mul, add_zero, onSlopes_zero,
    sub_zero]

theorem fisher_eq (β : Vec ℝ (ncols b p)) : Matrix.of (f.fisher β) = fisherMat fam.glm raw b β := by
  rw [(C10_external (Family.lawfulAdj fam) h.built h.l1 h.fit).2.2.1, ridgeMat, max_eq_right h.l2]
  simp [onSlopes_zero]

theorem exists_mem (k : Fin (ncols b p)) : ∃ i, c i = k := by
  by_contra hne
  push Not at hne
  have := h.weight k
  rw [cellWt, Finset.filter_false_of_mem fun i _ => hne i, Finset.sum_empty] at this
  exact lt_irrefl _ this

theorem pred_mem (ha : Admissible fam raw b f.result) (k : Fin (ncols b p)) :
    cellPred b X f.result k ∈ predDom fam := by
  obtain ⟨i, rfl⟩ := h.exists_mem k
  rw [← cell_linPred h.features h.offset]
  exact ha i

theorem sum_eq (k : Fin (ncols b p)) : cellSum c raw k = cellWt c raw k * cellMean c raw k := by
  rw [cellMean, mul_div_cancel₀ _ (h.weight k).ne']

omit h in
theorem weightSum_eq : weightSum raw = ∑ k, cellWt c raw k := sum_cells c _

theorem mean_eq : meanY raw = (∑ k, cellWt c raw k * cellMean c raw k) / ∑ k, cellWt c raw k := by
  rw [meanY, CellFit.weightSum_eq (c := c), sum_cells c]
  exact congrArg (· / _) (Finset.sum_congr rfl fun k _ => h.sum_eq k)

theorem fitted (hs : f.score f.result = 0) (k : Fin (ncols b p)) :
    (fam.glm (F := ℝ)).link.funcInv (cellPred b X f.result k) = cellMean c raw k := by
  rw [h.score_eq, cell_scoreVec h.features h.offset] at hs
  have hT : IsUnit (design b X : Matrix (Fin (ncols b p)) (Fin (ncols b p)) ℝ)ᵀ.det := by
    rw [det_transpose]; exact h.coded
  have h0 : cellScore fam c X raw b f.result = 0 := by
    have := congrArg ((design b X : Matrix (Fin (ncols b p)) (Fin (ncols b p)) ℝ)ᵀ⁻¹ *ᵥ ·) hs
    simpa only [mulVec_mulVec, nonsing_inv_mul _ hT, one_mulVec, mulVec_zero] using this
  have hk := congrFun h0 k
  rw [Pi.zero_apply, cellScore, mul_eq_zero, or_iff_right (dNatParam_pos fam _).ne', sub_eq_zero] at hk
  rw [cellMean, eq_div_iff (h.weight k).ne', hk]

theorem info_pos (hv : ValidFamily fam) (ha : Admissible fam raw b f.result) (k : Fin (ncols b p)) :
    0 < cellInfo fam c X raw b f.result k :=
  mul_pos (mul_pos (pow_pos (dNatParam_pos fam _) 2)
    (varianceFn_pos fam hv (funcInv_mem fam hv (h.pred_mem ha k)))) (h.weight k)

end Spec.CellFit

section
variable (h : CellFit env fam c X raw std d o f)
include h

/-- **C112** (means).  Where the score vanishes, the fitted values are the weighted means of the cells, for
every family and link and however the cells are coded, and so are the predictions for new observations. -/
theorem C112_means (hs : f.score f.result = 0) :
    (∀ i, f.yHat i = cellMean c raw (c i)) ∧
    ∀ {m : ℕ} (Z : Mat ℝ m p) (i : Fin m) (k : Fin (ncols b p)), Z i = X k →
      f.predict Z none i = cellMean c raw k := by
  obtain ⟨g1, -, -, hf⟩ := regression_ofRaw h.built h.fit
  refine ⟨fun i => ?_, fun Z i k hz => ?_⟩
  · rw [hf.mean, g1, meanAt, cell_linPred h.features h.offset, h.fitted hs]
  · rw [C09_predict_new, g1, ← h.fitted hs k, cellPred]
    congr 1
    rw [Option.map_none, Option.getD_none, add_zero]
    refine Finset.sum_congr rfl fun j _ => ?_
    congr 1
    cases b
    · exact congrFun hz j
    · refine Fin.cases rfl (fun j => ?_) j
      exact congrFun hz j

/-- **C112** (deviance).  The deviance is the total of the unit deviances of the responses from the means of
their cells. -/
theorem C112_deviance (hv : ValidFamily fam) (hy : ∀ i, raw.y i ∈ yDom fam)
    (ha : Admissible fam raw b f.result) (hs : f.score f.result = 0) :
    f.deviance = ∑ i, totalWt raw i * unitDeviance fam (raw.y i) (cellMean c raw (c i)) := by
  rw [C81_deviance h.built h.fit hv hy ha]
  exact Finset.sum_congr rfl fun i _ => by rw [(C112_means h hs).1]

/-- **C112** (covariance).  The predictors of different cells are uncorrelated, and the variance of the
predictor of a cell is the dispersion over the information of the cell. -/
theorem C112_covariance (hv : ValidFamily fam) (ha : Admissible fam raw b f.result) (he : env'.Exact) :
    ∃ cov, f.covariance env' = .ok cov ∧ ∀ k l,
      ∑ j, ∑ j', design b X k j * cov j j' * design b X l j'
        = if k = l then f.dispersion / cellInfo fam c X raw b f.result k else 0 := by
  obtain ⟨hu, hi⟩ := cell_inverse h.coded fun k => (h.info_pos hv ha k).ne'
  have hF := (h.fisher_eq f.result).trans (cell_fisherMat h.features h.offset fam f.result)
  have hdet : IsUnit (Matrix.of (f.fisher f.result)).det := by rw [hF]; exact hu
  obtain ⟨cov, hcov⟩ : ∃ cov, f.covariance env' = .ok cov := by
    unfold Fit.covariance Fit.fisherInv
    rw [he.inv_eq hdet]
    exact ⟨_, rfl⟩
  obtain ⟨-, hc⟩ := covariance_eq (Family.lawfulAdj fam) h.built h.fit he hcov
  rw [← h.fisher_eq, nonsing_inv_mul _ hdet, Matrix.one_mul, hF] at hc
  refine ⟨cov, hcov, fun k l => ?_⟩
  have e : (design b X * Matrix.of cov * (design b X)ᵀ : Matrix (Fin (ncols b p)) (Fin (ncols b p)) ℝ)
      = f.dispersion • diagonal fun k => 1 / cellInfo fam c X raw b f.result k := by
    rw [hc, Matrix.mul_smul, Matrix.smul_mul, hi]
  have := congrFun (congrFun e k) l
  rw [Matrix.smul_apply, diagonal_apply, smul_eq_mul, mul_ite, mul_zero, mul_one_div] at this
  rw [← this, mul_apply, Finset.sum_comm]
  refine Finset.sum_congr rfl fun j' _ => ?_
  rw [mul_apply, Finset.sum_mul]
  rfl

/-- **C112** (leverages).  The leverage of an observation is its share in the weight of its cell, for every
family and link. -/
theorem C112_leverage (hv : ValidFamily fam) (ha : Admissible fam raw b f.result) (he : env'.Exact) :
    f.leverage env' = .ok fun i => totalWt raw i / cellWt c raw (c i) := by
  obtain ⟨hu, hi⟩ := cell_inverse h.coded fun k => (h.info_pos hv ha k).ne'
  have hF := (h.fisher_eq f.result).trans (cell_fisherMat h.features h.offset fam f.result)
  have hdet : IsUnit (Matrix.of (f.fisher f.result)).det := by rw [hF]; exact hu
  obtain ⟨H, hH, hL⟩ := C40_available h.built h.fit he hdet
  obtain ⟨-, hHe⟩ := hat_eq (Family.lawfulAdj fam) h.built h.fit he hH
  rw [hL]
  refine congrArg Except.ok (funext fun i => ?_)
  have hE : ∀ M : Matrix (Fin (ncols b p)) (Fin (ncols b p)) ℝ,
      (design b raw.x * M * (design b raw.x)ᵀ : Matrix (Fin n) (Fin n) ℝ) i i
        = (design b X * M * (design b X)ᵀ : Matrix (Fin (ncols b p)) (Fin (ncols b p)) ℝ) (c i) (c i) := by
    intro M
    simp only [mul_apply, transpose_apply, cell_design h.features]
  have := congrFun (congrFun hHe i) i
  rw [mul_diagonal, Matrix.mul_assoc (diagonal _), Matrix.mul_assoc (diagonal _), diagonal_mul, hE, hF, hi,
    diagonal_apply_eq, meanAt, cell_linPred h.features h.offset, variance_real, cellInfo] at this
  refine Eq.trans this ?_
  have h1 := (dNatParam_pos fam (cellPred b X f.result (c i))).ne'
  have h2 := (varianceFn_pos fam hv (funcInv_mem fam hv (h.pred_mem ha (c i)))).ne'
  have h3 := (h.weight (c i)).ne'
  field_simp

end

section
variable {c : Fin n → Fin (ncols true p)} {X : Mat ℝ (ncols true p) p} {d : Dataset ℝ n p true}
  {o : FitOptions ℝ (ncols true p)} {f : Fit ℝ n p true} (h : CellFit env fam c X raw std d o f)
include h

theorem cell_total : weightSum raw ≠ 0 := by
  rw [CellFit.weightSum_eq (c := c)]
  refine (Finset.sum_pos (fun k _ => h.weight k) ⟨(0 : Fin (p + 1)), Finset.mem_univ _⟩).ne'

omit h in
theorem cellPred_null (a : ℝ) (k : Fin (ncols true p)) : cellPred true X (interceptOnly a) k = a := by
  refine (Fin.sum_univ_succ (n := p) _).trans ?_
  refine Eq.trans (congrArg₂ (· + ·) (one_mul a) (Finset.sum_eq_zero fun j _ => mul_zero _)) (add_zero a)

omit h in
theorem meanDom_yDom {μ : ℝ} (hμ : μ ∈ meanDom fam) : μ ∈ yDom fam := by
  cases fam <;> simp only [meanDom, yDom, Set.mem_univ, Set.mem_Ioo, Set.mem_Icc, Set.mem_Ici, Set.mem_Ioi] at *
  case poisson => exact hμ.le
  case logisticLogit => exact ⟨hμ.1.le, hμ.2.le⟩
  case logisticCloglog => exact ⟨hμ.1.le, hμ.2.le⟩
  case binomial => exact ⟨hμ.1.le, hμ.2.le⟩
  all_goals exact hμ

omit h in
theorem linkFn_predDom {μ : ℝ} (hμ : μ ∈ meanDom fam) : linkFn fam μ ∈ predDom fam := by
  cases fam <;> simp only [meanDom, predDom, linkFn, canonicalLink, Set.mem_univ, Set.mem_Iio, Set.mem_Ioi] at *
  all_goals
    rw [neg_div]
    exact neg_neg_of_pos (by positivity)

/-- **C112** (likelihood ratio).  The likelihood-ratio statistic of the model is the total of the unit
deviances of the means of the cells from the mean of all responses, for every family and link. -/
theorem C112_lr (hv : ValidFamily fam) (hm : meanY raw ∈ meanDom fam) (ha : Admissible fam raw true f.result)
    (hs : f.score f.result = 0) : f.lrTest env'
      = .ok (∑ k, cellWt c raw k * unitDeviance fam (cellMean c raw k) (meanY raw)) := by
  have hW := cell_total h
  have hn := (C37_intercept (env' := env') h.built h.fit h.offset hW).1
  have hpen : ∀ β, penLogLik fam.glm raw true o.l1 o.l2 (scale d) β = logLik fam.glm raw true β := by
    intro β
    simp [penLogLik, penalty, max_eq_right h.l1, max_eq_right h.l2]
  rw [(C38_lr_null h.built h.fit (fun _ => hW) hn).1, C36_lr h.built h.fit, hpen, hpen]
  refine congrArg Outcome.ok ?_
  have hmean : (fam.glm (F := ℝ)).link.funcInv (linkFn fam (meanY raw)) = meanY raw := by
    rw [← func_eq_linkFn, funcInv_func fam hm]
  rw [logLik, logLik, ← Finset.sum_sub_distrib, sum_cells c, Finset.mul_sum]
  refine Finset.sum_congr rfl fun k _ => ?_
  have hk : cellMean c raw k ∈ meanDom fam := by
    rw [← h.fitted hs]; exact funcInv_mem fam hv (h.pred_mem ha k)
  rw [← unitDeviance_eq fam (meanDom_yDom hk) hm, logLikeSat_eq fam hk, logLikeNatural_real,
    logLikeNatural_real]
  have e : ∀ i ∈ Finset.univ.filter (c · = k), 
      totalWt raw i * logLikAt fam.glm raw true f.result i
      - totalWt raw i * logLikAt fam.glm raw true (interceptOnly (linkFn fam (meanY raw))) i
      = totalWt raw i * raw.y i * (canonicalLink fam (cellMean c raw k) - canonicalLink fam (meanY raw))
        - totalWt raw i * (cumulant fam (canonicalLink fam (cellMean c raw k))
          - cumulant fam (canonicalLink fam (meanY raw))) := by
    intro i hi
    rw [logLikAt, logLikAt, logLikeNatural_real, logLikeNatural_real, cell_linPred h.features h.offset,
      cell_linPred h.features h.offset, (Finset.mem_filter.mp hi).2, cellPred_null,
      natParam_eq fam hv (h.pred_mem ha k), h.fitted hs, natParam_eq fam hv (linkFn_predDom hm), hmean]
    ring
  rw [Finset.sum_congr rfl e, Finset.sum_sub_distrib, ← Finset.sum_mul, ← Finset.sum_mul]
  have := h.sum_eq k
  rw [cellSum, cellWt] at this
  rw [this, cellWt]
  ring

/-- **C112** (score test).  The score test of the model is the total of the squared differences of the means
of the cells from the mean of all responses, over their variances under the null hypothesis, for every family
and link. -/
theorem C112_score_test (hv : ValidFamily fam) (hm : meanY raw ∈ meanDom fam) (he : env.Exact) :
    f.scoreTest env
      = .ok (∑ k, cellWt c raw k * (cellMean c raw k - meanY raw) ^ 2 / varianceFn fam (meanY raw)) := by
  have hW := cell_total h
  have hn := (C37_intercept (env' := env) h.built h.fit h.offset hW).1
  rw [(C38_lr_null h.built h.fit (fun _ => hW) hn).2.2]
  set β : Vec ℝ (ncols true p) := interceptOnly (linkFn fam (meanY raw)) with hβ
  have hmean : (fam.glm (F := ℝ)).link.funcInv (linkFn fam (meanY raw)) = meanY raw := by
    rw [← func_eq_linkFn, funcInv_func fam hm]
  set q := (fam.glm (F := ℝ)).link.dNatParam (linkFn fam (meanY raw)) with hq
  have hq0 : 0 < q := dNatParam_pos fam _
  have hV : 0 < varianceFn fam (meanY raw) := varianceFn_pos fam hv hm
  have hinf : ∀ k, cellInfo fam c X raw true β k = q ^ 2 * varianceFn fam (meanY raw) * cellWt c raw k := by
    intro k; rw [cellInfo, hβ, cellPred_null, hmean]
  have hsc : ∀ k, cellScore fam c X raw true β k = q * (cellSum c raw k - meanY raw * cellWt c raw k) := by
    intro k; rw [cellScore, hβ, cellPred_null, hmean]
  obtain ⟨hu, hi⟩ := cell_inverse (D := cellInfo fam c X raw true β) h.coded fun k => by
    rw [hinf]; exact (mul_pos (mul_pos (pow_pos hq0 2) hV) (h.weight k)).ne'
  have hF := (h.fisher_eq β).trans (cell_fisherMat h.features h.offset fam β)
  have hS := (h.score_eq β).trans (cell_scoreVec h.features h.offset fam β)
  obtain ⟨-, h2, -, -, -, h6⟩ := C10_external (Family.lawfulAdj fam) h.built h.l1 h.fit
  rw [h6, he.inv_eq (by rw [hF]; exact hu), ← h2, hS]
  change Outcome.ok _ = _
  refine congrArg Outcome.ok ?_
  dsimp only
  rw [Equiv.apply_symm_apply, hF, mulVec_mulVec, ← vecMul_transpose, transpose_transpose,
    ← dotProduct_mulVec, mulVec_mulVec, ← Matrix.mul_assoc, hi, dotProduct]
  refine Finset.sum_congr rfl fun k _ => ?_
  rw [mulVec_diagonal, hinf, hsc, h.sum_eq]
  have h3 := (h.weight k).ne'
  have h4 := hq0.ne'
  have h5 := hV.ne'
  field_simp

/-- **C112** (analysis of variance).  For the Linear family the deviance is the sum of squares within the
cells, the likelihood-ratio statistic the sum of squares between them, `r_sq()` the share of the latter in
both, and without variance weights the dispersion the mean square within the cells. -/
theorem C112_anova (hl : fam = .linear) (hs : f.score f.result = 0) :
    f.deviance = within c raw ∧ f.lrTest env' = .ok (between c raw) ∧
    (between c raw + within c raw ≠ 0 → f.rSq env' = .ok (between c raw / (between c raw + within c raw))) ∧
    (raw.weights = none → (ncols true p : ℝ) < obsCount raw →
      f.dispersion = within c raw / (obsCount raw - ncols true p)) := by
  subst hl
  have hD : f.deviance = within c raw := C112_deviance h trivial (fun _ => trivial) (fun _ => trivial) hs
  have hL : ∀ env', f.lrTest env' = .ok (between c raw) := fun env' =>
    C112_lr h trivial trivial (fun _ => trivial) hs
  have hW := cell_total h
  have e : f.deviance = devianceOf Family.linear.glm raw true f.result := C36_deviance h.built h.fit
  refine ⟨hD, hL env', fun h0 => ?_, fun hw hN => ?_⟩
  · have hn := (C37_intercept (env' := env') h.built h.fit h.offset hW).1
    have hpen : ∀ β, penLogLik Family.linear.glm raw true o.l1 o.l2 (scale d) β
        = logLik Family.linear.glm raw true β := by
      intro β
      simp [penLogLik, penalty, max_eq_right h.l1, max_eq_right h.l2]
    have h1 := hL env'
    rw [(C38_lr_null h.built h.fit (fun _ => hW) hn).1, C36_lr h.built h.fit, hpen, hpen, Outcome.ok.injEq] at h1
    have hnull : devianceOf Family.linear.glm raw true (interceptOnly (linkFn .linear (meanY raw)))
        = between c raw + within c raw := by
      rw [← hD, e, ← h1, devianceOf, devianceOf]; ring
    rw [C39_rsq h.built h.fit (fun _ => hW) hn h.l1 h.l2 (by rw [hnull]; exact h0), hnull, hD]
    congr 1
    field_simp
    ring
  · rw [C42_no_weights h.built h.fit rfl hw hN, ← e, hD]

/-- **C112** (chi-squared tests).  For counts the score test is Pearson's chi-squared statistic, the total of
`(O - E)² / E` over the cells; for successes and failures it is that of the table of both by cells. -/
theorem C112_chi_squared (he : env.Exact) (hm : meanY raw ∈ meanDom fam) :
    let E := fun k => cellWt c raw k * meanY raw
    (fam = .poisson → f.scoreTest env = .ok (∑ k, (cellSum c raw k - E k) ^ 2 / E k)) ∧
    (fam = .logisticLogit → f.scoreTest env = .ok (∑ k, ((cellSum c raw k - E k) ^ 2 / E k
      + (cellWt c raw k - cellSum c raw k - (cellWt c raw k - E k)) ^ 2 / (cellWt c raw k - E k)))) := by
  intro E
  constructor
  · rintro rfl
    rw [C112_score_test h trivial hm he]
    refine congrArg Outcome.ok (Finset.sum_congr rfl fun k _ => ?_)
    have h1 := (h.weight k).ne'
    have h2 : meanY raw ≠ 0 := ne_of_gt hm
    rw [h.sum_eq]
    simp only [varianceFn, E]
    field_simp
  · rintro rfl
    rw [C112_score_test h trivial hm he]
    refine congrArg Outcome.ok (Finset.sum_congr rfl fun k _ => ?_)
    have h1 := (h.weight k).ne'
    have h2 : meanY raw ≠ 0 := ne_of_gt hm.1
    have h3 : 1 - meanY raw ≠ 0 := (sub_pos.mpr hm.2).ne'
    have h4 : cellWt c raw k - cellWt c raw k * meanY raw = cellWt c raw k * (1 - meanY raw) := by ring
    rw [h.sum_eq]
    simp only [varianceFn, E, h4]
    field_simp
    ring

end

/-- Two observations in each of three groups, coded by two indicators. -/
noncomputable def exLayout : Dataset ℝ 6 2 false where
  y := ![1, 3, 2, 6, 8, 10]
  x := fun i => (![![0, 0], ![0, 0], ![1, 0], ![1, 0], ![0, 1], ![0, 1]] : Fin 6 → Fin 2 → ℝ) i
  linearOffset := none
  weights := none
  freqs := none
  standardizer := none

theorem exLayout_totalWt (i : Fin 6) : totalWt exLayout i = 1 := by
  simp [totalWt, freq, varWt, exLayout]

/-- The group of an observation. -/
def exLayoutCell : Fin 6 → Fin 3 := ![0, 0, 1, 1, 2, 2]

/-- The features of the groups. -/
noncomputable def exLayoutLevels : Fin 3 → Fin 2 → ℝ := ![![0, 0], ![1, 0], ![0, 1]]

theorem exLayout_wt (k : Fin 3) : cellWt exLayoutCell exLayout k = 2 := by
  simp only [cellWt, exLayout_totalWt, Finset.sum_filter, Fin.sum_univ_six]
  fin_cases k <;> simp [exLayoutCell] <;> norm_num

theorem exLayout_sum (k : Fin 3) : cellSum exLayoutCell exLayout k = (![4, 8, 18] : Fin 3 → ℝ) k := by
  simp only [cellSum, exLayout_totalWt, Finset.sum_filter, Fin.sum_univ_six]
  fin_cases k <;> simp [exLayoutCell, exLayout] <;> norm_num

theorem exLayout_mean : meanY exLayout = 5 := by
  simp only [meanY, weightSum, exLayout_totalWt, Fin.sum_univ_six]
  simp [exLayout]; norm_num

theorem exLayoutLevels_det : IsUnit (design (n := 3) true exLayoutLevels).det := by
  rw [isUnit_iff_ne_zero]
  refine (Matrix.det_fin_three _).trans_ne ?_
  change (1 : ℝ) * 1 * 1 - 1 * 0 * 0 - 0 * 1 * 1 + 0 * 0 * 1 + 0 * 1 * 0 - 0 * 1 * 1 ≠ 0
  norm_num

/-- `C112_means`, `C112_covariance`, `C112_leverage`, `C112_anova` and `C112_score_test`. -/
theorem C112_example (m : ℕ) : ∃ d f,
    CellFit (b := true) (p := 2) (exactEnv (1 / 1000) 7) .linear exLayoutCell exLayoutLevels exLayout false d
      (exOpts 0 0 (some (![2, 2, 7] : Fin 3 → ℝ)) m) f ∧
    f.score f.result = 0 ∧ f.yHat (3 : Fin 6) = 4 ∧ f.deviance = 12 ∧ f.lrTest (exactEnv 0 0) = .ok 52 ∧
    f.dispersion = 4 ∧ f.scoreTest (exactEnv (1 / 1000) 7) = .ok 52 ∧
    f.leverage (exactEnv 0 0) = .ok fun _ => 1 / 2 := by
  have hx : ∀ i, exLayout.x i = exLayoutLevels (exLayoutCell i) := by
    intro i; fin_cases i <;> rfl
  have hp : ∀ k : Fin 3, cellPred (p := 2) true exLayoutLevels (![2, 2, 7] : Fin 3 → ℝ) k
      = (![2, 4, 9] : Fin 3 → ℝ) k := by
    intro k
    refine (Fin.sum_univ_three _).trans ?_
    fin_cases k
    · change (1 : ℝ) * 2 + 0 * 2 + 0 * 7 = 2; norm_num
    · change (1 : ℝ) * 2 + 1 * 2 + 0 * 7 = 4; norm_num
    · change (1 : ℝ) * 2 + 0 * 2 + 1 * 7 = 9; norm_num
  have hsc : scoreVec Family.linear.glm exLayout true (![2, 2, 7] : Fin 3 → ℝ) = 0 := by
    rw [cell_scoreVec hx rfl]
    have : cellScore .linear exLayoutCell exLayoutLevels exLayout true (![2, 2, 7] : Fin 3 → ℝ) = 0 := by
      funext k
      rw [cellScore, exLayout_sum, exLayout_wt, hp, funcInv_real]
      fin_cases k <;> simp <;> norm_num
    rw [this, mulVec_zero]
  have hs : ∀ σ, penScore Family.linear.glm exLayout true 0 0 σ (![2, 2, 7] : Fin 3 → ℝ) = 0 := by
    intro σ
    rw [← hsc]
    funext j
    simp only [penScore, max_self, zero_mul, add_zero, onSlopes_zero, sub_zero]
  have hg : IsUnit (gram exLayout true).det := by
    rw [isUnit_iff_ne_zero]
    refine (Matrix.det_fin_three _).trans_ne ?_
    simp only [gram, exLayout_totalWt, Fin.sum_univ_six]
    simp [design, exLayout]
    norm_num
  obtain ⟨f, hf, -, -, hr⟩ := C22_stationary_start
    (options := exOpts 0 0 (some (![2, 2, 7] : Fin 3 → ℝ) : Option (Vec ℝ (ncols true 2))) m)
    (exactEnv_exact (by norm_num : (0 : ℝ) ≤ 1 / 1000) 7) (Family.lawfulAdj .linear)
    (rfl : exLayout.finalize false true = some _) le_rfl rfl
    ((isUnit_iff_isUnit_det _).mp
      (C30_fullRank_posDef (by norm_num [exactEnv]) (fun i => by rw [exLayout_totalWt]; norm_num)
      (fun _ => Family.variance_nonneg .linear trivial _) hg).isUnit) (hs _)
  have hsf : f.score f.result = 0 := by
    rw [(C10_external (Family.lawfulAdj .linear)
      (rfl : exLayout.finalize false true = some _) le_rfl hf).2.1 f.result, hr]
    exact hs _
  have h : CellFit (b := true) (p := 2) (exactEnv (1 / 1000) 7) .linear exLayoutCell exLayoutLevels exLayout false
      _ (exOpts 0 0 (some (![2, 2, 7] : Fin 3 → ℝ)) m) f :=
    ⟨hx, exLayoutLevels_det, fun k => by rw [exLayout_wt]; norm_num, rfl, rfl, le_rfl, le_rfl, hf⟩
  have hmean : ∀ k : Fin 3, cellMean exLayoutCell exLayout k = (![2, 4, 9] : Fin 3 → ℝ) k := by
    intro k
    rw [cellMean, exLayout_sum, exLayout_wt]
    fin_cases k <;> simp <;> norm_num
  have hb : between exLayoutCell exLayout = 52 := by
    simp only [between, hmean, exLayout_wt, exLayout_mean, Fin.sum_univ_three]
    simp; norm_num
  have hw : within exLayoutCell exLayout = 12 := by
    simp only [within, hmean, exLayout_totalWt, Fin.sum_univ_six]
    simp [exLayout, exLayoutCell]; norm_num
  have hN : obsCount exLayout = 6 := by simp [obsCount, freq, exLayout]
  have hK : (ncols true 2 : ℝ) = 3 := by norm_num [ncols]
  obtain ⟨a1, a2, -, a4⟩ := C112_anova (env' := exactEnv 0 0) h rfl hsf
  refine ⟨_, f, h, hsf, ?_, by rw [a1, hw], by rw [a2, hb], ?_, ?_, ?_⟩
  · rw [(C112_means h hsf).1]
    exact (hmean _).trans rfl
  · rw [a4 rfl (by rw [hN, hK]; norm_num), hw, hN, hK]; norm_num
  · rw [C112_score_test h trivial trivial (exactEnv_exact (by norm_num) 7), ← hb]
    refine congrArg Outcome.ok (Finset.sum_congr rfl fun k _ => ?_)
    exact div_one _
  · rw [C112_leverage h trivial (fun _ => trivial) (exactEnv_exact le_rfl 0)]
    refine congrArg Except.ok (funext fun i => ?_)
    rw [exLayout_totalWt]
    exact congrArg (1 / ·) (exLayout_wt _)

end GLM
