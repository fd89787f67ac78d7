/-
  C65: for the Linear family the drop-one p-values are the Wald p-values.
-/
import Verif.Props.PValues
import Verif.Props.DropOne

namespace GLM
open Spec Matrix Scalar
variable {n p p' : ℕ} {b b' : Bool} {env : Env ℝ} {raw : Dataset ℝ n p false} {std : Bool}
  {d : Dataset ℝ n p b} {options : FitOptions ℝ (ncols b p)} {βs : Vec ℝ (ncols b p)}
  {ds : Dists ℝ}

/-! ### Least squares without one column -/

/-- `raw'` is the data whose design matrix is that of `raw` without column `k`; `ι` numbers the
remaining columns. -/
structure DropsColumn (raw : Dataset ℝ n p false) (b : Bool) (k : Fin (ncols b p))
    (raw' : Dataset ℝ n p' false) (b' : Bool) (ι : Fin (ncols b' p') → Fin (ncols b p)) : Prop where
  inj : Function.Injective ι
  range : ∀ j, j ∉ Set.range ι ↔ j = k
  design : ∀ i j, design b raw.x i (ι j) = design b' raw'.x i j
  y : raw'.y = raw.y
  wt : ∀ i, totalWt raw' i = totalWt raw i
  off : ∀ i, offset raw' i = offset raw i

namespace DropsColumn
variable {k : Fin (ncols b p)} {raw' : Dataset ℝ n p' false}
  {ι : Fin (ncols b' p') → Fin (ncols b p)} (h : DropsColumn raw b k raw' b' ι)
include h

/-- Zero at `k`. -/
theorem ext_k (w : Vec ℝ (ncols b' p')) : Function.extend ι w 0 k = 0 := by
  rw [Function.extend_apply']
  · rfl
  · exact (h.range k).mpr rfl

theorem ext_comp {v : Vec ℝ (ncols b p)} (hv : v k = 0) : Function.extend ι (v ∘ ι) 0 = v := by
  funext j
  by_cases hj : j ∈ Set.range ι
  · obtain ⟨l, rfl⟩ := hj
    rw [h.inj.extend_apply]; rfl
  · rw [Function.extend_apply' _ _ _ hj, (h.range j).mp hj, hv]; rfl

theorem sum_ext (w : Vec ℝ (ncols b' p')) (i : Fin n) :
    ∑ j, GLM.Spec.design b raw.x i j * Function.extend ι w 0 j = ∑ j, GLM.Spec.design b' raw'.x i j * w j := by
  symm
  refine Fintype.sum_of_injective ι h.inj _ _ (fun j hj => ?_) fun j => ?_
  · rw [(h.range j).mp hj, h.ext_k, mul_zero]
  · rw [h.inj.extend_apply, h.design]

theorem sse_ext (w : Vec ℝ (ncols b' p')) : sse raw' b' w = sse raw b (Function.extend ι w 0) := by
  simp only [sse, linPred, h.sum_ext, h.y, h.wt, h.off]

theorem quad_ext (w : Vec ℝ (ncols b' p')) : w ⬝ᵥ (gram raw' b' *ᵥ w) =
    Function.extend ι w 0 ⬝ᵥ (gram raw b *ᵥ Function.extend ι w 0) := by
  simp only [quad_gram, h.sum_ext, h.wt]

theorem rank (hw : ∀ i, 0 ≤ totalWt raw i) (hu : IsUnit (gram raw b).det) :
    IsUnit (gram raw' b').det := by
  rw [← Matrix.isUnit_iff_isUnit_det, ← Matrix.mulVec_injective_iff_isUnit]
  intro w1 w2 h12
  by_contra hne
  have hsub : w1 - w2 ≠ 0 := sub_ne_zero.mpr hne
  have h0 : gram raw' b' *ᵥ (w1 - w2) = 0 := by
    rw [mulVec_sub]; exact sub_eq_zero.mpr h12
  have hpos := gram_pos hw hu (x := Function.extend ι (w1 - w2) 0) (fun h1 => hsub (by
    funext l
    have := congrFun h1 (ι l)
    rwa [h.inj.extend_apply] at this))
  rw [← h.quad_ext, h0, dotProduct_zero] at hpos
  exact lt_irrefl _ hpos

/-- The least-squares solution without column `k` and its residual sum of squares. -/
theorem solution (hw : ∀ i, 0 ≤ totalWt raw i) (hu : IsUnit (gram raw b).det)
    (hs : IsLeastSquares raw b βs) : ∃ w, IsLeastSquares raw' b' w ∧
      sse raw' b' w = sse raw b βs + βs k ^ 2 / (gram raw b)⁻¹ k k := by
  set G := gram raw b with hG
  set u : Vec ℝ (ncols b p) := G⁻¹ *ᵥ Pi.single k 1 with hudef
  have hGu : G *ᵥ u = Pi.single k 1 := by
    rw [hudef, mulVec_mulVec, mul_nonsing_inv _ hu, one_mulVec]
  have huk : u k = G⁻¹ k k := by rw [hudef, mulVec_single_one]; rfl
  have hune : u ≠ 0 := by
    intro h0
    rw [h0, mulVec_zero] at hGu
    have := congrFun hGu k
    simp at this
  have hupos : 0 < u k := by
    have := gram_pos hw hu hune
    rw [← hG, hGu] at this
    simpa using this
  set c := βs k / u k with hc
  set v : Vec ℝ (ncols b p) := βs + (-c) • u with hv
  have hvk : v k = 0 := by
    simp only [hv, Pi.add_apply, Pi.smul_apply, smul_eq_mul, hc]
    field_simp; ring
  have hscore0 := (isLeastSquares_iff hw βs).mp hs
  have hscore : scoreVec linG raw b v = c • Pi.single k 1 := by
    rw [hv, lin_score_add, hscore0, ← hG, mulVec_smul, hGu, zero_sub, neg_smul, neg_neg]
  have hsse : sse raw b v = sse raw b βs + βs k ^ 2 / u k := by
    rw [hv, sse_add, hscore0, zero_dotProduct, ← hG, mulVec_smul, hGu, smul_dotProduct,
      dotProduct_smul, dotProduct_single, hc]
    simp only [smul_eq_mul]
    field_simp; ring
  refine ⟨v ∘ ι, fun w => ?_, ?_⟩
  · rw [h.sse_ext, h.sse_ext, h.ext_comp hvk]
    have hw' : Function.extend ι w 0 = v + (Function.extend ι w 0 - v) := by abel
    rw [hw', sse_add v (Function.extend ι w 0 - v), hscore, smul_dotProduct, single_dotProduct, Pi.sub_apply, h.ext_k, hvk]
    have := gram_nonneg hw (Function.extend ι w 0 - v)
    simp only [sub_zero, mul_zero, smul_zero]
    linarith
  · rw [h.sse_ext, h.ext_comp hvk, hsse, huk]

end DropsColumn

/-- The deviance of the fit of the reduced model. -/
theorem DropsColumn.deviance {k : Fin (ncols b p)} {raw' : Dataset ℝ n p' false}
    {ι : Fin (ncols b' p') → Fin (ncols b p)} (h : DropsColumn raw b k raw' b' ι)
    (hs : LinSetting env raw std d options βs) (heps : env.eps = 0) {std' : Bool}
    {d' : Dataset ℝ n p' b'} (hd' : raw'.finalize std' b' = some d')
    {options' : FitOptions ℝ (ncols b' p')} (h1 : options'.l1 ≤ 0) (h2 : options'.l2 ≤ 0)
    (hm : 1 ≤ options'.maxIter) {E : Type} (e : FitError ℝ (ncols b' p') → E) :
    ((regression env Family.linear.glm d' options').map Fit.deviance).mapErr e
      = .ok (sse raw b βs + βs k ^ 2 / (gram raw b)⁻¹ k k) := by
  obtain ⟨w, hw, hsse⟩ := h.solution hs.weights hs.rank hs.solution
  obtain ⟨f', hf', hr, -⟩ := C57_exact_least_squares (βs := w) (options := options')
    ⟨hs.exact, hd', h1, h2, fun i => by rw [h.wt]; exact hs.weights i,
      h.rank hs.weights hs.rank, hw⟩ heps hm
  obtain ⟨h3, h4⟩ := C36_linear hd' hf'
  rw [hf']
  change Outcome.ok f'.deviance = _
  rw [h3, h4, hr, ← hsse]
  rfl

theorem drops_intercept (raw : Dataset ℝ n p false) :
    DropsColumn raw true (0 : Fin (p + 1)) raw false (Fin.succ : Fin p → Fin (p + 1)) where
  inj := Fin.succ_injective _
  range j := by
    refine Fin.cases ?_ (fun l => ?_) (j : Fin (p + 1))
    · simp
    · simp
  design _ _ := rfl
  y := rfl
  wt _ := rfl
  off _ := rfl

theorem drops_feature (raw : Dataset ℝ n (p + 1) false) (j : Fin (p + 1)) :
    DropsColumn raw true (j.succ : Fin (p + 2)) (dropFeature raw j) true
      ((j.succ : Fin (p + 2)).succAbove : Fin (p + 1) → Fin (p + 2)) where
  inj := Fin.succAbove_right_injective
  range l := by
    change l ∉ Set.range (Fin.succAbove (j.succ : Fin (p + 2))) ↔ _
    rw [Fin.range_succAbove]; simp
  design i l := by
    refine Fin.cases ?_ (fun l => ?_) (l : Fin (p + 1))
    · simp [design]
    · simp [design, dropFeature]
  y := rfl
  wt _ := rfl
  off _ := rfl

theorem drops_column (raw : Dataset ℝ n (p + 1) false) (j : Fin (p + 1)) :
    DropsColumn raw false (j : Fin (p + 1)) (dropFeature raw j) false
      (j.succAbove : Fin p → Fin (p + 1)) where
  inj := Fin.succAbove_right_injective
  range l := by
    change l ∉ Set.range (Fin.succAbove (j : Fin (p + 1))) ↔ _
    rw [Fin.range_succAbove]; simp
  design _ _ := rfl
  y := rfl
  wt _ := rfl
  off _ := rfl

/-- Removing column `k` raises the deviance by `β_k² / ((XᵀWX)⁻¹)_kk`. -/
theorem lin_devWithout (hs : LinSetting env raw std d options βs) (heps : env.eps = 0)
    (hm : 1 ≤ options.maxIter) {f : Fit ℝ n p b}
    (hf : regression env Family.linear.glm d options = .ok f) (k : Fin (ncols b p)) :
    f.devWithoutCovariate env k = .ok (sse raw b βs + βs k ^ 2 / (gram raw b)⁻¹ k k) := by
  cases b with
  | true =>
    refine Fin.cases ?_ (fun j => ?_) (k : Fin (p + 1))
    · obtain ⟨d', hd', he⟩ := C48_intercept hs.built hf
      rw [he]
      exact (drops_intercept raw).deviance hs heps hd' hs.noL1 hs.noL2 hm _
    · cases p with
      | zero => exact j.elim0
      | succ p =>
        obtain ⟨d', hd', β0, -, he⟩ := C48_feature hs.built hf j
        rw [he]
        exact (drops_feature raw j).deviance hs heps hd' hs.noL1 hs.noL2 hm _
  | false =>
    cases p with
    | zero => exact k.elim0
    | succ p =>
      cases p with
      | zero =>
        obtain ⟨d', hd', he⟩ := C48_only_column hs.built hs.noL1 hs.noL2 hf
        have hk : k = (0 : Fin 1) := Subsingleton.elim (α := Fin 1) _ _
        subst hk
        rw [he]
        exact (drops_column raw 0).deviance hs heps hd' hs.noL1 hs.noL2 hm _
      | succ p =>
        obtain ⟨d', hd', e, he⟩ := C48_column hs.built hs.noL1 hs.noL2 hf k
        rw [he]
        exact (drops_column raw k).deviance hs heps hd' hs.noL1 hs.noL2 hm e

/-- **C65**: for an unregularized Linear fit of full rank in exact arithmetic, with a positive
dispersion and positive residual degrees of freedom, `pvalue_exact` and `pvalue_wald` both succeed and
agree: the F test of dropping a column is the t test of its coefficient. -/
theorem C65_exact_eq_wald (hs : LinSetting env raw std d options βs) (heps : env.eps = 0)
    (hm : 1 ≤ options.maxIter) {f : Fit ℝ n p b}
    (hf : regression env Family.linear.glm d options = .ok f) (hφ : 0 < f.dispersion)
    (hn : 0 < f.ndf) (hl : ds.Lawful) (hsq : ds.SquareLaw) :
    ∃ v, f.pvalueExact ds env = .ok v ∧ f.pvalueWald ds env = .ok v := by
  have hgf : f.g = Family.linear.glm := (regression_coherent hf).1
  have hdisp : f.g.dispersed = .free := by rw [hgf]; rfl
  have hg := Family.lawfulAdj Family.linear
  have hres : f.result = βs := by
    obtain ⟨f', hf', hr, -⟩ := C57_exact_least_squares hs heps hm
    rw [hf] at hf'; cases hf'; exact hr
  set G := gram raw b with hG
  have hfish : fisherMat Family.linear.glm raw b f.result = G := lin_fisher _
  obtain ⟨cov, hcov⟩ := (C41_unregularized hg hs.built hf hs.exact hs.noL1 hs.noL2).2.mpr
    (by rw [hfish]; exact hs.rank)
  have hcoveq : ∀ j, cov j j = f.dispersion * G⁻¹ j j := by
    have h1 := (C41_unregularized hg hs.built hf hs.exact hs.noL1 hs.noL2).1 cov hcov
    obtain ⟨-, -, h3, -⟩ := C10_external hg hs.built hs.noL1 hf
    rw [h3, ridgeMat, max_eq_right hs.noL2, hfish] at h1
    simp only [zero_mul, onSlopes_zero, diagonal_zero, add_zero] at h1
    intro j
    have := congrFun (congrFun h1 j) j
    simpa using this
  have hz : f.waldZ env = .ok fun j => βs j / √(f.dispersion * G⁻¹ j j) := by
    unfold Fit.waldZ
    rw [hcov, ← hres]
    simp only [← hcoveq]
    rfl
  obtain ⟨sfT, hT⟩ := (hl.t_some _).mpr hn
  obtain ⟨sfF, hF⟩ := (hl.f_some 1 f.ndf).mpr ⟨one_pos, hn⟩
  refine ⟨fun j => 2 * sfT |βs j / √(f.dispersion * G⁻¹ j j)|, ?_, ?_⟩
  · refine seqOutcome_ok.mpr fun k => ?_
    rw [pvalueExactAt_free (lin_devWithout hs heps hm hf k) hdisp, hF]
    dsimp only
    rw [← hsq hT hF]
    obtain ⟨h3, h4⟩ := C36_linear hs.built hf
    have hpos : 0 ≤ G⁻¹ k k := by
      have h5 : (0:ℝ) ≤ (G⁻¹ *ᵥ Pi.single k 1) ⬝ᵥ (G *ᵥ (G⁻¹ *ᵥ Pi.single k 1)) := gram_nonneg hs.weights _
      rw [mulVec_mulVec, mul_nonsing_inv _ hs.rank, one_mulVec, dotProduct_single,
        mulVec_single_one, mul_one] at h5
      exact h5
    have hdev : f.deviance = sse raw b βs := by rw [h3, h4, hres]; rfl
    rw [hdev, div_pow, Real.sq_sqrt (mul_nonneg hφ.le hpos)]
    congr 2
    rw [add_sub_cancel_left, div_div, mul_comm]
  · rw [pvalueWald_free hz hdisp, hT]

theorem exLin_dispersion_pos (std : Bool) : ∃ (d : Dataset ℝ 3 1 true) (f : Fit ℝ 3 1 true),
    (exRaw ![0, 1, 4]).finalize std true = some d ∧
    regression (exactEnv 0 0) Family.linear.glm d (exOpts 0 0 none 1) = .ok f ∧
    0 < f.dispersion := by
  obtain ⟨d, hs⟩ := exLinSetting' std 0 le_rfl 0 1 none
  obtain ⟨f, hf, hr, -⟩ := C57_exact_least_squares hs rfl le_rfl
  have hd := hs.built
  have hN : obsCount (exRaw ![0, 1, 4]) = 4 := by
    rw [obsCount, Fin.sum_univ_three]; simp [Spec.freq, exRaw]; norm_num
  refine ⟨d, f, hd, hf, ?_⟩
  rw [C42_no_weights hd hf rfl rfl (by rw [hN]; norm_num), hN]
  obtain ⟨h1, h2⟩ := C36_linear hd hf
  rw [devianceOf, ← C36_deviance hd hf, h1, h2, hr]
  simp only [exRaw_totalWt, exRaw_linPred, Fin.sum_univ_three]
  simp [exRaw]; norm_num

/-- The example: both p-values of the three-point fit. -/
example (std : Bool) : ∃ (d : Dataset ℝ 3 1 true) (f : Fit ℝ 3 1 true) (v : Vec ℝ 2),
    (exRaw ![0, 1, 4]).finalize std true = some d ∧
    regression (exactEnv 0 0) Family.linear.glm d (exOpts 0 0 none 1) = .ok f ∧
    f.pvalueExact realDists (exactEnv 0 0) = .ok v ∧
    f.pvalueWald realDists (exactEnv 0 0) = .ok v := by
  obtain ⟨d, hs⟩ := exLinSetting' std 0 le_rfl 0 1 none
  obtain ⟨f, hf, hr, -⟩ := C57_exact_least_squares hs rfl le_rfl
  have hd := hs.built
  have hN : obsCount (exRaw ![0, 1, 4]) = 4 := by
    rw [obsCount, Fin.sum_univ_three]; simp [Spec.freq, exRaw]; norm_num
  obtain ⟨v, h1, h2⟩ := C65_exact_eq_wald hs rfl le_rfl hf (by
      rw [C42_no_weights hd hf rfl rfl (by rw [hN]; norm_num), hN]
      obtain ⟨h1, h2⟩ := C36_linear hd hf
      rw [devianceOf, ← C36_deviance hd hf, h1, h2, hr]
      simp only [exRaw_totalWt, exRaw_linPred, Fin.sum_univ_three]
      simp [exRaw]; norm_num)
    (by
      rw [(C47_ndf hd hf).2.2, obsCount, Fin.sum_univ_three]
      simp [Spec.freq, exRaw])
    realDists_lawful realDists_square
  exact ⟨d, f, v, hd, hf, h1, h2⟩

end GLM
