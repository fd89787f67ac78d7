/-
  Statistics of a fit in the arithmetic with not-a-number.
-/
import Verif.Lemmas.StrictBuild
import Verif.Lemmas.Saturation

namespace GLM
open Scalar NReal Spec
variable {n p : ℕ} {b : Bool}

/-- What the statistics need to know about a fit: its family, and that its fitted predictors are in
the domain of the link. -/
structure Fit.Regular (g : Glm NReal) (W : Set ℝ) (f : Fit ℝ n p b) : Prop where
  tracks : Tracks g f.g W
  lin : f.xLinPred = f.data.linearPredictorStd f.resultStd
  hat : f.yHat = f.g.mean f.xLinPred
  mem : ∀ i, f.xLinPred i ∈ W
  back : f.data.transformBeta f.result = f.resultStd
  scales : ∀ s, f.data.standardizer = some s → ∀ j, s.scales j ≠ 0

section
variable {g : Glm NReal} {W : Set ℝ} {f : Fit ℝ n p b} (hf : f.Regular g W) (env : Env ℝ)
include hf

theorem Fit.Regular.devianceTerms
    (hsat : ∀ i, g.logLikeSat (val (f.data.y i)) = val (f.g.logLikeSat (f.data.y i))) :
    (f.strict g).devianceTerms = Vec.strict f.devianceTerms := by
  have h1 : (f.strict g).data = f.data.strict := rfl
  have h2 : (f.strict g).resultStd = Vec.strict f.resultStd := rfl
  have h3 : (f.strict g).g = g := rfl
  have hm : ∀ i, f.data.linearPredictorStd f.resultStd i ∈ W := fun i => hf.lin ▸ hf.mem i
  unfold Fit.devianceTerms
  dsimp only
  rw [h1, h2, h3, hf.tracks.logLikeTerms f.data hm, ← Dataset.strict_applyVarWeights]
  congr 1
  funext i
  have : f.data.strict.y i = val (f.data.y i) := rfl
  rw [this, hsat i]
  rfl

theorem Fit.Regular.deviance
    (hsat : ∀ i, g.logLikeSat (val (f.data.y i)) = val (f.g.logLikeSat (f.data.y i))) :
    (f.strict g).deviance = val f.deviance := by
  unfold Fit.deviance
  rw [hf.devianceTerms hsat]
  exact f.data.strict_freqSum _

omit hf in
theorem Fit.strict_rank : (f.strict g).rank = val f.rank := rfl

omit hf in
theorem Fit.strict_sumLogWeights (hw : ∀ i, 0 < f.data.getVarianceWeights i) :
    (f.strict g).sumLogWeights = val f.sumLogWeights := by
  have h1 : (f.strict g).data = f.data.strict := rfl
  unfold Fit.sumLogWeights
  rw [h1, Dataset.strict_getVarianceWeights, ← Dataset.strict_freqSum]
  congr 1
  exact funext fun i => ln_val (hw i)

theorem Fit.Regular.aic
    (hsat : ∀ i, g.logLikeSat (val (f.data.y i)) = val (f.g.logLikeSat (f.data.y i)))
    (hw : ∀ i, 0 < f.data.getVarianceWeights i) : (f.strict g).aic = val f.aic := by
  unfold Fit.aic
  rw [hf.deviance hsat, Fit.strict_sumLogWeights hw, Fit.strict_rank]
  rfl

omit hf in
theorem Fit.strict_bic (hw : ∀ i, 0 < f.data.getVarianceWeights i) (hn : 0 < f.data.nObs) :
    (f.strict g).bic = val f.bic := by
  have h1 : (f.strict g).data = f.data.strict := rfl
  have h2 : (f.strict g).modelLike = val f.modelLike := rfl
  unfold Fit.bic
  rw [h1, Dataset.strict_nObs, ln_val hn, Fit.strict_sumLogWeights hw, Fit.strict_rank, h2]
  rfl

theorem Fit.Regular.dispersion
    (hsat : ∀ i, g.logLikeSat (val (f.data.y i)) = val (f.g.logLikeSat (f.data.y i)))
    (hw2 : ∀ w, f.data.weights = some w → f.data.freqSum (vmul w w) ≠ 0)
    (hn : f.g.dispersed = .free → f.rank < f.data.nEff) (hS : f.data.sumWeights ≠ 0) :
    (f.strict g).dispersion = val f.dispersion := by
  have h1 : (f.strict g).data = f.data.strict := rfl
  have h3 : (f.strict g).g = g := rfl
  unfold Fit.dispersion
  rw [h3, h1, hf.tracks.dispersed, hf.deviance hsat, f.data.strict_nEff hw2,
    Dataset.strict_sumWeights, Fit.strict_rank]
  cases hd : f.g.dispersed with
  | none => rfl
  | free =>
    have hlt := hn hd
    have hk : (0 : ℝ) ≤ f.rank := by simp [Fit.rank]
    have hne : f.data.nEff ≠ 0 := (lt_of_le_of_lt hk hlt).ne'
    have hle : ¬ (le f.data.nEff f.rank = true) := by rw [le_real]; exact not_le.mpr hlt
    have hle' : ¬ (le (val f.data.nEff) (val f.rank) = true) := hle
    have hsc : (1 - f.rank / f.data.nEff) * f.data.sumWeights ≠ 0 :=
      mul_ne_zero (sub_pos.mpr ((div_lt_one (lt_of_le_of_lt hk hlt)).mpr hlt)).ne' hS
    simp only [if_neg hle, if_neg hle']
    rw [div_val _ hne, one_eq, sub_val, mul_val, div_val _ hsc]

/-- With no degrees of freedom left the dispersion is not a number. -/
theorem Fit.Regular.dispersion_nan
    (hw2 : ∀ w, f.data.weights = some w → f.data.freqSum (vmul w w) ≠ 0)
    (hd : f.g.dispersed = .free) (hn : f.data.nEff ≤ f.rank) :
    (f.strict g).dispersion = nan := by
  have h1 : (f.strict g).data = f.data.strict := rfl
  have h3 : (f.strict g).g = g := rfl
  have hle : le (val f.data.nEff) (val f.rank) = true := by
    rw [le_val, le_real]; exact hn
  unfold Fit.dispersion
  rw [h3, h1, hf.tracks.dispersed, f.data.strict_nEff hw2, Fit.strict_rank, hd]
  simp only [if_pos hle]
  cases (f.strict g).deviance with
  | val a => exact div_val_zero a
  | nan => rfl

theorem Fit.Regular.fisherDataStd {β : Vec ℝ (ncols b p)}
    (h : ∀ i, f.data.linearPredictorStd β i ∈ W) :
    (f.strict g).fisherDataStd (Vec.strict β) = Mat.strict (f.fisherDataStd β) := by
  have h1 : (f.strict g).data = f.data.strict := rfl
  have h3 : (f.strict g).g = g := rfl
  have hX : f.data.strict.x = Mat.strict f.data.x := rfl
  unfold Fit.fisherDataStd
  dsimp only
  rw [h1, h3, Dataset.strict_linearPredictorStd, hf.tracks.adjustedVarianceDiag h,
    Dataset.strict_xConj, hX, ← dotM_strict]
  rfl

theorem Fit.Regular.fisherStd {β : Vec ℝ (ncols b p)}
    (h : ∀ i, f.data.linearPredictorStd β i ∈ W) :
    (f.strict g).fisherStd (Vec.strict β) = Mat.strict (f.fisherStd β) := by
  have h1 : (f.strict g).reg = f.reg.strict := rfl
  unfold Fit.fisherStd
  rw [h1, hf.fisherDataStd h, Reg.strict_irlsMat]

theorem Fit.Regular.fisher {β : Vec ℝ (ncols b p)}
    (h : ∀ i, f.data.linearPredictorStd (f.data.transformBeta β) i ∈ W) :
    (f.strict g).fisher (Vec.strict β) = Mat.strict (f.fisher β) := by
  have h1 : (f.strict g).data = f.data.strict := rfl
  unfold Fit.fisher
  rw [h1, Dataset.strict_transformBeta, hf.fisherStd h, Dataset.strict_inverseTransformFisher]

theorem Fit.Regular.memStd (i : Fin n) : f.data.linearPredictorStd f.resultStd i ∈ W :=
  hf.lin ▸ hf.mem i

theorem Fit.Regular.fisherStdInv :
    (f.strict g).fisherStdInv env.strict = (f.fisherStdInv env).map Mat.strict := by
  have h2 : (f.strict g).resultStd = Vec.strict f.resultStd := rfl
  unfold Fit.fisherStdInv
  rw [h2, hf.fisherStd hf.memStd, inv_strict]

theorem Fit.Regular.hatMat :
    (f.strict g).hat env.strict = (f.hat env).map Mat.strict := by
  have h1 : (f.strict g).data = f.data.strict := rfl
  have h3 : (f.strict g).g = g := rfl
  have h4 : (f.strict g).yHat = Vec.strict f.yHat := rfl
  have h5 : (f.strict g).xLinPred = Vec.strict f.xLinPred := rfl
  have hX : f.data.strict.x = Mat.strict f.data.x := rfl
  have hv : ∀ i, g.variance (Vec.strict f.yHat i) = val (f.g.variance (f.yHat i)) := by
    intro i
    have := hf.tracks.variance _ (hf.mem i)
    have e : f.yHat i = f.g.link.funcInv (f.xLinPred i) := by rw [hf.hat]; rfl
    rw [← e] at this
    exact this
  have he : ∀ i, g.link.dNatParam (Vec.strict f.xLinPred i) = val (f.g.link.dNatParam (f.xLinPred i)) :=
    fun i => hf.tracks.dNatParam _ (hf.mem i)
  unfold Fit.hat
  dsimp only
  rw [hf.fisherStdInv env, h1, h3, h4, h5]
  cases f.fisherStdInv env with
  | error e => rfl
  | ok m =>
    simp only [Except.map, bind, Except.bind, hv, he, pure, Except.pure, Dataset.strict_xConj, hX,
      Except.ok.injEq]
    have hr : (fun j i => Mat.strict f.data.xConj j i * val (f.g.link.dNatParam (f.xLinPred i)))
      = Mat.strict fun j i => f.data.xConj j i * f.g.link.dNatParam (f.xLinPred i) := rfl
    have hl : (fun i j => val (f.g.variance (f.yHat i)) * val (f.g.link.dNatParam (f.xLinPred i))
          * Mat.strict f.data.x i j)
      = Mat.strict fun i j => f.g.variance (f.yHat i) * f.g.link.dNatParam (f.xLinPred i)
          * f.data.x i j := rfl
    rw [hr, hl, dotM_strict, dotM_strict]

theorem Fit.Regular.leverage :
    (f.strict g).leverage env.strict = (f.leverage env).map Vec.strict := by
  unfold Fit.leverage
  rw [hf.hatMat env]
  cases f.hat env <;> rfl

omit hf in
theorem Fit.strict_residResp : (f.strict g).residResp = Vec.strict f.residResp := rfl

omit hf in
theorem Fit.strict_rss : (f.strict g).rss = val f.rss := by
  have h1 : (f.strict g).data = f.data.strict := rfl
  unfold Fit.rss
  rw [h1, Fit.strict_residResp, ← vsum_strict, ← Dataset.strict_applyTotalWeights]
  rfl

theorem Fit.Regular.residPear (hV : ∀ i, 0 < f.g.variance (f.yHat i))
    (hw : ∀ i, 0 ≤ varWt f.data i) :
    (f.strict g).residPear = Vec.strict f.residPear := by
  have h1 : (f.strict g).data = f.data.strict := rfl
  have h3 : (f.strict g).g = g := rfl
  have h4 : (f.strict g).yHat = Vec.strict f.yHat := rfl
  have hv : ∀ i, g.variance (Vec.strict f.yHat i) = val (f.g.variance (f.yHat i)) := by
    intro i
    have := hf.tracks.variance _ (hf.mem i)
    have e : f.yHat i = f.g.link.funcInv (f.xLinPred i) := by rw [hf.hat]; rfl
    rw [← e] at this
    exact this
  have hr : (fun i => recip (g.variance (Vec.strict f.yHat i)))
      = Vec.strict fun i => recip (f.g.variance (f.yHat i)) :=
    funext fun i => by rw [hv, recip_val (hV i).ne']; rfl
  unfold Fit.residPear
  dsimp only
  rw [h1, h3, h4, hr, Dataset.strict_applyVarWeights, Fit.strict_residResp]
  funext i
  have h0 : 0 ≤ f.data.applyVarWeights (fun i => recip (f.g.variance (f.yHat i))) i := by
    rw [Dataset.applyVarWeights_real]
    exact mul_nonneg (hw i) (one_div_nonneg.mpr (hV i).le)
  simp only [Vec.strict]
  rw [sqrt_val h0, mul_val]

theorem Fit.Regular.residDev
    (hsat : ∀ i, g.logLikeSat (val (f.data.y i)) = val (f.g.logLikeSat (f.data.y i)))
    (h0 : ∀ i, 0 ≤ f.devianceTerms i) :
    (f.strict g).residDev = Vec.strict f.residDev := by
  unfold Fit.residDev
  rw [hf.devianceTerms hsat, Fit.strict_residResp]
  funext i
  simp only [Vec.strict]
  rw [sqrt_val (h0 i)]
  rfl

theorem Fit.Regular.variance_val (i : Fin n) :
    g.variance (val (f.yHat i)) = val (f.g.variance (f.yHat i)) := by
  have := hf.tracks.variance _ (hf.mem i)
  have e : f.yHat i = f.g.link.funcInv (f.xLinPred i) := by rw [hf.hat]; rfl
  rwa [← e] at this

theorem Fit.Regular.residWork
    (hA : ∀ i, (f.g.link.adjustErrorsVariance (f.residResp i) (f.g.variance (f.yHat i))
      (f.xLinPred i)).2 ≠ 0) :
    (f.strict g).residWork = Vec.strict f.residWork := by
  have h3 : (f.strict g).g = g := rfl
  have h4 : ∀ i, (f.strict g).yHat i = val (f.yHat i) := fun _ => rfl
  have h5 : ∀ i, (f.strict g).xLinPred i = val (f.xLinPred i) := fun _ => rfl
  have h6 : ∀ i, (f.strict g).residResp i = val (f.residResp i) := fun _ => rfl
  funext i
  unfold Fit.residWork
  simp only [h3, h4, h5, h6, hf.variance_val, hf.tracks.adjustErrorsVariance _ (hf.mem i)]
  exact div_val _ (hA i)

theorem Fit.Regular.score {β : Vec ℝ (ncols b p)}
    (h : ∀ i, f.data.linearPredictorStd (f.data.transformBeta β) i ∈ W) :
    (f.strict g).score (Vec.strict β) = Vec.strict (f.score β) := by
  have h1 : (f.strict g).data = f.data.strict := rfl
  have h3 : (f.strict g).g = g := rfl
  have h7 : (f.strict g).reg = f.reg.strict := rfl
  have hy : f.data.strict.y = Vec.strict f.data.y := rfl
  unfold Fit.score
  dsimp only
  rw [h1, h3, h7, Dataset.strict_transformBeta, Dataset.strict_linearPredictorStd,
    hf.tracks.mean h, hy, vsub_strict]
  have hr : (fun i => g.link.adjustErrors (Vec.strict (vsub f.data.y
        (f.g.mean (f.data.linearPredictorStd (f.data.transformBeta β)))) i)
        (Vec.strict (f.data.linearPredictorStd (f.data.transformBeta β)) i))
      = Vec.strict fun i => f.g.link.adjustErrors (vsub f.data.y
        (f.g.mean (f.data.linearPredictorStd (f.data.transformBeta β))) i)
        (f.data.linearPredictorStd (f.data.transformBeta β) i) :=
    funext fun i => hf.tracks.adjustErrors _ (h i) _
  rw [hr, Dataset.strict_xConj, dotV_strict, Reg.strict_gradient,
    Dataset.strict_inverseTransformScore]

theorem Fit.Regular.lrTestAgainst {β : Vec ℝ (ncols b p)}
    (h : ∀ i, f.data.linearPredictorStd (f.data.transformBeta β) i ∈ W) :
    (f.strict g).lrTestAgainst (Vec.strict β) = val (f.lrTestAgainst β) := by
  have h1 : (f.strict g).data = f.data.strict := rfl
  have h2 : (f.strict g).modelLike = val f.modelLike := rfl
  have h3 : (f.strict g).g = g := rfl
  have h7 : (f.strict g).reg = f.reg.strict := rfl
  unfold Fit.lrTestAgainst
  dsimp only
  rw [h1, h2, h3, h7, Dataset.strict_transformBeta, hf.tracks.logLike' f.data h,
    Reg.strict_likelihood]
  rfl

theorem Fit.Regular.waldTestAgainst {β : Vec ℝ (ncols b p)}
    (h : ∀ i, f.data.linearPredictorStd (f.data.transformBeta β) i ∈ W) :
    (f.strict g).waldTestAgainst (Vec.strict β) = val (f.waldTestAgainst β) := by
  have h1 : (f.strict g).data = f.data.strict := rfl
  have h2 : (f.strict g).resultStd = Vec.strict f.resultStd := rfl
  unfold Fit.waldTestAgainst
  dsimp only
  rw [h1, h2, Dataset.strict_transformBeta, hf.fisherStd h, vsub_strict, dotV_strict, vdot_strict]

theorem Fit.Regular.scoreTestAgainst {β : Vec ℝ (ncols b p)}
    (h : ∀ i, f.data.linearPredictorStd (f.data.transformBeta β) i ∈ W) :
    (f.strict g).scoreTestAgainst env.strict (Vec.strict β)
      = (f.scoreTestAgainst env β).map val := by
  unfold Fit.scoreTestAgainst
  dsimp only
  rw [hf.fisher h, hf.score h, inv_strict]
  cases env.inv (f.fisher β) with
  | error e => rfl
  | ok m =>
    simp only [Except.map, bind, Except.bind, pure, Except.pure, dotV_strict, vdot_strict]

theorem Fit.Regular.fisherInv :
    (f.strict g).fisherInv env.strict = (f.fisherInv env).map Mat.strict := by
  have h2 : (f.strict g).result = Vec.strict f.result := rfl
  have h : ∀ i, f.data.linearPredictorStd (f.data.transformBeta f.result) i ∈ W := by
    rw [hf.back]; exact hf.memStd
  unfold Fit.fisherInv
  rw [h2, hf.fisher h, inv_strict]

theorem Fit.Regular.covariance (hphi : (f.strict g).dispersion = val f.dispersion) :
    (f.strict g).covariance env.strict = (f.covariance env).map Mat.strict := by
  have h1 : (f.strict g).data = f.data.strict := rfl
  have h2 : (f.strict g).resultStd = Vec.strict f.resultStd := rfl
  unfold Fit.covariance
  dsimp only
  rw [hphi, hf.fisherInv env, h1, h2, hf.fisherDataStd hf.memStd,
    Dataset.strict_inverseTransformFisher]
  cases f.fisherInv env with
  | error e => rfl
  | ok m =>
    simp only [Except.map, bind, Except.bind, pure, Except.pure, dotM_strict]
    rfl

theorem Fit.Regular.waldZ (hphi : (f.strict g).dispersion = val f.dispersion)
    (hc : ∀ c, f.covariance env = .ok c → ∀ j, 0 < c j j) :
    (f.strict g).waldZ env.strict = (f.waldZ env).map Vec.strict := by
  unfold Fit.waldZ
  rw [hf.covariance env hphi]
  cases h : f.covariance env with
  | error e => rfl
  | ok c =>
    have h2 : (f.strict g).result = Vec.strict f.result := rfl
    simp only [Except.map, bind, Except.bind, pure, Except.pure, Except.ok.injEq, h2]
    funext j
    have h0 := hc c h j
    have h1 : sqrt (c j j) ≠ 0 := (Real.sqrt_pos.mpr h0).ne'
    simp only [Vec.strict, Mat.strict]
    rw [sqrt_val h0.le, div_val _ h1]

theorem Fit.Regular.inflCoef (hl : ∀ l, f.leverage env = .ok l → ∀ i, l i ≠ 1) :
    (f.strict g).inflCoef env.strict = (f.inflCoef env).map Mat.strict := by
  have h1 : (f.strict g).data = f.data.strict := rfl
  have h3 : (f.strict g).g = g := rfl
  have h5 : ∀ i, (f.strict g).xLinPred i = val (f.xLinPred i) := fun _ => rfl
  have h6 : ∀ i, (f.strict g).residResp i = val (f.residResp i) := fun _ => rfl
  unfold Fit.inflCoef
  rw [hf.leverage env, hf.fisherInv env]
  cases h : f.leverage env with
  | error e => rfl
  | ok l =>
    cases f.fisherInv env with
    | error e => rfl
    | ok m =>
      simp only [Except.map, bind, Except.bind, pure, Except.pure, Except.ok.injEq, h1, h3, h5, h6,
        hf.tracks.adjustErrors _ (hf.mem _), Dataset.strict_xConjExt]
      rw [← dotM_strict]
      congr 1
      funext i j
      have h0 : -(l i) + 1 ≠ 0 := by
        intro h0
        exact hl l h i (by linarith)
      simp only [Mat.tr, Mat.strict, Vec.strict, one_eq, neg_val, add_val, div_val _ h0, mul_val]

theorem Fit.Regular.cooks (hV : ∀ i, 0 < f.g.variance (f.yHat i))
    (hw : ∀ i, 0 ≤ varWt f.data i) (hphi : (f.strict g).dispersion = val f.dispersion)
    (hne : f.rank * f.dispersion ≠ 0) (hl : ∀ l, f.leverage env = .ok l → ∀ i, l i ≠ 1) :
    (f.strict g).cooks env.strict = (f.cooks env).map Vec.strict := by
  unfold Fit.cooks
  rw [hf.leverage env]
  cases h : f.leverage env with
  | error e => rfl
  | ok l =>
    simp only [Except.map, bind, Except.bind, pure, Except.pure, Except.ok.injEq, hphi,
      Fit.strict_rank, hf.residPear hV hw]
    funext i
    have h0 : (1 - l i) * (1 - l i) ≠ 0 := by
      have : (1 : ℝ) - l i ≠ 0 := fun h0 => hl l h i (by linarith)
      exact mul_ne_zero this this
    simp only [Vec.strict, one_eq, sub_val, mul_val, div_val _ h0, div_val _ hne]

theorem Fit.Regular.residPearStd (hV : ∀ i, 0 < f.g.variance (f.yHat i))
    (hw : ∀ i, 0 ≤ varWt f.data i) (hphi : (f.strict g).dispersion = val f.dispersion)
    (h0 : ∀ l, f.leverage env = .ok l → ∀ i, 0 < (-(l i) + 1) * f.dispersion) :
    (f.strict g).residPearStd env.strict = (f.residPearStd env).map Vec.strict := by
  unfold Fit.residPearStd
  rw [hf.leverage env]
  cases h : f.leverage env with
  | error e => rfl
  | ok l =>
    simp only [Except.map, bind, Except.bind, pure, Except.pure, Except.ok.injEq, hphi,
      hf.residPear hV hw]
    funext i
    have h1 : sqrt ((-(l i) + 1) * f.dispersion) ≠ 0 := (Real.sqrt_pos.mpr (h0 l h i)).ne'
    simp only [Vec.strict, one_eq, neg_val, add_val, mul_val]
    rw [sqrt_val (h0 l h i).le, div_val _ h1]

theorem Fit.Regular.residDevStd
    (hsat : ∀ i, g.logLikeSat (val (f.data.y i)) = val (f.g.logLikeSat (f.data.y i)))
    (hdt : ∀ i, 0 ≤ f.devianceTerms i) (hphi : (f.strict g).dispersion = val f.dispersion)
    (h0 : ∀ l, f.leverage env = .ok l → ∀ i, 0 < (-(l i) + 1) * f.dispersion) :
    (f.strict g).residDevStd env.strict = (f.residDevStd env).map Vec.strict := by
  unfold Fit.residDevStd
  rw [hf.leverage env]
  cases h : f.leverage env with
  | error e => rfl
  | ok l =>
    simp only [Except.map, bind, Except.bind, pure, Except.pure, Except.ok.injEq, hphi,
      hf.residDev hsat hdt]
    funext i
    have h1 : sqrt ((-(l i) + 1) * f.dispersion) ≠ 0 := (Real.sqrt_pos.mpr (h0 l h i)).ne'
    simp only [Vec.strict, one_eq, neg_val, add_val, mul_val]
    rw [sqrt_val (h0 l h i).le, div_val _ h1]

theorem Fit.Regular.devianceTermsLoo
    (hsat : ∀ i, g.logLikeSat (val (f.data.y i)) = val (f.g.logLikeSat (f.data.y i)))
    (hV : ∀ i, 0 < f.g.variance (f.yHat i)) (hw : ∀ i, 0 ≤ varWt f.data i)
    (hl : ∀ l, f.leverage env = .ok l → ∀ i, l i ≠ 1) :
    (f.strict g).devianceTermsLoo env.strict = (f.devianceTermsLoo env).map Vec.strict := by
  unfold Fit.devianceTermsLoo
  rw [hf.leverage env]
  cases h : f.leverage env with
  | error e => rfl
  | ok l =>
    simp only [Except.map, bind, Except.bind, pure, Except.pure, Except.ok.injEq,
      hf.residPear hV hw, hf.devianceTerms hsat]
    funext i
    have h0 : (1 : ℝ) - l i ≠ 0 := fun h0 => hl l h i (by linarith)
    simp only [Vec.strict, one_eq, sub_val, two_val, add_val, mul_val, div_val _ h0]

omit hf in
theorem padded_dot_strict {m : ℕ} (x : Mat ℝ m p) (β : Vec ℝ (ncols b p)) :
    Mat.dotV (Dataset.padded b (Mat.strict x)) (Vec.strict β)
      = Vec.strict (Mat.dotV (Dataset.padded b x) β) := by
  rw [padded_strict, dotV_strict]

theorem Fit.Regular.predict {m : ℕ} (x : Mat ℝ m p) (off : Option (Vec ℝ m))
    (h : ∀ i : Fin m, (match off with
      | some off => vadd (Mat.dotV (Dataset.padded b x) f.result) off
      | none => Mat.dotV (Dataset.padded b x) f.result : Vec ℝ m) i ∈ W) :
    (f.strict g).predict (Mat.strict x) (off.map Vec.strict) = Vec.strict (f.predict x off) := by
  have h2 : (f.strict g).result = Vec.strict f.result := rfl
  have h3 : (f.strict g).g = g := rfl
  unfold Fit.predict
  rw [h2, h3]
  dsimp only
  rw [padded_dot_strict]
  cases off with
  | none => exact hf.tracks.mean h
  | some off => exact hf.tracks.mean h

theorem Fit.Regular.residPart
    (hA : ∀ i, (f.g.link.adjustErrorsVariance (f.residResp i) (f.g.variance (f.yHat i))
      (f.xLinPred i)).2 ≠ 0)
    (hS : b = true → vsum (f.data.applyTotalWeights (vfill 1)) ≠ 0) :
    (f.strict g).residPart = Mat.strict f.residPart := by
  have h1 : (f.strict g).data = f.data.strict := rfl
  have hwt : f.data.strict.applyTotalWeights (vfill 1)
      = Vec.strict (f.data.applyTotalWeights (vfill 1)) := f.data.strict_applyTotalWeights (vfill 1)
  have hc : (f.strict g).featureCoef = Vec.strict f.featureCoef := by cases b <;> rfl
  unfold Fit.residPart
  dsimp only
  rw [h1, hf.residWork hA, hc, Dataset.strict_xOrig, hwt, vsum_strict]
  cases b with
  | false => rfl
  | true =>
    funext i j
    simp only [if_true, Mat.strict, Vec.strict, mul_val, vsum_val, div_val _ (hS rfl), sub_val,
      add_val]

theorem Fit.Regular.dispersionLoo
    (hsat : ∀ i, g.logLikeSat (val (f.data.y i)) = val (f.g.logLikeSat (f.data.y i)))
    (hV : ∀ i, 0 < f.g.variance (f.yHat i)) (hw : ∀ i, 0 ≤ varWt f.data i)
    (hl : ∀ l, f.leverage env = .ok l → ∀ i, l i ≠ 1)
    (h1 : f.data.weights = none → f.data.freqs = none → f.ndf - 1 ≠ 0)
    (h2 : ∀ fr, f.data.weights = none → f.data.freqs = some fr → ∀ i, -(fr i - f.ndf) ≠ 0)
    (h3 : ∀ w, f.data.weights = some w → ∀ i,
      -(f.data.applyFreqWeights w i) + f.data.freqSum w ≠ 0 ∧
      -(f.data.applyFreqWeights w i) + f.data.freqSum w
        - (-(f.data.applyFreqWeights (vmul w w) i) + f.data.freqSum (vmul w w))
          / (-(f.data.applyFreqWeights w i) + f.data.freqSum w) * f.rank ≠ 0) :
    (f.strict g).dispersionLoo env.strict = (f.dispersionLoo env).map Vec.strict := by
  have e1 : (f.strict g).data = f.data.strict := rfl
  have e3 : (f.strict g).g = g := rfl
  have ew : f.data.strict.weights = f.data.weights.map Vec.strict := rfl
  have ef : f.data.strict.freqs = f.data.freqs.map Vec.strict := rfl
  have en : (f.strict g).ndf = val f.ndf := by
    unfold Fit.ndf
    rw [e1, Dataset.strict_nObs, Fit.strict_rank, sub_val]
  unfold Fit.dispersionLoo
  rw [e3, hf.tracks.dispersed, hf.leverage env]
  cases f.g.dispersed with
  | none => rfl
  | free =>
    cases h : f.leverage env with
    | error e => rfl
    | ok l =>
      have h0 : ∀ i, (1 : ℝ) - l i ≠ 0 := fun i h0 => hl l h i (by linarith)
      have ht : (fun i => (f.strict g).devianceTerms i + Vec.strict l i / (1 - Vec.strict l i)
            * ((f.strict g).residPear i * (f.strict g).residPear i))
          = Vec.strict fun i => f.devianceTerms i + l i / (1 - l i)
            * (f.residPear i * f.residPear i) := by
        rw [hf.devianceTerms hsat, hf.residPear hV hw]
        funext i
        simp only [Vec.strict, one_eq, sub_val, div_val _ (h0 i), mul_val, add_val]
      simp only [Except.map, bind, Except.bind, pure, Except.pure]
      rw [e1, ht, Dataset.strict_applyFreqWeights, hf.deviance hsat, ew, ef, en, Fit.strict_rank]
      cases hwt : f.data.weights with
      | none =>
        cases hfr : f.data.freqs with
        | none =>
          have := h1 hwt hfr
          simp only [Option.map_none, Vec.strict, one_eq, neg_val, add_val, sub_val, div_val _ this]
          rfl
        | some fr =>
          have := h2 fr hwt hfr
          simp only [Option.map_none, Option.map_some, Vec.strict, neg_val, add_val, sub_val,
            div_val _ (this _)]
          rfl
      | some w =>
        have h3' := h3 w hwt
        simp only [Option.map_some, vmul_strict, Dataset.strict_freqSum,
          Dataset.strict_applyFreqWeights]
        simp only [Vec.strict, neg_val, add_val, sub_val, mul_val, div_val _ (h3' _).1,
          div_val _ (h3' _).2]
        rfl

end

end GLM
