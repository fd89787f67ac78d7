/-
  C105: the information matrix, Wald's statistic and the residuals computed in floating-point arithmetic
  are close to the exact ones.
-/
import Verif.Spec.InfoAccuracy
import Verif.Props.DevianceFits

namespace GLM
open Spec Scalar Fl

section
variable {fmt : FloatFormat} {u tiny big : ℝ} {n p : ℕ} {b : Bool} {fam : Family}

/-! ### One observation -/

namespace Approx
variable {x y : Fl fmt} {v w e d : ℝ}

theorem times (acc : Accurate fmt u tiny big) (hx : Approx x v e) (hy : Approx y w d)
    (h : TimesFits big e d v w) : Approx (x * y) (v * w) (timesError u tiny e d v w) := hx.mul acc hy h

theorem over (acc : Accurate fmt u tiny big) (hx : Approx x v e) (hy : Approx y w d)
    (h : OverFits big e d v w) : Approx (x / y) (v / w) (overError u tiny e d v w) :=
  hx.div acc hy h.1 h.2

theorem dot (acc : Accurate fmt u tiny big) {m : ℕ} {a c : Vec (Fl fmt) m} {v w e d : Fin m → ℝ}
    (ha : ∀ i, Approx (a i) (v i) (e i)) (hc : ∀ i, Approx (c i) (w i) (d i)) (site : SumSite)
    (h : DotFits fmt u tiny big site e d v w) :
    Approx (vdotBy site a c) (∑ i, v i * w i) (dotError fmt u tiny site e d v w) := by
  obtain ⟨h1, h2⟩ := dot_rounded acc (fun i => (ha i).fin) (fun i => (hc i).fin) (fun i => (ha i).err)
    (fun i => (hc i).err) site h
  exact ⟨h1, h2⟩

/-- A natural number that is in the format. -/
theorem natural {N : ℕ} (h : fmt.rnd (N : ℝ) = (N : ℝ)) : Approx (ofNat N : Fl fmt) N 0 := by
  obtain ⟨h1, h2⟩ := finite_of_val (x := (ofNat N : Fl fmt)) (r := N) (by simp [ofNat_def, isNaN])
    (by rw [ofNat_def]; exact h)
  exact ⟨h1, by rw [h2]; simp⟩

end Approx

/-- The variance, from a mean with a known error. -/
theorem variance_approx (acc : Accurate fmt u tiny big) (fam : Family) {m : Fl fmt} {μ e : ℝ}
    (h : Approx m μ e) (hf : VarianceFits fmt u tiny big e fam μ) :
    Approx (fam.glm.variance m) (varianceFn fam μ) (varError u tiny e fam μ) := by
  have logistic : |1 - μ| + e < big ∧ TimesFits big e (afterRounding u tiny e (1 - μ)) μ (1 - μ) →
      Approx (m * (1 - m)) (μ * (1 - μ)) (timesError u tiny e (afterRounding u tiny e (1 - μ)) μ (1 - μ)) := by
    rintro ⟨h1, h2⟩
    have k := Approx.one.sub acc h (by rw [zero_add]; exact h1)
    rw [zero_add] at k
    exact h.times acc k h2
  have square : TimesFits big e e μ μ → Approx (m * m) (μ ^ 2) (timesError u tiny e e μ μ) := by
    intro h1
    rw [pow_two]
    exact h.times acc h h1
  have cube : TimesFits big e e μ μ ∧ TimesFits big (timesError u tiny e e μ μ) e (μ * μ) μ →
      Approx (m * m * m) (μ ^ 3) (timesError u tiny (timesError u tiny e e μ μ) e (μ * μ) μ) := by
    rintro ⟨h1, h2⟩
    rw [pow_succ, pow_two]
    exact (h.times acc h h1).times acc h h2
  cases fam with
  | linear => exact Approx.one
  | logisticLogit => exact logistic hf
  | logisticCloglog => exact logistic hf
  | poisson => exact h
  | binomial N =>
    obtain ⟨h0, h1, h2, h3⟩ := hf
    have k := (Approx.natural h0).sub acc h (by rw [zero_add]; exact h1)
    rw [zero_add] at k
    exact (h.times acc k h2).over acc (Approx.natural h0) h3
  | exponentialNegRec => exact square hf
  | exponentialLog => exact square hf
  | gammaNegRec => exact square hf
  | gammaLog => exact square hf
  | invGaussNegRecSq => exact cube hf
  | invGaussLog => exact cube hf

/-- The information of one observation, from a linear predictor with a known error. -/
theorem info_approx (acc : Accurate fmt u tiny big) (fam : Family) {w : Fl fmt} {η B : ℝ}
    (h : Approx w η B) (hf : InfoFits fmt u tiny big B fam η) :
    Approx (fam.glm.link.adjustVariance (fam.glm.variance (fam.glm.link.funcInv w)) w) (infoAt fam η)
      (infoError u tiny big B fam η) := by
  obtain ⟨h1, h2, h3, h4⟩ := hf
  obtain ⟨m1, m2⟩ := C86_mean acc fam h.fin h.err h1
  have k1 : Approx _ _ _ := ⟨m1, m2⟩
  have k2 := variance_approx acc fam k1 h3
  obtain ⟨s1, s2⟩ := slope_near acc fam h.fin h.err h2
  have k3 : Approx _ _ _ := ⟨s1, s2⟩
  have canonical : (∀ x : ℝ, (fam.glm (F := ℝ)).link.dNatParam x = 1) →
      Approx (fam.glm.variance (fam.glm.link.funcInv w)) (infoAt fam η)
        (varianceError u tiny big B fam η) := by
    intro hc
    unfold infoAt
    rw [hc, one_pow, one_mul]
    exact k2
  have general : TimesFits big (slopeError u tiny B fam η) (varianceError u tiny big B fam η)
        ((fam.glm (F := ℝ)).link.dNatParam η) (varianceFn fam (exactMean fam η)) ∧
      TimesFits big (timesError u tiny (slopeError u tiny B fam η) (varianceError u tiny big B fam η)
        ((fam.glm (F := ℝ)).link.dNatParam η) (varianceFn fam (exactMean fam η)))
        (slopeError u tiny B fam η)
        ((fam.glm (F := ℝ)).link.dNatParam η * varianceFn fam (exactMean fam η))
        ((fam.glm (F := ℝ)).link.dNatParam η) →
      Approx (fam.glm.link.dNatParam w * fam.glm.variance (fam.glm.link.funcInv w)
        * fam.glm.link.dNatParam w) (infoAt fam η)
        (timesError u tiny (timesError u tiny (slopeError u tiny B fam η) (varianceError u tiny big B fam η)
          ((fam.glm (F := ℝ)).link.dNatParam η) (varianceFn fam (exactMean fam η)))
          (slopeError u tiny B fam η)
          ((fam.glm (F := ℝ)).link.dNatParam η * varianceFn fam (exactMean fam η))
          ((fam.glm (F := ℝ)).link.dNatParam η)) := by
    rintro ⟨g1, g2⟩
    have e : infoAt fam η = (fam.glm (F := ℝ)).link.dNatParam η * varianceFn fam (exactMean fam η)
        * (fam.glm (F := ℝ)).link.dNatParam η := by
      unfold infoAt; ring
    rw [e]
    exact (k3.times acc k2 g1).times acc k3 g2
  cases fam with
  | logisticCloglog => exact h2.elim
  | exponentialLog => exact general h4
  | gammaLog => exact general h4
  | invGaussLog => exact general h4
  | linear => exact canonical fun _ => rfl
  | logisticLogit => exact canonical fun _ => rfl
  | poisson => exact canonical fun _ => rfl
  | binomial N => exact canonical fun _ => rfl
  | exponentialNegRec => exact canonical fun _ => rfl
  | gammaNegRec => exact canonical fun _ => rfl
  | invGaussNegRecSq => exact canonical fun _ => rfl

/-! ### The information matrix -/

variable {raw : Dataset (Fl fmt) n p false} {data : Dataset (Fl fmt) n p b}
  {β α : Vec (Fl fmt) (ncols b p)}

/-- The exact information matrix of the data, observation by observation. -/
theorem exact_fisher (fam : Family) (raw : Dataset (Fl fmt) n p false) (β : Vec (Fl fmt) (ncols b p))
    (j k : Fin (ncols b p)) : fisherMat fam.glm (exactData raw) b (fun j => real (β j)) j k
      = ∑ i, exactDesign raw b i j * totalWt (exactData raw) i * rowInfo fam raw b β i
          * exactDesign raw b i k := by
  unfold fisherMat meanAt rowInfo infoAt exactDesign
  refine Finset.sum_congr rfl fun i _ => ?_
  rw [exactData_linPred, variance_real, ← exactMean_real]
  ring

theorem plain_pred (hd : raw.finalize false b = some data) (β : Vec (Fl fmt) (ncols b p)) (i : Fin n) :
    data.linearPredictorStd β i = computedPred b raw.x raw.linearOffset β i := by
  rw [finalize_plain hd]
  unfold Dataset.linearPredictorStd computedPred
  cases raw.linearOffset <;> rfl

/-- The information matrix of the data. -/
theorem dataFisher_approx (acc : Accurate fmt u tiny big) (hd : raw.finalize false b = some data)
    {l2 : Fl fmt} {j k : Fin (ncols b p)} (hf : FisherFits u tiny big fam raw b l2 β j k) :
    Approx (Mat.dotM (fun j i => data.xConj j i
        * fam.glm.adjustedVarianceDiag (data.linearPredictorStd β) i) data.x j k)
      (fisherMat fam.glm (exactData raw) b (fun j => real (β j)) j k)
      (dataInfoError u tiny big fam raw b β j k) := by
  have hrow : ∀ i, Approx (fam.glm.adjustedVarianceDiag (data.linearPredictorStd β) i)
      (rowInfo fam raw b β i) (rowInfoError u tiny big fam raw b β i) := by
    intro i
    obtain ⟨h1, h2⟩ := computedPred_near acc (hf.pred i)
    unfold Glm.adjustedVarianceDiag Glm.mean
    rw [plain_pred hd]
    exact info_approx acc fam ⟨h1, h2⟩ (hf.info i)
  have hcol : ∀ i, Approx (data.xConj j i) (exactDesign raw b i j * totalWt (exactData raw) i)
      (colError u tiny raw b i j) := by
    intro i
    obtain ⟨h1, h2⟩ := col_near acc hd (hf.pred i).1 (fun w h => hf.weights w h i)
      (fun f h => hf.freqs f h i) j (hf.counted i) (hf.col i)
    exact ⟨h1, h2⟩
  have hx : ∀ i, Approx (data.x i k) (exactDesign raw b i k) 0 := by
    intro i
    obtain ⟨p1, p2⟩ := padded_finite (hf.pred i).1 b k
    have e : data.x i k = Dataset.padded b raw.x i k := by rw [finalize_plain hd]
    have p2 : real (Dataset.padded b raw.x i k) = exactDesign raw b i k := p2
    rw [e]
    exact ⟨p1, by rw [p2]; simp⟩
  have ht : ∀ i, Approx (data.xConj j i * fam.glm.adjustedVarianceDiag (data.linearPredictorStd β) i)
      (exactDesign raw b i j * totalWt (exactData raw) i * rowInfo fam raw b β i)
      (infoColError u tiny big fam raw b β j i) := fun i => (hcol i).times acc (hrow i) (hf.term i)
  have hs := hf.sum
  have e : dotError fmt u tiny (.matMat (ncols b p) (ncols b p) j k) (infoColError u tiny big fam raw b β j)
      (fun _ => 0) (fun i => exactDesign raw b i j * totalWt (exactData raw) i * rowInfo fam raw b β i)
      (fun i => exactDesign raw b i k) = dataInfoError u tiny big fam raw b β j k := by
    unfold dotError dataInfoError infoTermError infoSize
    simp only [add_zero, mul_zero]
  have key := Approx.dot acc ht hx (.matMat (ncols b p) (ncols b p) j k)
    (by unfold DotFits; rw [e]; exact hs)
  rw [e] at key
  rw [exact_fisher]
  exact key

/-- Adding the curvature of the L2 penalty. -/
theorem curvature_approx (acc : Accurate fmt u tiny big) (options : FitOptions (Fl fmt) (ncols b p))
    (h1 : ¬ 0 < real options.l1) (f1 : options.l1.isFinite) (f2 : options.l2.isFinite)
    {m : Mat (Fl fmt) (ncols b p) (ncols b p)} {j k : Fin (ncols b p)} {v e : ℝ} (h : Approx (m j k) v e)
    (hlt : |v + ridgeMat (real options.l2) (fun _ => 1) b j k| + e < big) :
    Approx ((getReg options).irlsMat m β j k) (v + ridgeMat (real options.l2) (fun _ => 1) b j k)
      (afterRounding u tiny e (v + ridgeMat (real options.l2) (fun _ => 1) b j k)) := by
  have g1 : gt options.l1 0 = false := by
    rw [Bool.eq_false_iff, ne_eq, gt_zero_real f1]; exact h1
  have hr : ridgeMat (real options.l2) (fun _ => 1) b j k
      = if j = k then strength b (real options.l2) j else 0 := by
    unfold ridgeMat strength
    rw [Matrix.diagonal_apply]
    simp only [one_pow, mul_one]
  rcases le_or_gt (real options.l2) 0 with h2 | h2
  · have g2 : gt options.l2 0 = false := by
      rw [Bool.eq_false_iff, ne_eq, gt_zero_real f2]; exact not_lt.mpr h2
    have e1 : (getReg options).irlsMat m β j k = m j k := by
      unfold getReg; simp only [g1, g2]; rfl
    rw [hr, strength_zero h2, ite_self, add_zero, e1]
    exact h.rounding acc
  · have g2 : gt options.l2 0 = true := (gt_zero_real f2).mpr h2
    have e1 : (getReg options).irlsMat m β j k = if j = k then m j k
        + (zeroFirstMaybe (vfill options.l2) : Vec (Fl fmt) (ncols b p)) j else m j k := by
      unfold getReg; simp only [g1, g2]; rfl
    rw [hr] at hlt ⊢
    rw [e1]
    by_cases hjk : j = k
    · simp only [if_pos hjk] at hlt ⊢
      obtain ⟨z1, z2⟩ := zeroFirst_real f2 h2 j
      have z : Approx ((zeroFirstMaybe (vfill options.l2) : Vec (Fl fmt) (ncols b p)) j)
          (strength b (real options.l2) j) 0 := ⟨z1, by rw [z2]; simp⟩
      have := h.add acc z (by rw [add_zero]; exact hlt)
      rwa [add_zero] at this
    · simp only [if_neg hjk, add_zero]
      exact h.rounding acc

variable {env : Env (Fl fmt)} {options : FitOptions (Fl fmt) (ncols b p)} {f : Fit (Fl fmt) n p b}

/-- The information matrix on the scale of the fit. -/
theorem fisherStd_approx (acc : Accurate fmt u tiny big) (hd : raw.finalize false b = some data)
    (h : regression env fam.glm data options = .ok f) (f1 : options.l1.isFinite)
    (h1 : ¬ 0 < real options.l1) {j k : Fin (ncols b p)}
    (hf : FisherFits u tiny big fam raw b options.l2 β j k) :
    Approx (f.fisherStd β j k) (exactInfo fam raw b (real options.l2) β j k)
      (fisherError u tiny big fam raw b (real options.l2) β j k) := by
  obtain ⟨hg, hdat, hopt, hc⟩ := regression_coherent h
  have hreg := hc.reg
  rw [hopt] at hreg
  have g1 : gt options.l1 0 = false := by
    rw [Bool.eq_false_iff, ne_eq, gt_zero_real f1]; exact h1
  have key := dataFisher_approx acc hd hf
  have := curvature_approx (β := β) acc options h1 f1 hf.strength
    (m := Mat.dotM (fun j i => data.xConj j i
        * fam.glm.adjustedVarianceDiag (data.linearPredictorStd β) i) data.x) key hf.total
  have e : f.fisherStd β = (getReg options).irlsMat (Mat.dotM (fun j i => data.xConj j i
        * fam.glm.adjustedVarianceDiag (data.linearPredictorStd β) i) data.x) β := by
    unfold Fit.fisherStd Fit.fisherDataStd
    have hr : f.reg = getReg options := by
      have hcase : getReg options = .null ∨ ∃ v, getReg options = .ridge v := by
        unfold getReg
        simp only [g1]
        cases gt options.l2 0
        · exact Or.inl rfl
        · exact Or.inr ⟨_, rfl⟩
      rcases hcase with hq | ⟨v, hq⟩ <;> rw [hq] at hreg ⊢ <;> generalize f.reg = r at hreg ⊢ <;>
        cases hreg <;> rfl
    rw [hg, hdat, hr]
  rw [e]
  exact this

/-- **C105** (information matrix).  For every family and link but the complementary log-log link, for finite
data without overflow, with any weights and offsets and in any order of summation, without
standardization and without an L1 penalty: every entry of the information matrix that a fit reports at
any coefficients is finite and within an explicit bound of the exact one. -/
theorem C105_fisher (acc : Accurate fmt u tiny big) (hd : raw.finalize false b = some data)
    (h : regression env fam.glm data options = .ok f) (f1 : options.l1.isFinite)
    (h1 : ¬ 0 < real options.l1) {j k : Fin (ncols b p)}
    (hf : FisherFits u tiny big fam raw b options.l2 β j k) :
    (f.fisher β j k).isFinite ∧
      |real (f.fisher β j k) - exactInfo fam raw b (real options.l2) β j k| ≤
        fisherError u tiny big fam raw b (real options.l2) β j k := by
  have key := fisherStd_approx acc hd h f1 h1 hf
  have e : f.fisher β = f.fisherStd β := by
    obtain ⟨hg, hdat, hopt, hc⟩ := regression_coherent h
    unfold Fit.fisher
    have t1 : data.transformBeta β = β := by rw [finalize_plain hd]; cases b <;> rfl
    have t2 : ∀ v, data.inverseTransformFisher v = v := by
      intro v; rw [finalize_plain hd]; cases b <;> rfl
    rw [hdat, t1, t2]
  rw [e]
  exact ⟨key.fin, key.err⟩

/-- **C105** (Wald's statistic). -/
theorem C105_wald (acc : Accurate fmt u tiny big) (hd : raw.finalize false b = some data)
    (h : regression env fam.glm data options = .ok f) (f1 : options.l1.isFinite)
    (h1 : ¬ 0 < real options.l1)
    (hf : WaldFits u tiny big fam raw b options.l2 f.result α) :
    (f.waldTestAgainst α).isFinite ∧
      |real (f.waldTestAgainst α) - exactWald fam raw b (real options.l2) f.result α| ≤
        waldError u tiny big fam raw b (real options.l2) f.result α := by
  obtain ⟨-, -, hr⟩ := plain_setting hd h
  obtain ⟨-, hdat, -, -⟩ := regression_coherent h
  have t1 : data.transformBeta α = α := by rw [finalize_plain hd]; cases b <;> rfl
  have hδ : ∀ k, Approx (vsub f.result α k) (shiftAt f.result α k)
      (afterRounding u tiny 0 (shiftAt f.result α k)) := by
    intro k
    have := (Approx.self (hf.finite k).1).sub acc (Approx.self (hf.finite k).2)
      (by rw [add_zero, add_zero]; exact hf.shift k)
    rwa [add_zero] at this
  have hrow : ∀ j, Approx ((f.fisherStd α).dotV (vsub f.result α) j)
      (∑ k, exactInfo fam raw b (real options.l2) α j k * shiftAt f.result α k)
      (waldRowError u tiny big fam raw b (real options.l2) f.result α j) := fun j =>
    Approx.dot acc (fun k => fisherStd_approx acc hd h f1 h1 (hf.fisher j k)) hδ _ (hf.row j)
  have e : f.waldTestAgainst α = vdot (vsub f.result α) ((f.fisherStd α).dotV (vsub f.result α)) := by
    unfold Fit.waldTestAgainst
    rw [hdat, t1, hr]
  rw [e]
  have := Approx.dot acc hδ hrow .dot hf.total
  exact ⟨this.fin, this.err⟩

/-! ### Residuals -/

theorem plain_fit (hd : raw.finalize false b = some data) (h : regression env fam.glm data options = .ok f)
    (i : Fin n) : f.xLinPred i = computedPred b raw.x raw.linearOffset f.result i ∧
      f.yHat i = fam.glm.link.funcInv (computedPred b raw.x raw.linearOffset f.result i) ∧
      f.residResp i = raw.y i - fam.glm.link.funcInv (computedPred b raw.x raw.linearOffset f.result i) := by
  obtain ⟨-, -, hr⟩ := plain_setting hd h
  obtain ⟨hg, hdat, -, hc⟩ := regression_coherent h
  have e1 : f.xLinPred i = computedPred b raw.x raw.linearOffset f.result i := by
    rw [hc.xLinPred, hdat, hr, plain_pred hd]
  have e2 : f.yHat i = fam.glm.link.funcInv (computedPred b raw.x raw.linearOffset f.result i) := by
    rw [hc.yHat, hg]
    unfold Glm.mean
    rw [e1]
  refine ⟨e1, e2, ?_⟩
  unfold Fit.residResp vsub
  rw [e2, hdat, finalize_plain hd]

theorem resp_approx (acc : Accurate fmt u tiny big) {i : Fin n} (hf : ResidFits u tiny big fam raw b β i) :
    Approx (raw.y i - fam.glm.link.funcInv (computedPred b raw.x raw.linearOffset β i))
      (rowResid fam raw b β i) (rowResidError u tiny big fam raw b β i) := by
  obtain ⟨h1, h2⟩ := computedPred_near acc hf.pred
  obtain ⟨m1, m2⟩ := C86_mean acc fam h1 h2 hf.mean
  have k : Approx _ _ _ := ⟨m1, m2⟩
  have := (Approx.self hf.y).sub acc k (by rw [zero_add]; exact hf.resid)
  rw [zero_add] at this
  exact this

/-- **C105** (response residuals), for every family and link. -/
theorem C105_resp (acc : Accurate fmt u tiny big) (hd : raw.finalize false b = some data)
    (h : regression env fam.glm data options = .ok f) {i : Fin n}
    (hf : ResidFits u tiny big fam raw b f.result i) :
    (f.residResp i).isFinite ∧
      |real (f.residResp i) - rowResid fam raw b f.result i| ≤ rowResidError u tiny big fam raw b f.result i := by
  rw [(plain_fit hd h i).2.2]
  have := resp_approx acc hf
  exact ⟨this.fin, this.err⟩

/-- **C105** (Pearson residuals), for every family and link. -/
theorem C105_pearson (acc : Accurate fmt u tiny big) (hd : raw.finalize false b = some data)
    (h : regression env fam.glm data options = .ok f) {i : Fin n}
    (hf : PearsonFits u tiny big fam raw b f.result i) :
    (f.residPear i).isFinite ∧
      |real (f.residPear i) - exactPearson fam raw b f.result i| ≤
        pearsonError u tiny big fam raw b f.result i := by
  obtain ⟨e1, e2, e3⟩ := plain_fit hd h i
  obtain ⟨hg, hdat, -, -⟩ := regression_coherent h
  obtain ⟨h1, h2⟩ := computedPred_near acc hf.resid.pred
  obtain ⟨m1, m2⟩ := C86_mean acc fam h1 h2 hf.resid.mean
  have k : Approx _ _ _ := ⟨m1, m2⟩
  have kv := variance_approx acc fam k hf.var
  have ki : Approx (recip (fam.glm.variance (f.yHat i))) (1 / rowVar fam raw b f.result i)
      (invVarError u tiny big fam raw b f.result i) := by
    rw [e2]
    exact Approx.one.over acc kv hf.inverse
  have ks := applyVar_approx (v := fun i => recip (fam.glm.variance (f.yHat i)))
    (s := fun i => 1 / rowVar fam raw b f.result i) (e := invVarError u tiny big fam raw b f.result)
    acc hf.weights i ki hf.scale
  have kr := ks.sqrt acc hf.positive hf.root
  have kp := kr.times acc (resp_approx acc hf.resid) hf.product
  have e : f.residPear i = sqrt (raw.applyVarWeights (fun i => recip (fam.glm.variance (f.yHat i))) i)
      * (raw.y i - fam.glm.link.funcInv (computedPred b raw.x raw.linearOffset f.result i)) := by
    unfold Fit.residPear
    simp only [hg, hdat, e3]
    unfold Dataset.applyVarWeights
    rw [finalize_plain hd]
  have ev : exactPearson fam raw b f.result i = pearRoot fam raw b f.result i * rowResid fam raw b f.result i := by
    unfold exactPearson pearRoot
    rw [mul_one_div, Real.sqrt_div hf.weight]
    ring
  rw [e, ev]
  exact ⟨kp.fin, kp.err⟩

/-- **C105** (working residuals), for every family and link but the complementary log-log link. -/
theorem C105_working (acc : Accurate fmt u tiny big) (hd : raw.finalize false b = some data)
    (h : regression env fam.glm data options = .ok f) {i : Fin n}
    (hf : WorkingFits u tiny big fam raw b f.result i) :
    (f.residWork i).isFinite ∧
      |real (f.residWork i) - exactWorking fam raw b f.result i| ≤
        workingError u tiny big fam raw b f.result i := by
  obtain ⟨e1, e2, e3⟩ := plain_fit hd h i
  obtain ⟨hg, -, -, -⟩ := regression_coherent h
  obtain ⟨h1, h2⟩ := computedPred_near acc hf.resid.pred
  have ki := info_approx acc fam ⟨h1, h2⟩ hf.info
  obtain ⟨w1, w2⟩ := C96_work acc fam hf.resid.y h1 h2 hf.resid.mean hf.info.2.1 hf.resid.resid hf.work
  have kw : Approx _ (rowWork fam raw b f.result i) (rowWorkError u tiny big fam raw b f.result i) := ⟨w1, w2⟩
  have key := kw.over acc ki hf.quotient
  have e : f.residWork i = fam.glm.link.adjustErrors
      (raw.y i - fam.glm.link.funcInv (computedPred b raw.x raw.linearOffset f.result i))
      (computedPred b raw.x raw.linearOffset f.result i)
      / fam.glm.link.adjustVariance (fam.glm.variance (fam.glm.link.funcInv
        (computedPred b raw.x raw.linearOffset f.result i)))
        (computedPred b raw.x raw.linearOffset f.result i) := by
    unfold Fit.residWork
    rw [hg, e1, e2, e3]
    cases fam <;> rfl
  have ev : exactWorking fam raw b f.result i = rowWork fam raw b f.result i / rowInfo fam raw b f.result i := by
    have h0 : rowInfo fam raw b f.result i ≠ 0 := abs_pos.mp (ki.nonneg.trans_lt hf.quotient.1)
    unfold rowInfo infoAt at h0
    unfold exactWorking rowWork exactWork rowInfo infoAt rowVar rowResid rowMean
    have hd0 : (fam.glm (F := ℝ)).link.dNatParam (exactPred b raw.x raw.linearOffset f.result i) ≠ 0 := by
      intro h; rw [h] at h0; simp at h0
    have hv0 : varianceFn fam (exactMean fam (exactPred b raw.x raw.linearOffset f.result i)) ≠ 0 := by
      intro h; rw [h] at h0; simp at h0
    field_simp
  rw [e, ev]
  exact ⟨key.fin, key.err⟩

end
end GLM
