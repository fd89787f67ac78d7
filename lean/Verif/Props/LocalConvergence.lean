/-
  C90: fits started close to the solution converge to it.
-/
import Verif.Spec.Local
import Verif.Lemmas.Local
import Verif.Props.RidgeLinear
import Verif.Props.Gradient
import Verif.Props.Ascent

namespace GLM
open Spec Matrix Filter Topology
variable {n p : ℕ} {b : Bool} {env : Env ℝ} {raw : Dataset ℝ n p false} {std : Bool}
  {d : Dataset ℝ n p b} {fam : Family} {βs : Vec ℝ (ncols b p)} {l2 : ℝ} {o : Fin n → ℝ}

/-- The standing assumptions: exact arithmetic, a valid family, a built dataset with an observation,
non-negative weights and identified coefficients (by the data, or by the L2 penalty), and a zero `βs` of
the penalized score at which every observation of positive weight has an observed information `o i`
that is positive and less than twice the (epsilon-augmented) expected information. -/
structure LocalSetting (env : Env ℝ) (fam : Family) (raw : Dataset ℝ n p false) (std : Bool)
    (d : Dataset ℝ n p b) (l2 : ℝ) (βs : Vec ℝ (ncols b p)) (o : Fin n → ℝ) : Prop where
  exact : env.Exact
  valid : ValidFamily fam
  built : raw.finalize std b = some d
  obs : 0 < n
  weights : ∀ i, 0 ≤ totalWt raw i
  ident : IsUnit (gram raw b).det ∨ (0 < l2 ∧ (b = true → ∃ i, 0 < totalWt raw i))
  admissible : Admissible fam raw b βs
  score : penScore fam.glm raw b 0 l2 (scale d) βs = 0
  info : ∀ i, IsObsInfo fam.glm (raw.y i) (linPred raw b βs i) (o i)
  info_pos : ∀ i, 0 < totalWt raw i → 0 < o i
  info_lt : ∀ i, 0 < totalWt raw i → o i < 2 * (expInfo fam.glm (linPred raw b βs i) + env.eps)

/-! ### Ignored L1 strengths -/

theorem penalty_l1_nonpos {l1 : ℝ} (h : l1 ≤ 0) (l2 : ℝ) (σ : Fin p → ℝ) (b : Bool) :
    penalty l1 l2 σ b = penalty 0 l2 σ b := by
  funext β; simp only [penalty, max_eq_right h, max_self]

theorem penLogLik_noL1 {g : Glm ℝ} {l1 : ℝ} (h : l1 ≤ 0) (l2 : ℝ) (σ : Fin p → ℝ) :
    penLogLik g raw b l1 l2 σ = penLogLik g raw b 0 l2 σ := by
  funext β; simp only [penLogLik, penalty_l1_nonpos h]

theorem penScore_noL1 {g : Glm ℝ} {l1 : ℝ} (h : l1 ≤ 0) (l2 : ℝ) (σ : Fin p → ℝ) :
    penScore g raw b l1 l2 σ = penScore g raw b 0 l2 σ := by
  funext β j; simp only [penScore, max_eq_right h, max_self]

/-! ### The curvature at the solution -/

/-- Observed information. -/
noncomputable def obsInfo (raw : Dataset ℝ n p false) (b : Bool) (o : Fin n → ℝ) :
    Matrix (Fin (ncols b p)) (Fin (ncols b p)) ℝ :=
  fun j k => ∑ i, totalWt raw i * o i * design b raw.x i j * design b raw.x i k

/-- Observed information plus the curvature of the penalty. -/
noncomputable def obsMat (raw : Dataset ℝ n p false) (b : Bool) (o : Fin n → ℝ) (l2 : ℝ) (σ : Fin p → ℝ) :
    Matrix (Fin (ncols b p)) (Fin (ncols b p)) ℝ := obsInfo raw b o + ridgeMat l2 σ b

theorem qform_obsMat (o : Fin n → ℝ) (l2 : ℝ) (σ : Fin p → ℝ) (x : Vec ℝ (ncols b p)) :
    qform (obsMat raw b o l2 σ) x = ∑ i, totalWt raw i * o i * (∑ j, design b raw.x i j * x j) ^ 2
      + ∑ j, max l2 0 * σ j ^ 2 * slopes b x j ^ 2 := by
  rw [qform, obsMat, add_mulVec, dotProduct_add, quad_ridge]
  congr 1
  exact quad_weighted _ _ _

theorem obsMat_symm (o : Fin n → ℝ) (l2 : ℝ) (σ : Fin p → ℝ) : (obsMat raw b o l2 σ).IsSymm := by
  refine IsSymm.add ?_ ridgeMat_symm
  ext j k
  simp only [transpose_apply, obsInfo]
  exact Finset.sum_congr rfl fun i _ => by ring

/-- Changing weights by positive factors keeps the form positive. -/
theorem weighted_pos (hw : ∀ i, 0 ≤ totalWt raw i) {c : Fin n → ℝ}
    (hc : ∀ i, 0 < totalWt raw i → 0 < c i) {q : Fin n → ℝ} (hq : ∀ i, 0 ≤ q i) {r : ℝ} (hr : 0 ≤ r)
    (h : 0 < ∑ i, totalWt raw i * q i + r) : 0 < ∑ i, totalWt raw i * c i * q i + r := by
  have h1 : ∀ i, 0 ≤ totalWt raw i * c i * q i := fun i => by
    rcases (hw i).eq_or_lt with h0 | h0
    · rw [← h0]; simp
    · exact mul_nonneg (mul_nonneg (hw i) (hc i h0).le) (hq i)
  have hA := Finset.sum_nonneg fun i (_ : i ∈ Finset.univ) => h1 i
  refine lt_of_le_of_ne (add_nonneg hA hr) fun h0 => h.ne' ?_
  have hA0 : ∑ i, totalWt raw i * c i * q i = 0 := by linarith
  have hr0 : r = 0 := by linarith
  rw [hr0, add_zero]
  rw [Finset.sum_eq_zero_iff_of_nonneg fun i _ => h1 i] at hA0
  refine Finset.sum_eq_zero fun i hi => ?_
  rcases (hw i).eq_or_lt with h0 | h0
  · rw [← h0, zero_mul]
  · have := hA0 i hi
    rw [mul_assoc, mul_left_comm] at this
    exact (mul_eq_zero.mp this).resolve_left (hc i h0).ne'

theorem linPred_continuous (raw : Dataset ℝ n p false) (b : Bool) (i : Fin n) :
    Continuous fun β : Vec ℝ (ncols b p) => linPred raw b β i := by
  simp only [linPred]
  fun_prop

theorem admissible_eventually (ha : Admissible fam raw b βs) :
    ∀ᶠ β in 𝓝 βs, Admissible fam raw b β :=
  eventually_all.mpr fun i =>
    (linPred_continuous raw b i).continuousAt.eventually_mem ((predDom_isOpen fam).mem_nhds (ha i))

theorem dNatParam_continuous (fam : Family) : Continuous (fam.glm (F := ℝ)).link.dNatParam := by
  have hfun : (fam.glm (F := ℝ)).link.dNatParam = fun w => (fam.glm (F := ℝ)).link.dNatParam w := rfl
  rw [hfun]
  simp only [dNatParam_real]
  cases fam
  case logisticCloglog =>
    refine Continuous.div (by fun_prop) (by fun_prop) fun w => ?_
    have : Real.exp (-Real.exp w) < 1 := by
      rw [Real.exp_lt_one_iff]; linarith [Real.exp_pos w]
    linarith
  all_goals fun_prop

theorem variance_continuous (fam : Family) : Continuous (fam.glm (F := ℝ)).variance := by
  have hfun : (fam.glm (F := ℝ)).variance = fun w => (fam.glm (F := ℝ)).variance w := rfl
  rw [hfun]
  simp only [variance_real]
  cases fam <;> simp only [varianceFn] <;> fun_prop

theorem expInfo_continuousAt (hv : ValidFamily fam) {w : ℝ} (hw : w ∈ predDom fam) :
    ContinuousAt (expInfo fam.glm) w :=
  ((dNatParam_continuous fam).continuousAt.pow 2).mul
    ((variance_continuous fam).continuousAt.comp (funcInv_hasDerivAt fam hv hw).continuousAt)

theorem newtonMat_apply (eps l2 : ℝ) (σ : Fin p → ℝ) (g : Glm ℝ) (β : Vec ℝ (ncols b p))
    (j k : Fin (ncols b p)) : newtonMat eps g raw b l2 σ β j k
      = ∑ i, totalWt raw i * expInfo g (linPred raw b β i) * design b raw.x i j * design b raw.x i k
        + eps * gram raw b j k + ridgeMat l2 σ b j k := by
  simp only [newtonMat, Matrix.add_apply, Matrix.smul_apply, smul_eq_mul, fisherMat, expInfo, meanAt, mul_assoc]

theorem newtonMat_continuousAt (hv : ValidFamily fam) (ha : Admissible fam raw b βs) (eps l2 : ℝ)
    (σ : Fin p → ℝ) : ContinuousAt (newtonMat eps fam.glm raw b l2 σ) βs := by
  refine continuousAt_pi.mpr fun j => continuousAt_pi.mpr fun k => ?_
  simp only [newtonMat_apply]
  refine ContinuousAt.add (ContinuousAt.add ?_ continuousAt_const) continuousAt_const
  refine tendsto_finsetSum _ fun i _ => ?_
  refine Tendsto.mul (Tendsto.mul (Tendsto.mul tendsto_const_nhds ?_) tendsto_const_nhds)
    tendsto_const_nhds
  exact (expInfo_continuousAt hv (ha i)).comp_of_eq (linPred_continuous raw b i).continuousAt rfl

/-- The derivative of the penalized score. -/
theorem penScore_hasFDerivAt
    (hinfo : ∀ i, IsObsInfo fam.glm (raw.y i) (linPred raw b βs i) (o i)) (l2 : ℝ) (σ : Fin p → ℝ) :
    HasFDerivAt (penScore fam.glm raw b 0 l2 σ) (matCLM (-(obsMat raw b o l2 σ))) βs := by
  rw [hasFDerivAt_pi']
  intro j
  have h1 := isGradientAt_linPred_sum (raw := raw) (b := b) (β := βs)
    (φ := fun i w => totalWt raw i * ((fam.glm (F := ℝ)).link.dNatParam w
      * (raw.y i - (fam.glm (F := ℝ)).link.funcInv w)) * design b raw.x i j)
    fun i => ((hinfo i).const_mul (totalWt raw i)).mul_const (design b raw.x i j)
  have e : (fun β => scoreVec fam.glm raw b β j) = fun β => ∑ i, totalWt raw i *
      ((fam.glm (F := ℝ)).link.dNatParam (linPred raw b β i)
        * (raw.y i - (fam.glm (F := ℝ)).link.funcInv (linPred raw b β i))) * design b raw.x i j := by
    funext β
    simp only [scoreVec, meanAt, mul_assoc]
  rw [← e] at h1
  have h2 := isGradientAt_sub h1 (ridge_isGradientAt (l1 := 0) (l2 := l2) (σ := σ) le_rfl βs j)
  unfold IsGradientAt at h2
  refine h2.congr_fderiv ?_
  refine ContinuousLinearMap.ext fun x => ?_
  simp only [_root_.sum_apply, _root_.smul_apply, ContinuousLinearMap.proj_apply,
    ContinuousLinearMap.comp_apply, matCLM_apply, smul_eq_mul, neg_mulVec, Pi.neg_apply, mulVec,
    dotProduct, ← Finset.sum_neg_distrib]
  refine Finset.sum_congr rfl fun k _ => ?_
  rw [obsMat, Matrix.add_apply, Pi.sub_apply, ← neg_mul]
  congr 1
  rw [neg_add, ← sub_eq_add_neg, obsInfo, ← Finset.sum_neg_distrib]
  congr 1
  exact Finset.sum_congr rfl fun i _ => by ring

namespace LocalSetting
variable (h : LocalSetting env fam raw std d l2 βs o)
include h

theorem base_pos {x : Vec ℝ (ncols b p)} (hx : x ≠ 0) :
    0 < ∑ i, totalWt raw i * (∑ j, design b raw.x i j * x j) ^ 2
      + ∑ j, max l2 0 * scale d j ^ 2 * slopes b x j ^ 2 := by
  have := ridgeCurv_pos (l2 := l2) h.weights (Dataset.scale_pos h.built) h.ident hx
  rwa [ridgeCurv, add_mulVec, dotProduct_add, quad_gram, quad_ridge] at this

omit h in
theorem ridge_part_nonneg (l2 : ℝ) (σ : Fin p → ℝ) (x : Vec ℝ (ncols b p)) :
    0 ≤ ∑ j, max l2 0 * σ j ^ 2 * slopes b x j ^ 2 := Finset.sum_nonneg fun _ _ =>
    mul_nonneg (mul_nonneg (le_max_right _ _) (sq_nonneg _)) (sq_nonneg _)

theorem curv_pos {x : Vec ℝ (ncols b p)} (hx : x ≠ 0) :
    0 < qform (obsMat raw b o l2 (scale d)) x := by
  rw [qform_obsMat]
  exact weighted_pos h.weights h.info_pos (fun i => sq_nonneg _) (ridge_part_nonneg _ _ _)
    (h.base_pos hx)

omit h in
theorem qform_newton (eps : ℝ) (x β : Vec ℝ (ncols b p)) (σ : Fin p → ℝ) :
    qform (newtonMat eps fam.glm raw b l2 σ β) x
      = ∑ i, totalWt raw i * (expInfo fam.glm (linPred raw b β i) + eps)
          * (∑ j, design b raw.x i j * x j) ^ 2
        + ∑ j, max l2 0 * σ j ^ 2 * slopes b x j ^ 2 := by
  rw [qform, quad_newton]; rfl

theorem curv_lt {x : Vec ℝ (ncols b p)} (hx : x ≠ 0) :
    qform (obsMat raw b o l2 (scale d)) x
      < 2 * qform (newtonMat env.eps fam.glm raw b l2 (scale d) βs) x := by
  have := weighted_pos h.weights
    (c := fun i => 2 * (expInfo fam.glm (linPred raw b βs i) + env.eps) - o i)
    (fun i hi => sub_pos.mpr (h.info_lt i hi)) (fun i => sq_nonneg (∑ j, design b raw.x i j * x j))
    (ridge_part_nonneg l2 (scale d) x) (h.base_pos hx)
  rw [qform_newton, qform_obsMat]
  have e : ∑ i, totalWt raw i * (2 * (expInfo fam.glm (linPred raw b βs i) + env.eps) - o i)
      * (∑ j, design b raw.x i j * x j) ^ 2
      = 2 * ∑ i, totalWt raw i * (expInfo fam.glm (linPred raw b βs i) + env.eps)
          * (∑ j, design b raw.x i j * x j) ^ 2
        - ∑ i, totalWt raw i * o i * (∑ j, design b raw.x i j * x j) ^ 2 := by
    rw [Finset.mul_sum, ← Finset.sum_sub_distrib]
    exact Finset.sum_congr rfl fun i _ => by ring
  rw [e] at this
  linarith

theorem det_unit : IsUnit (newtonMat env.eps fam.glm raw b l2 (scale d) βs).det :=
  isUnit_of_pos fun x hx => by
    have h1 := h.curv_pos hx
    have h2 := h.curv_lt hx
    rw [← qform]
    linarith

/-- The Newton iteration near the solution. -/
theorem eventually_step {ρ₀ ρ : ℝ} (hρ₀ : 0 ≤ ρ₀) (hρ : ρ₀ < ρ)
    (hc : ∀ x y, newtonMat env.eps fam.glm raw b l2 (scale d) βs *ᵥ y
        = obsMat raw b o l2 (scale d) *ᵥ x →
      qform (obsMat raw b o l2 (scale d)) (x - y) ≤ ρ₀ * qform (obsMat raw b o l2 (scale d)) x) :
    ∀ᶠ β in 𝓝 βs, IsUnit (newtonMat env.eps fam.glm raw b l2 (scale d) β).det ∧
      qform (obsMat raw b o l2 (scale d)) (newtonMap (newtonMat env.eps fam.glm raw b l2 (scale d))
          (penScore fam.glm raw b 0 l2 (scale d)) β - βs)
        ≤ ρ * qform (obsMat raw b o l2 (scale d)) (β - βs) ∧
      penLogLik fam.glm raw b 0 l2 (scale d) βs - penLogLik fam.glm raw b 0 l2 (scale d)
          (newtonMap (newtonMat env.eps fam.glm raw b l2 (scale d))
            (penScore fam.glm raw b 0 l2 (scale d)) β)
        ≤ ρ * (penLogLik fam.glm raw b 0 l2 (scale d) βs
          - penLogLik fam.glm raw b 0 l2 (scale d) β) ∧
      penLogLik fam.glm raw b 0 l2 (scale d) βs - penLogLik fam.glm raw b 0 l2 (scale d) β
        ≤ qform (obsMat raw b o l2 (scale d)) (β - βs) ∧
      (β ≠ βs → penLogLik fam.glm raw b 0 l2 (scale d) β
        < penLogLik fam.glm raw b 0 l2 (scale d) βs) := by
  refine local_step (newtonMat_continuousAt h.valid h.admissible _ _ _) h.det_unit ?_
    (penScore_hasFDerivAt h.info _ _) h.score (obsMat_symm _ _ _) (fun x hx => h.curv_pos hx) hρ₀ hρ hc
  filter_upwards [admissible_eventually h.admissible] with β hβ
  exact isGradientAt_sub (logLik_isGradientAt h.valid hβ)
    (penalty_isGradientAt (Dataset.scale_pos h.built) (Or.inl le_rfl))

end LocalSetting

/-! ### The iteration in a basin -/

/-- A neighbourhood in which the Newton iteration contracts (internal helper). -/
structure Basin (env : Env ℝ) (fam : Family) (raw : Dataset ℝ n p false) (d : Dataset ℝ n p b) (l2 : ℝ)
    (βs : Vec ℝ (ncols b p)) (o : Fin n → ℝ) (ρ r : ℝ) : Prop where
  ρ_nonneg : 0 ≤ ρ
  ρ_lt : ρ < 1
  r_pos : 0 < r
  good : ∀ β, qform (obsMat raw b o l2 (scale d)) (β - βs) < r →
    IsUnit (newtonMat env.eps fam.glm raw b l2 (scale d) β).det ∧
      qform (obsMat raw b o l2 (scale d)) (newtonMap (newtonMat env.eps fam.glm raw b l2 (scale d))
          (penScore fam.glm raw b 0 l2 (scale d)) β - βs)
        ≤ ρ * qform (obsMat raw b o l2 (scale d)) (β - βs) ∧
      penLogLik fam.glm raw b 0 l2 (scale d) βs - penLogLik fam.glm raw b 0 l2 (scale d)
          (newtonMap (newtonMat env.eps fam.glm raw b l2 (scale d))
            (penScore fam.glm raw b 0 l2 (scale d)) β)
        ≤ ρ * (penLogLik fam.glm raw b 0 l2 (scale d) βs
          - penLogLik fam.glm raw b 0 l2 (scale d) β) ∧
      penLogLik fam.glm raw b 0 l2 (scale d) βs - penLogLik fam.glm raw b 0 l2 (scale d) β
        ≤ qform (obsMat raw b o l2 (scale d)) (β - βs) ∧
      (β ≠ βs → penLogLik fam.glm raw b 0 l2 (scale d) β
        < penLogLik fam.glm raw b 0 l2 (scale d) βs)

/-- One full step on the user's scale (internal helper). -/
noncomputable def fullStep (env : Env ℝ) (fam : Family) (raw : Dataset ℝ n p false) (d : Dataset ℝ n p b)
    (l2 : ℝ) (β : Vec ℝ (ncols b p)) : Vec ℝ (ncols b p) :=
  newtonMap (newtonMat env.eps fam.glm raw b l2 (scale d)) (penScore fam.glm raw b 0 l2 (scale d)) β

theorem LocalSetting.basin (h : LocalSetting env fam raw std d l2 βs o) {ρ₀ ρ : ℝ} (hρ₀ : 0 ≤ ρ₀)
    (hρ : ρ₀ < ρ) (hρ1 : ρ < 1)
    (hc : ∀ x y, newtonMat env.eps fam.glm raw b l2 (scale d) βs *ᵥ y
        = obsMat raw b o l2 (scale d) *ᵥ x →
      qform (obsMat raw b o l2 (scale d)) (x - y) ≤ ρ₀ * qform (obsMat raw b o l2 (scale d)) x) :
    ∃ r, Basin env fam raw d l2 βs o ρ r := by
  have hev := h.eventually_step hρ₀ hρ hc
  rw [Metric.eventually_nhds_iff] at hev
  obtain ⟨δ, hδ, hev⟩ := hev
  obtain ⟨c, hc0, hcn⟩ := qform_norm_le (J := obsMat raw b o l2 (scale d)) fun x hx => h.curv_pos hx
  refine ⟨c * δ ^ 2, hρ₀.trans hρ.le, hρ1, by positivity, fun β hβ => hev ?_⟩
  have h1 := (hcn (β - βs)).trans_lt hβ
  rw [dist_eq_norm]
  exact lt_of_pow_lt_pow_left₀ 2 hδ.le (lt_of_mul_lt_mul_left h1 hc0.le)

section run
variable {options : FitOptions ℝ (ncols b p)} {ρ r : ℝ}

/-- The chain of recorded steps, with an invariant. -/
theorem regression_chain_inv {g : Glm ℝ} {Q : Irls ℝ (ncols b p) → Prop}
    {R : Vec ℝ (ncols b p) → Vec ℝ (ncols b p) → Prop} {f : Fit ℝ n p b}
    (h : regression env g d options = .ok f)
    (h0 : Q (Irls.new g d (initialGuess env g d options) options))
    (hQ : ∀ s s' v l, Irls.Inv g d options (initialGuess env g d options) s → Q s →
      s.nextRaw env g d options.tol = .cand s' v l → Q (s'.candState v l) ∧ R s.guess v) :
    ∃ s0 s', Irls.Inv g d options (initialGuess env g d options) s0 ∧ Q s0 ∧
      s0.nextRaw env g d options.tol = .stop s' ∧
      f.history = s0.history.map (fun st =>
        { guess := d.inverseTransformBeta st.guess, like := st.like }) ∧
      (initialGuess env g d options :: s0.history.map IrlsStep.guess).IsChain R := by
  obtain ⟨s0, s', hi, ⟨hq, hp⟩, hn, hh⟩ := regression_inv h
    (P := fun s => Q s ∧ (initialGuess env g d options :: s.history.map IrlsStep.guess).IsChain R)
    ⟨h0, by simp [Irls.new]⟩
    (by
      intro s s' v l hi ⟨hq, hs⟩ hn
      obtain ⟨hq', hR⟩ := hQ s s' v l hi hq hn
      refine ⟨hq', ?_⟩
      have hf := s.nextRaw_frame env g d options.tol
      rw [hn] at hf
      obtain ⟨hf, rfl, -⟩ := hf
      simp only [Irls.candState, List.map_append, hf.history, ← List.cons_append]
      refine List.IsChain.append hs (by simp) ?_
      intro x hx y hy
      simp only [List.map_cons, List.map_nil, List.head?_cons, Option.mem_def,
        Option.some.injEq, Irls.candStep] at hy
      subst hy
      have hg := hi.guess
      have : x = s.guess := by
        rw [hg]
        simp only [List.getLast?_cons, Option.mem_def, Option.some.injEq, List.getLast?_map] at hx
        exact hx.symm
      rw [this]
      exact hR)
  exact ⟨s0, s', hi, hq, hn, hh, hp⟩

/-- The result of a fit without L1 is the last guess. -/
theorem result_ext {g : Glm ℝ} (hl1 : options.l1 ≤ 0) {f : Fit ℝ n p b}
    (h : regression env g d options = .ok f) {s0 : Irls ℝ (ncols b p)}
    (hi : Irls.Inv g d options (initialGuess env g d options) s0)
    (hh : f.history = s0.history.map (fun st =>
        { guess := d.inverseTransformBeta st.guess, like := st.like })) :
    f.result = d.inverseTransformBeta s0.guess := by
  have hg := hi.guess
  by_cases hne : f.history = []
  · rcases C25_best_of_history h with ⟨-, -, h3, -⟩ | ⟨pre, opt, post, h3, -⟩
    · rw [hne] at hh
      rw [List.map_eq_nil_iff.mp hh.symm] at hg
      rw [h3, hg]; rfl
    · rw [hne] at h3; simp at h3
  · have h1 := (C26_monotone hl1 h).2.1 hne
    rw [hh, List.getLast?_map] at h1
    rw [hg]
    cases hl : s0.history.getLast? with
    | none => rw [hl] at h1; simp at h1
    | some st =>
      rw [hl] at h1
      simp only [Option.map_some, Option.some.injEq] at h1
      simp only [Option.map_some, Option.getD_some]
      exact (congrArg IrlsStep.guess h1).symm

namespace Basin
variable (h : LocalSetting env fam raw std d l2 βs o) (hB : Basin env fam raw d l2 βs o ρ r)
include h hB

omit h hB in
theorem fullStep_self (h0 : penScore fam.glm raw b 0 l2 (scale d) βs = 0) :
    fullStep env fam raw d l2 βs = βs := by
  simp [fullStep, newtonMap, h0]

omit hB in
theorem form_nonneg (x : Vec ℝ (ncols b p)) : 0 ≤ qform (obsMat raw b o l2 (scale d)) x := by
  rcases eq_or_ne x 0 with rfl | hx
  · rw [qform_zero]
  · exact (h.curv_pos hx).le

theorem keeps {β : Vec ℝ (ncols b p)} (hβ : qform (obsMat raw b o l2 (scale d)) (β - βs) < r) :
    qform (obsMat raw b o l2 (scale d)) (fullStep env fam raw d l2 β - βs) < r := by
  have h1 := (hB.good β hβ).2.1
  have h2 := form_nonneg h (β - βs)
  have h3 := hB.ρ_lt
  rw [fullStep]
  nlinarith

omit h in
theorem improves {β : Vec ℝ (ncols b p)} (hβ : qform (obsMat raw b o l2 (scale d)) (β - βs) < r)
    (hne : β ≠ βs) : penLogLik fam.glm raw b 0 l2 (scale d) β
      < penLogLik fam.glm raw b 0 l2 (scale d) (fullStep env fam raw d l2 β) := by
  obtain ⟨-, -, h1, -, h2⟩ := hB.good β hβ
  have h3 := h2 hne
  have h4 := hB.ρ_lt
  rw [fullStep]
  nlinarith

/-- What one iterator call does in the basin: stop at the solution (or when marked done), otherwise
take the full step. -/
theorem next {initial : Vec ℝ (ncols b p)} {s : Irls ℝ (ncols b p)} (hl1 : options.l1 ≤ 0)
    (hl2 : options.l2 = l2) (hi : Irls.Inv fam.glm d options initial s) (hdone : s.done = false)
    (hβ : qform (obsMat raw b o l2 (scale d)) (d.inverseTransformBeta s.guess - βs) < r) :
    (d.inverseTransformBeta s.guess = βs ∧
      s.nextRaw env fam.glm d options.tol = .stop s.prep) ∨
    (d.inverseTransformBeta s.guess ≠ βs ∧
      ∃ v l, d.inverseTransformBeta v = fullStep env fam raw d l2 (d.inverseTransformBeta s.guess) ∧
        s.nextRaw env fam.glm d options.tol
          = .cand { s.prep with done := s.small fam.glm d options.tol v } v l) := by
  have hwf := Dataset.finalize_wf h.built
  have hs : s.sol env fam.glm d
      = .ok (d.transformBeta (fullStep env fam raw d l2 (d.inverseTransformBeta s.guess))) := by
    refine sol_eq h.exact (Family.lawfulAdj fam) h.built hl1 hi.same ?_ ?_
    · rw [hl2]; exact (hB.good _ hβ).1
    · rw [hl2, penScore_noL1 hl1, fullStep, newtonMap, add_sub_cancel_left, mulVec_mulVec,
        mul_nonsing_inv _ (hB.good _ hβ).1, one_mulVec]
  obtain ⟨t1, t2, t3⟩ := hi.same.noL1 (getReg_noL1 hl1) s.guess
  have ht : (s.reg.prepare s.guess).terminateOk options.tol = true := by rw [t1]; exact t3 _
  by_cases hβs : d.inverseTransformBeta s.guess = βs
  · refine Or.inl ⟨hβs, Irls.nextRaw_equal hdone hs ht ?_⟩
    rw [hβs, fullStep_self h.score, ← hβs, hwf.transformBeta_inverseTransformBeta]
    simp [vecEq]
  · refine Or.inr ⟨hβs, _, _, hwf.inverseTransformBeta_transformBeta _,
      Irls.nextRaw_full hdone hs ht ?_ ?_⟩
    · rw [Bool.eq_false_iff]
      intro heq
      simp only [vecEq, List.all_eq_true, List.mem_finRange, forall_const, eq_real] at heq
      have h1 : d.transformBeta (fullStep env fam raw d l2 (d.inverseTransformBeta s.guess))
        = s.guess := funext heq
      have h2 := congrArg d.inverseTransformBeta h1
      rw [hwf.inverseTransformBeta_transformBeta] at h2
      refine (improves hB hβ hβs).ne ?_
      rw [h2]
    · rw [gt_real, nextObj_ext h.built hl1 hi, lastObj_ext h.built hl1 hi, hl2, penLogLik_noL1 hl1,
        hwf.inverseTransformBeta_transformBeta]
      exact improves hB hβ hβs

omit hB in
theorem form_young (x y : Vec ℝ (ncols b p)) {a : ℝ} (ha : 0 < a) :
    qform (obsMat raw b o l2 (scale d)) x ≤ (1 + a) * qform (obsMat raw b o l2 (scale d)) y
      + (1 + a⁻¹) * qform (obsMat raw b o l2 (scale d)) (x - y) := by
  set z := x - y with hz
  have hx : x = y + z := by rw [hz]; abel
  have h1 := form_nonneg h (y - a⁻¹ • z)
  rw [qform_sub (obsMat_symm _ _ _), mulVec_smul, dotProduct_smul, smul_eq_mul, qform_smul] at h1
  rw [hx, qform_add (obsMat_symm _ _ _)]
  have h2 := mul_nonneg ha.le h1
  have e : a * (qform (obsMat raw b o l2 (scale d)) y
      - 2 * (a⁻¹ * (y ⬝ᵥ (obsMat raw b o l2 (scale d) *ᵥ z)))
      + a⁻¹ ^ 2 * qform (obsMat raw b o l2 (scale d)) z)
      = a * qform (obsMat raw b o l2 (scale d)) y
        - 2 * (y ⬝ᵥ (obsMat raw b o l2 (scale d) *ᵥ z))
        + a⁻¹ * qform (obsMat raw b o l2 (scale d)) z := by field_simp
  rw [e] at h2
  linarith

/-- Close to the solution the stopping rule applies. -/
theorem exists_small {tol : ℝ} (htol : 0 < tol) : ∃ v₀ > 0, ∀ β,
    qform (obsMat raw b o l2 (scale d)) (β - βs) < r →
    qform (obsMat raw b o l2 (scale d)) (β - βs) ≤ v₀ →
    |penLogLik fam.glm raw b 0 l2 (scale d) (fullStep env fam raw d l2 β)
      - penLogLik fam.glm raw b 0 l2 (scale d) β| ≤ tol * n ∧
    ∑ j, (d.transformBeta (fullStep env fam raw d l2 β) j - d.transformBeta β j)
      * (d.transformBeta (fullStep env fam raw d l2 β) j - d.transformBeta β j)
      ≤ (ncols b p : ℝ) * tol * tol := by
  obtain ⟨c, hc0, hcn⟩ := qform_norm_le (J := obsMat raw b o l2 (scale d)) fun x hx => h.curv_pos hx
  set L := ‖matCLM d.tmat‖ + 1 with hL
  have hL0 : 0 < L := by positivity
  have hn : (0 : ℝ) < n := by exact_mod_cast h.obs
  refine ⟨min (tol * n) (tol ^ 2 * c / (4 * L ^ 2)), lt_min (by positivity) (by positivity),
    fun β hβ hv => ⟨?_, ?_⟩⟩
  · obtain ⟨-, -, h1, h2, h3⟩ := hB.good β hβ
    rw [← fullStep] at h1
    have h4 := (hB.good _ (keeps h hB hβ)).2.2.2.2
    have h4' : penLogLik fam.glm raw b 0 l2 (scale d) (fullStep env fam raw d l2 β)
        ≤ penLogLik fam.glm raw b 0 l2 (scale d) βs := by
      rcases eq_or_ne (fullStep env fam raw d l2 β) βs with he | he
      · rw [he]
      · exact (h4 he).le
    have h3' : penLogLik fam.glm raw b 0 l2 (scale d) β
        ≤ penLogLik fam.glm raw b 0 l2 (scale d) βs := by
      rcases eq_or_ne β βs with he | he
      · rw [he]
      · exact (h3 he).le
    have h5 := hB.ρ_lt
    have h6 := hv.trans (min_le_left _ _)
    rw [abs_le]
    constructor <;> nlinarith
  · set β' := fullStep env fam raw d l2 β with hβ'
    have hV' : qform (obsMat raw b o l2 (scale d)) (β' - βs)
        ≤ qform (obsMat raw b o l2 (scale d)) (β - βs) := by
      have h1 := (hB.good β hβ).2.1
      have h2 := form_nonneg h (β - βs)
      have h3 := hB.ρ_lt
      rw [← fullStep] at h1
      nlinarith
    have h1 := hcn (β - βs)
    have h2 := hcn (β' - βs)
    have h3 : ‖β' - β‖ ≤ ‖β' - βs‖ + ‖β - βs‖ := by
      have := norm_sub_le (β' - βs) (β - βs)
      rwa [sub_sub_sub_cancel_right] at this
    have h4 : c * ‖β' - β‖ ^ 2 ≤ 4 * qform (obsMat raw b o l2 (scale d)) (β - βs) := by
      have e1 : ‖β' - β‖ ^ 2 ≤ 2 * ‖β' - βs‖ ^ 2 + 2 * ‖β - βs‖ ^ 2 := by
        have := pow_le_pow_left₀ (norm_nonneg _) h3 2
        nlinarith [sq_nonneg (‖β' - βs‖ - ‖β - βs‖)]
      have := mul_le_mul_of_nonneg_left e1 hc0.le
      linarith
    have h5 := hv.trans (min_le_right _ _)
    rw [le_div_iff₀ (by positivity)] at h5
    have h6 : L ^ 2 * ‖β' - β‖ ^ 2 ≤ tol ^ 2 := by
      have : c * (L ^ 2 * ‖β' - β‖ ^ 2) ≤ c * tol ^ 2 := by
        have := mul_le_mul_of_nonneg_left h4 (sq_nonneg L)
        linarith
      exact le_of_mul_le_mul_left this hc0
    have h7 : ∀ j, (d.transformBeta β' j - d.transformBeta β j)
        * (d.transformBeta β' j - d.transformBeta β j) ≤ tol * tol := by
      intro j
      have e1 : d.transformBeta β' j - d.transformBeta β j = (d.tmat *ᵥ (β' - β)) j := by
        rw [d.transformBeta_eq, d.transformBeta_eq, mulVec_sub, Pi.sub_apply]
      have e2 : |(d.tmat *ᵥ (β' - β)) j| ≤ L * ‖β' - β‖ := by
        refine (norm_le_pi_norm (d.tmat *ᵥ (β' - β)) j).trans ?_
        refine ((matCLM d.tmat).le_opNorm (β' - β)).trans ?_
        exact mul_le_mul_of_nonneg_right (by linarith) (norm_nonneg _)
      rw [e1, ← sq, ← sq, ← sq_abs]
      refine (pow_le_pow_left₀ (abs_nonneg _) e2 2).trans ?_
      rw [mul_pow]
      exact h6
    refine (Finset.sum_le_sum fun j _ => h7 j).trans_eq ?_
    rw [Finset.sum_const, Finset.card_univ, Fintype.card_fin, nsmul_eq_mul, mul_assoc]

/-- Where the stopping rule applies, the new point is close to the solution. -/
theorem exists_dist : ∃ C, 0 ≤ C ∧ ∀ β tol,
    qform (obsMat raw b o l2 (scale d)) (β - βs) < r →
    ∑ j, (d.transformBeta (fullStep env fam raw d l2 β) j - d.transformBeta β j) ^ 2
      ≤ ((ncols b p : ℕ) + ∑ j, d.transformBeta (fullStep env fam raw d l2 β) j ^ 2) * tol ^ 2 →
    ∀ j, |fullStep env fam raw d l2 β j - βs j| ≤ C * |tol| := by
  obtain ⟨c, hc0, hcn⟩ := qform_norm_le (J := obsMat raw b o l2 (scale d)) fun x hx => h.curv_pos hx
  obtain ⟨Q, hQ0, hQ⟩ := exists_form_le (obsMat raw b o l2 (scale d))
  have hwf := Dataset.finalize_wf h.built
  have hT : IsUnit d.tmat.det := isUnit_iff_ne_zero.mpr hwf.det_tmat
  set L := ‖matCLM d.tmat‖ with hL
  set L' := ‖matCLM (d.tmat⁻¹)‖ with hL'
  set B : ℝ := (‖βs‖ + √(r / c)) with hBd
  set a := (1 - ρ) / 2 with ha
  have ha0 : 0 < a := by have := hB.ρ_lt; rw [ha]; linarith
  -- the factor from the step length to the squared distance
  set A := (1 + a⁻¹) / a with hA
  have hA0 : 0 ≤ A := by positivity
  set C2 := A * (Q * (L' ^ 2 * ((ncols b p : ℕ) + (ncols b p : ℕ) * (L * B) ^ 2))) / c with hC2
  have hC20 : 0 ≤ C2 := by positivity
  refine ⟨√C2, Real.sqrt_nonneg _, fun β tol hβ hsum j => ?_⟩
  set β' := fullStep env fam raw d l2 β with hβ'
  have hβ'r := keeps h hB hβ
  rw [← hβ'] at hβ'r
  -- the new point is bounded
  have hbd : ‖β'‖ ≤ B := by
    have h1 := (hcn (β' - βs)).trans hβ'r.le
    have h2 : ‖β' - βs‖ ≤ √(r / c) := by
      refine Real.le_sqrt_of_sq_le ?_
      rw [le_div_iff₀ hc0]
      linarith
    have h3 : β' = βs + (β' - βs) := by abel
    rw [h3]
    exact (norm_add_le _ _).trans (by linarith)
  have hTb : ∑ j, d.transformBeta β' j ^ 2 ≤ (ncols b p : ℕ) * (L * B) ^ 2 := by
    have : ∀ j, d.transformBeta β' j ^ 2 ≤ (L * B) ^ 2 := fun j => by
      rw [d.transformBeta_eq, ← sq_abs]
      refine pow_le_pow_left₀ (abs_nonneg _) ?_ 2
      refine (norm_le_pi_norm (d.tmat *ᵥ β') j).trans ?_
      refine ((matCLM d.tmat).le_opNorm β').trans ?_
      exact mul_le_mul_of_nonneg_left hbd (norm_nonneg _)
    refine (Finset.sum_le_sum fun j _ => this j).trans_eq ?_
    rw [Finset.sum_const, Finset.card_univ, Fintype.card_fin, nsmul_eq_mul]
  -- the step is short
  have hstep : ‖β - β'‖ ^ 2
      ≤ L' ^ 2 * ((ncols b p : ℕ) + (ncols b p : ℕ) * (L * B) ^ 2) * tol ^ 2 := by
    have e1 : β' - β = d.tmat⁻¹ *ᵥ (d.tmat *ᵥ (β' - β)) := by
      rw [mulVec_mulVec, nonsing_inv_mul _ hT, one_mulVec]
    have e2 : ‖β' - β‖ ≤ L' * ‖d.tmat *ᵥ (β' - β)‖ := by
      conv_lhs => rw [e1]
      exact (matCLM (d.tmat⁻¹)).le_opNorm _
    have e3 : ‖d.tmat *ᵥ (β' - β)‖ ^ 2
        ≤ ((ncols b p : ℕ) + (ncols b p : ℕ) * (L * B) ^ 2) * tol ^ 2 := by
      have hs : ∑ j, (d.tmat *ᵥ (β' - β)) j ^ 2
          ≤ ((ncols b p : ℕ) + (ncols b p : ℕ) * (L * B) ^ 2) * tol ^ 2 := by
        refine le_trans (le_of_eq ?_) (hsum.trans ?_)
        · refine Finset.sum_congr rfl fun j _ => ?_
          rw [d.transformBeta_eq, d.transformBeta_eq, mulVec_sub, Pi.sub_apply]
        · exact mul_le_mul_of_nonneg_right (by linarith) (sq_nonneg _)
      have hs0 := Finset.sum_nonneg fun j (_ : j ∈ Finset.univ) => sq_nonneg ((d.tmat *ᵥ (β' - β)) j)
      have : ‖d.tmat *ᵥ (β' - β)‖ ≤ √(∑ j, (d.tmat *ᵥ (β' - β)) j ^ 2) := by
        refine (pi_norm_le_iff_of_nonneg (Real.sqrt_nonneg _)).mpr fun j => ?_
        rw [Real.norm_eq_abs]
        refine Real.abs_le_sqrt ?_
        exact Finset.single_le_sum (f := fun j => (d.tmat *ᵥ (β' - β)) j ^ 2)
          (fun j _ => sq_nonneg _) (Finset.mem_univ j)
      have h2 := pow_le_pow_left₀ (norm_nonneg _) this 2
      rw [Real.sq_sqrt hs0] at h2
      exact h2.trans hs
    rw [← norm_neg, neg_sub]
    refine (pow_le_pow_left₀ (norm_nonneg _) e2 2).trans ?_
    rw [mul_pow, mul_assoc]
    exact mul_le_mul_of_nonneg_left e3 (sq_nonneg _)
  -- the distance before the step is comparable to the step
  have hV := (hB.good β hβ).2.1
  rw [← fullStep, ← hβ'] at hV
  have hy := form_young h (β - βs) (β' - βs) ha0
  rw [sub_sub_sub_cancel_right] at hy
  have hVn := form_nonneg h (β - βs)
  have hd1 : qform (obsMat raw b o l2 (scale d)) (β - β') ≤ Q * ‖β - β'‖ ^ 2 := by
    have := (le_abs_self _).trans (hQ (β - β') (β - β'))
    rwa [← sq] at this
  have hρ0 := hB.ρ_nonneg
  have hρ1 := hB.ρ_lt
  have hx : a * qform (obsMat raw b o l2 (scale d)) (β - βs)
      ≤ (1 + a⁻¹) * qform (obsMat raw b o l2 (scale d)) (β - β') := by
    have e1 : (1 + a) * qform (obsMat raw b o l2 (scale d)) (β' - βs)
        ≤ (1 + a) * (ρ * qform (obsMat raw b o l2 (scale d)) (β - βs)) :=
      mul_le_mul_of_nonneg_left hV (by linarith)
    have e2 : (1 + a) * ρ ≤ 1 - a := by rw [ha]; nlinarith
    have e3 := mul_le_mul_of_nonneg_right e2 hVn
    linarith
  have hx2 : qform (obsMat raw b o l2 (scale d)) (β - βs)
      ≤ A * qform (obsMat raw b o l2 (scale d)) (β - β') := by
    rw [hA, div_mul_eq_mul_div, le_div_iff₀ ha0]
    linarith
  have hfin : ‖β' - βs‖ ^ 2 ≤ C2 * tol ^ 2 := by
    have e1 := hcn (β' - βs)
    have e2 : qform (obsMat raw b o l2 (scale d)) (β' - βs)
        ≤ qform (obsMat raw b o l2 (scale d)) (β - βs) := by nlinarith
    have e3 : A * qform (obsMat raw b o l2 (scale d)) (β - β') ≤ A * (Q * ‖β - β'‖ ^ 2) :=
      mul_le_mul_of_nonneg_left hd1 hA0
    have e4 : A * (Q * ‖β - β'‖ ^ 2) ≤ A * (Q * (L' ^ 2 * ((ncols b p : ℕ)
        + (ncols b p : ℕ) * (L * B) ^ 2) * tol ^ 2)) := by gcongr
    rw [hC2, div_mul_eq_mul_div, le_div_iff₀ hc0]
    calc ‖β' - βs‖ ^ 2 * c = c * ‖β' - βs‖ ^ 2 := mul_comm _ _
      _ ≤ A * (Q * (L' ^ 2 * ((ncols b p : ℕ) + (ncols b p : ℕ) * (L * B) ^ 2) * tol ^ 2)) := by
        linarith
      _ = _ := by ring
  have e5 : |β' j - βs j| ≤ ‖β' - βs‖ := norm_le_pi_norm (β' - βs) j
  refine e5.trans ?_
  have : √C2 * |tol| = √(C2 * tol ^ 2) := by
    rw [Real.sqrt_mul hC20, Real.sqrt_sq_eq_abs]
  rw [this]
  exact Real.le_sqrt_of_sq_le hfin

/-- Fits started in the basin converge. -/
theorem converges : ∃ C, ConvergesFrom env fam.glm raw d l2 βs
    {β | qform (obsMat raw b o l2 (scale d)) (β - βs) < r} ρ C := by
  have hwf := Dataset.finalize_wf h.built
  obtain ⟨C, hC0, hC⟩ := exists_dist h hB
  -- every step of a successful fit is a full step in the basin
  have key : ∀ (options : FitOptions ℝ (ncols b p)) (β0 : Vec ℝ (ncols b p)) (f : Fit ℝ n p b),
      options.l1 ≤ 0 → options.l2 = l2 → options.initGuess = some β0 →
      qform (obsMat raw b o l2 (scale d)) (β0 - βs) < r →
      regression env fam.glm d options = .ok f →
      ((β0 :: f.history.map IrlsStep.guess).IsChain fun β β' =>
        qform (obsMat raw b o l2 (scale d)) (β - βs) < r ∧ β' = fullStep env fam raw d l2 β) ∧
      ∀ j, |f.result j - βs j| ≤ C * |options.tol| := by
    intro options β0 f hl1 hl2 hβ0 hr hf
    have hinit : initialGuess env fam.glm d options = d.transformBeta β0 := by
      unfold initialGuess; rw [hβ0]
    obtain ⟨s0, s', hi, ⟨hq1, hq2⟩, hn, hh, hchain⟩ := regression_chain_inv hf
      (Q := fun s => qform (obsMat raw b o l2 (scale d)) (d.inverseTransformBeta s.guess - βs) < r ∧
        (s.done = true → ∀ j, |d.inverseTransformBeta s.guess j - βs j| ≤ C * |options.tol|))
      (R := fun γ v =>
        qform (obsMat raw b o l2 (scale d)) (d.inverseTransformBeta γ - βs) < r ∧
        d.inverseTransformBeta v = fullStep env fam raw d l2 (d.inverseTransformBeta γ))
      ⟨by
        change qform _ (d.inverseTransformBeta (initialGuess env fam.glm d options) - βs) < r
        rw [hinit, hwf.inverseTransformBeta_transformBeta]; exact hr, by simp [Irls.new]⟩
      (by
        intro s s' v l hi hqq hn
        have hq := hqq.1
        by_cases hdone : s.done = true
        · rw [Irls.nextRaw_done hdone] at hn; simp at hn
        · rcases next h hB hl1 hl2 hi (by simpa using hdone) hq with ⟨-, h2⟩ | ⟨-, v', l', h2, h3⟩
          · exact absurd (hn.symm.trans h2) (by simp)
          · have hn := h3.symm.trans hn
            simp only [RawNext.cand.injEq] at hn
            obtain ⟨rfl, rfl, rfl⟩ := hn
            refine ⟨⟨?_, ?_⟩, hq, h2⟩
            · change qform _ (d.inverseTransformBeta v' - βs) < r
              rw [h2]; exact keeps h hB hq
            · intro hsm
              change ∀ j, |d.inverseTransformBeta v' j - βs j| ≤ _
              rw [h2]
              refine hC _ _ hq ?_
              have := (small_ext h.built hl1 hi hsm).2
              rw [← h2, hwf.transformBeta_inverseTransformBeta,
                hwf.transformBeta_inverseTransformBeta]
              exact this)
    have hres := result_ext hl1 hf hi hh
    refine ⟨?_, fun j => ?_⟩
    · have e : β0 :: f.history.map IrlsStep.guess
          = (initialGuess env fam.glm d options :: s0.history.map IrlsStep.guess).map
            d.inverseTransformBeta := by
        rw [hh, hinit]; simp [Function.comp_def, hwf.inverseTransformBeta_transformBeta]
      rw [e, List.isChain_map]
      exact hchain
    · rw [hres]
      by_cases hdone : s0.done = true
      · exact hq2 hdone j
      · rcases next h hB hl1 hl2 hi (by simpa using hdone) hq1 with ⟨h1, -⟩ | ⟨-, v', l', h2, h3⟩
        · rw [h1, sub_self, abs_zero]
          exact mul_nonneg hC0 (abs_nonneg _)
        · exact absurd (hn.symm.trans h3) (by simp)
  have hsteps : ∀ (options : FitOptions ℝ (ncols b p)) (β0 : Vec ℝ (ncols b p)) (f : Fit ℝ n p b),
      options.l1 ≤ 0 → options.l2 = l2 → options.initGuess = some β0 →
      qform (obsMat raw b o l2 (scale d)) (β0 - βs) < r →
      regression env fam.glm d options = .ok f →
      (β0 :: f.history.map IrlsStep.guess).IsChain fun β β' =>
        IsNewtonStep env.eps fam.glm raw b options.l1 l2 (scale d) β (β' - β) ∧
        objOf fam.glm raw d options βs - objOf fam.glm raw d options β'
          ≤ ρ * (objOf fam.glm raw d options βs - objOf fam.glm raw d options β) := by
    intro options β0 f hl1 hl2 hβ0 hr hf
    refine (key options β0 f hl1 hl2 hβ0 hr hf).1.imp fun β β' hβ => ?_
    obtain ⟨hβ, rfl⟩ := hβ
    constructor
    · rw [IsNewtonStep, penScore_noL1 hl1, fullStep, newtonMap, add_sub_cancel_left, mulVec_mulVec,
        mul_nonsing_inv _ (hB.good _ hβ).1, one_mulVec]
    · rw [objOf, penLogLik_noL1 hl1, hl2]
      exact (hB.good _ hβ).2.2.1
  refine ⟨C, hsteps, ?_, fun options β0 f hl1 hl2 hβ0 hr hf =>
    (key options β0 f hl1 hl2 hβ0 hr hf).2, ?_⟩
  · intro options β0 f hl1 hl2 hβ0 hr hf
    have hch := hsteps options β0 f hl1 hl2 hβ0 hr hf
    have hcl := chain_excess (φ := fun β => -objOf fam.glm raw d options β)
      (c := -objOf fam.glm raw d options βs) hB.ρ_nonneg β0 _
      (hch.imp fun β β' hβ => by
        have := hβ.2
        rw [neg_sub_neg, neg_sub_neg]
        exact this)
    have hlen := (C24_ok hf).1
    by_cases hne : f.history = []
    · rw [hlen, hne]
      simp only [List.length_nil, pow_zero, one_mul]
      rcases C25_best_of_history hf with ⟨-, -, h3, -⟩ | ⟨pre, opt, post, h3, -⟩
      · rw [h3, initialGuess, hβ0]
        dsimp only
        rw [hwf.inverseTransformBeta_transformBeta]
      · rw [hne] at h3; simp at h3
    · have := (C26_monotone hl1 hf).2.1 hne
      have hpos : 0 < f.history.length := List.length_pos_iff.mpr hne
      rw [List.getLast?_eq_getElem?, List.getElem?_eq_getElem (by omega)] at this
      have h3 := hcl (f.history.length - 1) (by simp; omega)
      simp only [Option.some.injEq] at this
      rw [List.getElem_map, this] at h3
      rw [hlen]
      have e2 : f.history.length - 1 + 1 = f.history.length := by omega
      rw [e2, neg_sub_neg, neg_sub_neg] at h3
      exact h3
  · intro tol htol
    obtain ⟨v₀, hv₀, hsmall⟩ := exists_small h hB htol
    obtain ⟨K, hK⟩ := exists_pow_lt_of_lt_one (div_pos hv₀ hB.r_pos) hB.ρ_lt
    rw [lt_div_iff₀ hB.r_pos] at hK
    refine ⟨K + 1, fun options β0 hl1 hl2 hβ0 hr ht hbud => ?_⟩
    have hinit : initialGuess env fam.glm d options = d.transformBeta β0 := by
      unfold initialGuess; rw [hβ0]
    set P : Irls ℝ (ncols b p) → Prop := fun s =>
      qform (obsMat raw b o l2 (scale d)) (d.inverseTransformBeta s.guess - βs) < r ∧
      qform (obsMat raw b o l2 (scale d)) (d.inverseTransformBeta s.guess - βs)
        ≤ ρ ^ s.history.length * r ∧
      s.history.length ≤ K + 1 ∧ (s.history.length ≤ K ∨ s.done = true) with hP
    have hP0 : P (Irls.new fam.glm d (initialGuess env fam.glm d options) options) := by
      have : qform (obsMat raw b o l2 (scale d))
          (d.inverseTransformBeta (initialGuess env fam.glm d options) - βs) < r := by
        rw [hinit, hwf.inverseTransformBeta_transformBeta]; exact hr
      refine ⟨this, ?_, by simp [Irls.new], by simp [Irls.new]⟩
      simp only [Irls.new, List.length_nil, pow_zero, one_mul]
      exact this.le
    have hPs : ∀ s s' v l, Irls.Inv fam.glm d options (initialGuess env fam.glm d options) s → P s →
        s.nextRaw env fam.glm d options.tol = .cand s' v l → P (s'.candState v l) := by
      intro s s' v l hi hp hn
      obtain ⟨hp1, hp2, hp3, hp4⟩ := hp
      by_cases hdone : s.done = true
      · rw [Irls.nextRaw_done hdone] at hn; simp at hn
      · have hlenK : s.history.length ≤ K := hp4.resolve_right hdone
        rcases next h hB hl1 hl2 hi (by simpa using hdone) hp1 with ⟨-, h2⟩ | ⟨-, v', l', h2, h3⟩
        · exact absurd (hn.symm.trans h2) (by simp)
        · have hn := h3.symm.trans hn
          simp only [RawNext.cand.injEq] at hn
          obtain ⟨rfl, rfl, rfl⟩ := hn
          refine ⟨?_, ?_, ?_, ?_⟩
          · change qform _ (d.inverseTransformBeta v' - βs) < r
            rw [h2]; exact keeps h hB hp1
          · simp only [Irls.candState, Irls.prep, List.length_append, List.length_singleton]
            rw [h2, pow_succ', mul_assoc]
            exact ((hB.good _ hp1).2.1).trans (mul_le_mul_of_nonneg_left hp2 hB.ρ_nonneg)
          · simp only [Irls.candState, Irls.prep, List.length_append, List.length_singleton]
            omega
          · simp only [Irls.candState, Irls.prep, List.length_append, List.length_singleton]
            rcases Nat.lt_or_ge s.history.length K with hlt | hge
            · exact Or.inl hlt
            · right
              have hlen : s.history.length = K := le_antisymm hlenK hge
              rw [hlen] at hp2
              obtain ⟨a1, a2⟩ := hsmall _ hp1 (hp2.trans hK.le)
              have hv' : v' = d.transformBeta (fullStep env fam raw d l2
                  (d.inverseTransformBeta s.guess)) := by
                rw [← h2, hwf.transformBeta_inverseTransformBeta]
              rw [Irls.small, Bool.and_eq_true]
              constructor
              · simp only [smallDelta, le_real, abs_real, ofNat_real]
                rw [nextObj_ext h.built hl1 hi, lastObj_ext h.built hl1 hi, h2, hl2,
                  penLogLik_noL1 hl1, ht]
                exact a1
              · simp only [smallDeltaVec, le_real, vsum_real, vsub, ofNat_real]
                rw [← hv', hwf.transformBeta_inverseTransformBeta] at a2
                rw [ht]
                refine a2.trans ?_
                have hsq : 0 ≤ ∑ j, v' j * v' j := Finset.sum_nonneg fun j _ => mul_self_nonneg _
                nlinarith [mul_self_nonneg tol, mul_nonneg hsq (mul_self_nonneg tol)]
    have hok : ∃ f, regression env fam.glm d options = .ok f := by
      refine regression_total (P := P) hP0 hPs ?_ ?_ ?_
      · intro s s' hi hp
        by_cases hdone : s.done = true
        · rw [Irls.nextRaw_done hdone]; simp
        · rcases next h hB hl1 hl2 hi (by simpa using hdone) hp.1 with ⟨-, h2⟩ | ⟨-, v', l', h2, h3⟩
          · exact fun hx => by simpa using h2.symm.trans hx
          · exact fun hx => by simpa using h3.symm.trans hx
      · intro s s' hi hp
        by_cases hdone : s.done = true
        · rw [Irls.nextRaw_done hdone]; simp
        · rcases next h hB hl1 hl2 hi (by simpa using hdone) hp.1 with ⟨-, h2⟩ | ⟨-, v', l', h2, h3⟩
          · exact fun hx => by simpa using h2.symm.trans hx
          · exact fun hx => by simpa using h3.symm.trans hx
      · intro s s' v l hi hp hn hlen
        rcases hp.2.2.2 with h1 | h1
        · omega
        · rw [Irls.nextRaw_done h1] at hn; simp at hn
    obtain ⟨f, hf⟩ := hok
    refine ⟨f, hf, ?_⟩
    obtain ⟨s0, s', -, hp, -, hh⟩ := regression_inv (P := P) hf hP0 hPs
    rw [(C24_ok hf).1, hh, List.length_map]
    exact hp.2.2.1

end Basin
end run

theorem Basin.nhds {ρ r : ℝ}
    (hB : Basin env fam raw d l2 βs o ρ r) :
    {β | qform (obsMat raw b o l2 (scale d)) (β - βs) < r} ∈ 𝓝 βs := by
  have hc : Continuous fun β => qform (obsMat raw b o l2 (scale d)) (β - βs) :=
    (qform_continuous _).comp (continuous_id.sub continuous_const)
  refine (isOpen_lt hc continuous_const).mem_nhds ?_
  change qform _ (βs - βs) < r
  rw [sub_self, qform_zero]
  exact hB.r_pos

/-- **C90** (any link).  A fit without L1 penalty, with or without L2 and standardization, started close
enough to a solution `βs` of the score equations with regular curvature there converges to it: some
neighbourhood of `βs` has a rate `ρ < 1` and a constant `C` such that, from any start in it, a fit takes
full Newton steps only, each of which multiplies the deficiency of the objective by at most `ρ`; for every
positive tolerance a number of iterations suffices for all those starts; and the result is within `C · tol`
of `βs`. -/
theorem C90_local (h : LocalSetting env fam raw std d l2 βs o) :
    ∃ ρ < 1, ∃ U ∈ 𝓝 βs, ∃ C, ConvergesFrom env fam.glm raw d l2 βs U ρ C := by
  obtain ⟨ρ₀, h1, h2, h3⟩ := exists_factor h.det_unit (obsMat_symm o l2 (scale d))
    (fun x hx => h.curv_pos hx) fun x hx => h.curv_lt hx
  obtain ⟨r, hB⟩ := h.basin h1 (by linarith : ρ₀ < (ρ₀ + 1) / 2) (by linarith) h3
  obtain ⟨C, hC⟩ := Basin.converges h hB
  exact ⟨_, hB.ρ_lt, _, hB.nhds, C, hC⟩

end GLM
