/-
  C73: links supplied by the user.
-/
import Verif.Spec.Custom
import Verif.Props.Gradient
import Verif.Props.Deviance
import Verif.Props.Convergence

namespace GLM
open Spec Matrix
variable {n p : ℕ} {b : Bool} {env : Env ℝ} {raw : Dataset ℝ n p false} {std : Bool}
  {d : Dataset ℝ n p b} {options : FitOptions ℝ (ncols b p)} {f : Fit ℝ n p b}
  {r : Resp} {l : Link ℝ} {U : Set ℝ} {func funcInv nat dnat : ℝ → ℝ}

theorem Resp.glm_eq (r : Resp) (l : Link ℝ) :
    r.glm l = { (canonicalPair r).glm with link := l } := by
  cases r <;> rfl

theorem canonicalPair_valid (r : Resp) : ValidFamily (canonicalPair r) := by cases r <;> trivial

theorem Resp.link (r : Resp) (l : Link ℝ) : (r.glm l).link = l := by cases r <;> rfl

theorem Resp.logLikeNatural (r : Resp) (l : Link ℝ) (y η : ℝ) :
    (r.glm l).logLikeNatural y η = y * η - cumulant (canonicalPair r) η := by
  rw [Resp.glm_eq]; exact logLikeNatural_real _ y η

theorem Resp.variance (r : Resp) (l : Link ℝ) (μ : ℝ) :
    (r.glm l).variance μ = varianceFn (canonicalPair r) μ := by
  rw [Resp.glm_eq]; exact variance_real _ μ

/-- Links that keep the provided methods satisfy the hypothesis of the theorems on general links
(C10, C13, C22, C30, C35, C56, C58, C59, C64). -/
theorem C73_lawful (r : Resp) : LawfulAdj (r.glm (Link.custom func funcInv nat dnat)) where
  errors e ω := by rw [Resp.link]; rfl
  variance v ω := by
    rw [Resp.link]; change dnat ω * v * dnat ω = dnat ω ^ 2 * v; ring
  both e v ω := by rw [Resp.link]; rfl

namespace Spec.ProperLink
variable (hl : ProperLink r l U)
include hl

theorem nat_mem {w : ℝ} (hw : w ∈ U) : l.natParam w ∈ natDom (canonicalPair r) := by
  rw [hl.nat w hw]; exact canonicalLink_mem _ (hl.mean w hw)

theorem meanOfNat {w : ℝ} (hw : w ∈ U) :
    Spec.meanOfNat (canonicalPair r) (l.natParam w) = l.funcInv w := by
  rw [hl.nat w hw, meanOfNat_canonicalLink _ (hl.mean w hw)]

theorem logLike_hasDerivAt (y : ℝ) {w : ℝ} (hw : w ∈ U) :
    HasDerivAt (fun w => (r.glm l).logLikeNatural y (l.natParam w))
      (l.dNatParam w * (y - l.funcInv w)) w := by
  simp only [Resp.logLikeNatural]
  have h1 := hl.deriv w hw
  have h2 := (cumulant_hasDerivAt _ (hl.nat_mem hw)).comp w h1
  rw [hl.meanOfNat hw] at h2
  refine HasDerivAt.congr_deriv ((h1.const_mul y).sub h2) ?_
  ring

theorem funcInv_hasDerivAt {w : ℝ} (hw : w ∈ U) :
    HasDerivAt l.funcInv ((r.glm l).variance (l.funcInv w) * l.dNatParam w) w := by
  have h1 := meanOfNat_hasDerivAt _ (canonicalPair_valid r) (hl.nat_mem hw)
  rw [hl.meanOfNat hw, ← Resp.variance r l] at h1
  refine (h1.comp w (hl.deriv w hw)).congr_of_eventuallyEq ?_
  filter_upwards [hl.open_dom.mem_nhds hw] with x hx
  exact (hl.meanOfNat hx).symm

end Spec.ProperLink

/-- **C73**: for every response type and every proper user link that keeps the provided methods, the
score reported by a fit is the gradient of the penalized log-likelihood. -/
theorem C73_score_gradient (hd : raw.finalize std b = some d)
    (hl : ProperLink r (Link.custom func funcInv nat dnat) U)
    (h : regression env (r.glm (Link.custom func funcInv nat dnat)) d options = .ok f)
    {β : Vec ℝ (ncols b p)} (ha : ∀ i, linPred raw b β i ∈ U)
    (h1 : options.l1 ≤ 0 ∨ ∀ j, slopes b β j ≠ 0) :
    IsGradientAt (penLogLik (r.glm (Link.custom func funcInv nat dnat)) raw b options.l1 options.l2
      (scale d)) (f.score β) β := by
  obtain ⟨hg, rfl, rfl, hf⟩ := regression_ofRaw hd h
  rw [Fit.score_ext hd (by rw [hg]; exact C73_lawful r) hf.same, hg]
  refine isGradientAt_sub ?_ (penalty_isGradientAt (Dataset.scale_pos hd) h1)
  have := isGradientAt_linPred_sum (raw := raw) (b := b) (β := β)
    (φ := fun i w => totalWt raw i
      * (r.glm (Link.custom func funcInv nat dnat)).logLikeNatural (raw.y i)
        ((Link.custom func funcInv nat dnat).natParam w))
    fun i => (hl.logLike_hasDerivAt (raw.y i) (ha i)).const_mul (totalWt raw i)
  have e : logLik (r.glm (Link.custom func funcInv nat dnat)) raw b = fun β => ∑ i, totalWt raw i
      * (r.glm (Link.custom func funcInv nat dnat)).logLikeNatural (raw.y i)
        ((Link.custom func funcInv nat dnat).natParam (linPred raw b β i)) := by
    funext β
    simp only [logLik, logLikAt, Resp.link]
  rw [e]
  refine isGradientAt_congr this fun j => ?_
  simp only [scoreVec, meanAt, mul_assoc, Resp.link]

/-- **C73**: and `fisher(β)` is the expected information: minus the Jacobian of the reported score
when every response equals its mean at `β`, if `d_nat_param` is differentiable there. -/
theorem C73_expected_information (hd : raw.finalize std b = some d)
    (hl : ProperLink r (Link.custom func funcInv nat dnat) U)
    (h : regression env (r.glm (Link.custom func funcInv nat dnat)) d options = .ok f)
    (hl1 : options.l1 ≤ 0) {β : Vec ℝ (ncols b p)} (ha : ∀ i, linPred raw b β i ∈ U)
    (hdiff : ∀ i, DifferentiableAt ℝ dnat (linPred raw b β i))
    (hy : ∀ i, raw.y i = funcInv (linPred raw b β i)) (j : Fin (ncols b p)) :
    IsGradientAt (fun β => f.score β j) (fun k => -f.fisher β j k) β := by
  obtain ⟨-, h2, h3, -⟩ := C10_external (C73_lawful r) hd hl1 h
  set g := r.glm (Link.custom func funcInv nat dnat) with hg
  have hlink : g.link = Link.custom func funcInv nat dnat := Resp.link _ _
  have key : ∀ i, HasDerivAt (fun w => dnat w * (raw.y i - funcInv w))
      (-(dnat (linPred raw b β i) ^ 2 * g.variance (funcInv (linPred raw b β i))))
      (linPred raw b β i) := by
    intro i
    refine HasDerivAt.congr_deriv ((hdiff i).hasDerivAt.fun_mul
      ((hl.funcInv_hasDerivAt (ha i)).const_sub (raw.y i))) ?_
    change deriv dnat (linPred raw b β i) * (raw.y i - funcInv (linPred raw b β i))
      + dnat (linPred raw b β i) * -(g.variance (funcInv (linPred raw b β i))
        * dnat (linPred raw b β i)) = _
    rw [hy i]
    ring
  have hs : IsGradientAt (fun β => scoreVec g raw b β j) (fun k => -(fisherMat g raw b β j k)) β := by
    have := isGradientAt_linPred_sum (raw := raw) (b := b) (β := β)
      (φ := fun i w => totalWt raw i * (dnat w * (raw.y i - funcInv w)) * design b raw.x i j)
      fun i => ((key i).const_mul (totalWt raw i)).mul_const (design b raw.x i j)
    have e : (fun β => scoreVec g raw b β j) = fun β => ∑ i, totalWt raw i *
        (dnat (linPred raw b β i) * (raw.y i - funcInv (linPred raw b β i)))
          * design b raw.x i j := by
      funext β
      simp only [scoreVec, meanAt, mul_assoc, hlink]
      rfl
    rw [e]
    refine isGradientAt_congr this fun k => ?_
    rw [fisherMat, ← Finset.sum_neg_distrib]
    refine Finset.sum_congr rfl fun i _ => ?_
    simp only [meanAt, hlink]
    change _ = -(totalWt raw i * dnat (linPred raw b β i) ^ 2
      * g.variance (funcInv (linPred raw b β i)) * design b raw.x i j * design b raw.x i k)
    ring
  have := isGradientAt_sub hs (ridge_isGradientAt (l2 := options.l2) (σ := scale d) hl1 β j)
  have e : (fun β => f.score β j) = fun β => scoreVec g raw b β j - onSlopes b (fun j =>
      max options.l1 0 * (scale d j * SignType.sign (slopes b β j))
        + max options.l2 0 * (scale d j ^ 2 * slopes b β j)) j := by
    funext β; rw [h2]; rfl
  rw [e]
  refine isGradientAt_congr this fun k => ?_
  have := congrFun (congrFun (h3 β) j) k
  rw [of_apply] at this
  rw [this, Matrix.add_apply, Pi.sub_apply]
  ring

/-- **C73**: each recorded point is reached from the previous one by a multiple of the Newton step
for that link: information matrix with `η'(ω)² V(μ)`, score with `η'(ω) (y - μ)`. -/
theorem C73_newton_steps (he : env.Exact) (hd : raw.finalize std b = some d)
    (hl1 : options.l1 ≤ 0)
    (h : regression env (r.glm (Link.custom func funcInv nat dnat)) d options = .ok f) :
    (d.inverseTransformBeta (initialGuess env (r.glm (Link.custom func funcInv nat dnat)) d options)
        :: f.history.map IrlsStep.guess).IsChain fun β β' => ∃ m, StepMult m ∧ ∀ j,
      ∑ k, ((∑ i, totalWt raw i * (dnat (linPred raw b β i) ^ 2
            * varianceFn (canonicalPair r) (funcInv (linPred raw b β i)) + env.eps)
          * design b raw.x i j * design b raw.x i k)
        + ridgeMat options.l2 (scale d) b j k) * (β' k - β k)
      = m * ((∑ i, totalWt raw i * dnat (linPred raw b β i)
            * (raw.y i - funcInv (linPred raw b β i)) * design b raw.x i j)
        - onSlopes b (fun j => max options.l2 0 * (scale d j ^ 2 * slopes b β j)) j) := by
  refine (C22_newton_steps he (C73_lawful r) hd hl1 h).imp fun β β' ⟨m, hm, e⟩ => ⟨m, hm, fun j => ?_⟩
  have e := congrFun e j
  simp only [Pi.smul_apply, smul_eq_mul, penScore, scoreVec, meanAt, Resp.link, max_eq_right hl1,
    zero_mul, zero_add, mulVec, dotProduct, Pi.sub_apply] at e
  refine Eq.trans (Finset.sum_congr rfl fun k _ => ?_) e
  congr 1
  simp only [newtonMat, Matrix.add_apply, Matrix.smul_apply, smul_eq_mul, fisherMat, gram, meanAt,
    Resp.link, Resp.variance]
  congr 1
  rw [Finset.mul_sum, ← Finset.sum_add_distrib]
  refine Finset.sum_congr rfl fun i _ => ?_
  change _ = totalWt raw i * dnat (linPred raw b β i) ^ 2
      * varianceFn (canonicalPair r) (funcInv (linPred raw b β i))
      * design b raw.x i j * design b raw.x i k
    + env.eps * (totalWt raw i * design b raw.x i j * design b raw.x i k)
  ring

/-- **C73**: the deviance of a fit with a proper user link is non-negative. -/
theorem C73_deviance_nonneg (hd : raw.finalize std b = some d) (hl : ProperLink r l U)
    (h : regression env (r.glm l) d options = .ok f)
    (hy : ∀ i, raw.y i ∈ yDom (canonicalPair r)) (hw : ∀ i, 0 ≤ totalWt raw i)
    (ha : ∀ i, linPred raw b f.result i ∈ U) : 0 ≤ f.deviance := by
  rw [C36_deviance hd h, satLik, logLik, ← Finset.sum_sub_distrib]
  refine mul_nonneg zero_le_two (Finset.sum_nonneg fun i _ => ?_)
  rw [← mul_sub]
  refine mul_nonneg (hw i) (sub_nonneg.mpr ?_)
  have := (C20_saturated_is_sup (canonicalPair r) (canonicalPair_valid r) (hy i)).1
    ⟨_, hl.nat_mem (ha i), rfl⟩
  rw [logLikAt, Resp.link, Resp.glm_eq]
  exact this

/-- Every pair the crate ships (other than the binomial family, which takes no link) is such a
response type with a proper link. -/
theorem C73_shipped (fam : Family) (hb : ∀ N, fam ≠ .binomial N) :
    ∃ r, ProperLink r (fam.glm (F := ℝ)).link (predDom fam) ∧
      (fam.glm (F := ℝ)) = r.glm (fam.glm (F := ℝ)).link := by
  have key : ∀ r, ValidFamily fam → meanDom fam = meanDom (canonicalPair r) →
      canonicalLink fam = canonicalLink (canonicalPair r) →
      (fam.glm (F := ℝ)) = r.glm (fam.glm (F := ℝ)).link →
      ∃ r, ProperLink r (fam.glm (F := ℝ)).link (predDom fam) ∧
        (fam.glm (F := ℝ)) = r.glm (fam.glm (F := ℝ)).link := by
    intro r hv h1 h2 h3
    refine ⟨r, ⟨?_, fun w hw => ?_, fun w hw => ?_, fun w hw => natParam_hasDerivAt fam w⟩, h3⟩
    · cases fam <;> first | exact isOpen_univ | exact isOpen_Iio
    · rw [← h1]; exact funcInv_mem fam hv hw
    · rw [← h2]; exact natParam_eq fam hv hw
  cases fam
  case linear => exact key .linear trivial rfl rfl rfl
  case logisticLogit => exact key .logistic trivial rfl rfl rfl
  case logisticCloglog => exact key .logistic trivial rfl rfl rfl
  case poisson => exact key .poisson trivial rfl rfl rfl
  case binomial N => exact absurd rfl (hb N)
  case exponentialNegRec => exact key .exponential trivial rfl rfl rfl
  case exponentialLog => exact key .exponential trivial rfl rfl rfl
  case gammaNegRec => exact key .gamma trivial rfl rfl rfl
  case gammaLog => exact key .gamma trivial rfl rfl rfl
  case invGaussNegRecSq => exact key .invGauss trivial rfl rfl rfl
  case invGaussLog => exact key .invGauss trivial rfl rfl rfl

/-! ### The links of tests/custom_link.rs -/

/-- The affine link is a proper link of the linear family. -/
theorem linkAffine_proper {a c : ℝ} : ProperLink .linear (linkAffine a c) Set.univ where
  open_dom := isOpen_univ
  mean _ _ := trivial
  nat _ _ := rfl
  deriv w _ := by
    have := ((hasDerivAt_id w).sub_const c).mul_const (a⁻¹)
    simpa [linkAffine, Link.custom, Transform.ofNatParam] using this

/-- **C73**: a linear regression with the link `a y + c` solves the least-squares problem of the
transformed responses: its log-likelihood is a constant minus their squared errors over `2 a²`, and
without regularization its score vanishes exactly at their least-squares solutions. -/
theorem C73_affine {a c : ℝ} (ha : a ≠ 0) (hd : raw.finalize std b = some d)
    (hl1 : options.l1 ≤ 0) (hl2 : options.l2 ≤ 0) (hw : ∀ i, 0 ≤ totalWt raw i)
    (h : regression env (Resp.linear.glm (linkAffine a c)) d options = .ok f) :
    (f.modelLike = (∑ i, totalWt raw i * (raw.y i ^ 2 / 2))
      - sse (withResponses raw fun i => a * raw.y i + c) b f.result / (2 * a ^ 2)) ∧
    ∀ β, f.score β = 0 ↔ IsLeastSquares (withResponses raw fun i => a * raw.y i + c) b β := by
  obtain ⟨h1, h2, -⟩ := C10_external (C73_lawful .linear) hd hl1 h
  have hlp : ∀ β i, linPred (withResponses raw fun i => a * raw.y i + c) b β i
    = linPred raw b β i := fun _ _ => rfl
  constructor
  · rw [h1, penLogLik, penalty, max_eq_right hl1, max_eq_right hl2]
    simp only [zero_mul, zero_div, add_zero, sub_zero]
    rw [logLik, sse, Finset.sum_div, ← Finset.sum_sub_distrib]
    refine Finset.sum_congr rfl fun i _ => ?_
    rw [logLikAt, Resp.logLikeNatural, Resp.link, hlp]
    change totalWt raw i * (raw.y i * ((linPred raw b f.result i - c) * Scalar.recip a)
        - ((linPred raw b f.result i - c) * Scalar.recip a) ^ 2 / 2)
      = totalWt raw i * (raw.y i ^ 2 / 2)
        - totalWt raw i * (a * raw.y i + c - linPred raw b f.result i) ^ 2 / (2 * a ^ 2)
    rw [recip_real]
    field_simp
    ring
  · intro β
    rw [isLeastSquares_iff (raw := withResponses raw fun i => a * raw.y i + c) hw, h2]
    have e : penScore (Resp.linear.glm (linkAffine a c)) raw b options.l1 options.l2 (scale d) β
        = (a ^ 2)⁻¹ • scoreVec linG (withResponses raw fun i => a * raw.y i + c) b β := by
      funext j
      rw [Pi.smul_apply, smul_eq_mul, lin_score, Finset.mul_sum]
      simp only [penScore, max_eq_right hl1, max_eq_right hl2, zero_mul, add_zero]
      rw [onSlopes_zero]
      refine (sub_zero _).trans ?_
      rw [scoreVec]
      refine Finset.sum_congr rfl fun i _ => ?_
      rw [meanAt, Resp.link, hlp]
      change totalWt raw i * Scalar.recip a
          * (raw.y i - (linPred raw b β i - c) * Scalar.recip a) * design b raw.x i j
        = (a ^ 2)⁻¹ * (totalWt raw i * (a * raw.y i + c - linPred raw b β i) * design b raw.x i j)
      rw [recip_real]
      field_simp
      ring
    change penScore (Resp.linear.glm (linkAffine a c)) raw b options.l1 options.l2 (scale d) β = 0 ↔ _
    rw [e]
    constructor
    · intro h0
      rcases smul_eq_zero.mp h0 with h0 | h0
      · exact absurd h0 (inv_ne_zero (pow_ne_zero 2 ha))
      · exact h0
    · intro h0; rw [h0, smul_zero]

/-- The hypotheses of `C73_affine` are met by a fit with the link of tests/custom_link.rs. -/
example (std : Bool) : ∃ d f, (exRaw ![8, 8, 8]).finalize std true = some d ∧
    regression (exactEnv (1 / 1000) 7) (Resp.linear.glm (linkAffine 2.5 (-3.4))) d
      (exOpts 0 0 (some ![16.6, 0]) 5) = .ok f ∧ (∀ i, 0 ≤ totalWt (exRaw ![8, 8, 8]) i) := by
  obtain ⟨d, hd⟩ := exRaw_finalize ![8, 8, 8] std true
  have hmean : ∀ i, (exRaw ![8, 8, 8]).y i
      = meanAt (Resp.linear.glm (linkAffine 2.5 (-3.4))) (exRaw ![8, 8, 8]) true ![16.6, 0] i := by
    intro i
    rw [meanAt, Resp.link, exRaw_linPred]
    fin_cases i <;> simp [exRaw, linkAffine, Link.custom] <;> norm_num
  obtain ⟨f, h1, -⟩ := C22_stationary_start (options := exOpts 0 0 (some ![16.6, 0]) 5)
    (g := Resp.linear.glm (linkAffine 2.5 (-3.4)))
    (exactEnv_exact (by norm_num : (0 : ℝ) ≤ 1 / 1000) 7) (C73_lawful .linear) hd le_rfl rfl
    ((Matrix.isUnit_iff_isUnit_det _).mp
      (C30_fullRank_posDef (by norm_num [exactEnv]) (fun i => (exRaw_totalWt_pos _ i).le)
      (fun _ => by rw [Resp.variance]; exact zero_le_one) (exRaw_gram_det _)).isUnit)
    (by
      funext j
      simp only [penScore, scoreVec, ← hmean, sub_self, mul_zero, zero_mul, Finset.sum_const_zero]
      simp [exOpts, onSlopes_zero])
  exact ⟨d, f, hd, h1, fun i => (exRaw_totalWt_pos _ i).le⟩

/-- The cube-root link of tests/custom_link.rs:62-90, whose `func` (not used by the theorems) is left
open. -/
noncomputable def linkCbrt (func : ℝ → ℝ) : Link ℝ :=
  Link.custom func (fun w => w ^ 3) (fun w => w ^ 3) (fun w => 3 * w ^ 2)

theorem linkCbrt_proper (func : ℝ → ℝ) : ProperLink .linear (linkCbrt func) Set.univ where
  open_dom := isOpen_univ
  mean _ _ := trivial
  nat _ _ := rfl
  deriv w _ := by
    have := hasDerivAt_pow 3 w
    norm_num at this
    exact this

/-- A concrete fit with the cube-root link, which is not the canonical one, from a start where its
derivative does not vanish: the hypotheses of C73 hold, and the fit ends at the true coefficients. -/
example (func : ℝ → ℝ) (std : Bool) : ∃ d f,
    (exRaw ![8, 8, 8]).finalize std true = some d ∧
    regression (exactEnv (1 / 1000) 7) (Resp.linear.glm (linkCbrt func)) d
      (exOpts 0 0 (some ![2, 0]) 5) = .ok f ∧
    (∀ β i, linPred (exRaw ![8, 8, 8]) true β i ∈ (Set.univ : Set ℝ)) ∧
    (∀ i, DifferentiableAt ℝ (fun w : ℝ => 3 * w ^ 2)
      (linPred (exRaw ![8, 8, 8]) true f.result i)) ∧
    (∀ i, (exRaw ![8, 8, 8]).y i = linPred (exRaw ![8, 8, 8]) true f.result i ^ 3) := by
  obtain ⟨d, hd⟩ := exRaw_finalize ![8, 8, 8] std true
  have hmean : ∀ i, (exRaw ![8, 8, 8]).y i
      = meanAt (Resp.linear.glm (linkCbrt func)) (exRaw ![8, 8, 8]) true ![2, 0] i := by
    intro i
    rw [meanAt, Resp.link, exRaw_linPred]
    fin_cases i <;> simp [exRaw, linkCbrt, Link.custom] <;> norm_num
  obtain ⟨f, h1, -, -, h2⟩ := C22_stationary_start (options := exOpts 0 0 (some ![2, 0]) 5)
    (exactEnv_exact (by norm_num : (0 : ℝ) ≤ 1 / 1000) 7)
    (C73_lawful (func := func) (funcInv := fun w => w ^ 3) (nat := fun w => w ^ 3)
      (dnat := fun w => 3 * w ^ 2) .linear) hd le_rfl rfl
    ((Matrix.isUnit_iff_isUnit_det _).mp
      (C30_fullRank_posDef (by norm_num [exactEnv]) (fun i => (exRaw_totalWt_pos _ i).le)
      (fun _ => by rw [Resp.variance]; exact zero_le_one) (exRaw_gram_det _)).isUnit)
    (by
      change penScore (Resp.linear.glm (linkCbrt func)) _ _ _ _ _ _ = _
      funext j
      simp only [penScore, scoreVec, ← hmean, sub_self, mul_zero, zero_mul, Finset.sum_const_zero]
      simp [exOpts, onSlopes_zero])
  refine ⟨d, f, hd, h1, fun _ _ => trivial, fun i => by fun_prop, fun i => ?_⟩
  rw [h2, hmean i, meanAt, Resp.link]
  rfl

end GLM
