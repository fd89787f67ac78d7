/-
  C87 for the canonical links of the exponential, gamma and inverse Gaussian families: an estimate
  exists as soon as some coefficients give every observation an admissible mean.
-/
import Verif.Props.Existence

namespace GLM
open Spec Matrix Filter Topology
variable {n p : ℕ} {b : Bool} {env : Env ℝ} {raw : Dataset ℝ n p false} {std : Bool}
  {d : Dataset ℝ n p b} {options : FitOptions ℝ (ncols b p)} {f : Fit ℝ n p b} {fam : Family}

namespace Spec

/-- The families whose canonical link confines the linear predictor to negative numbers. -/
def NegativePred (fam : Family) : Prop :=
  fam = .exponentialNegRec ∨ fam = .gammaNegRec ∨ fam = .invGaussNegRecSq

end Spec

theorem Spec.NegativePred.predDom (h : NegativePred fam) : predDom fam = Set.Iio 0 := by
  rcases h with rfl | rfl | rfl <;> rfl

theorem Spec.NegativePred.yDom (h : NegativePred fam) : yDom fam = Set.Ioi 0 := by
  rcases h with rfl | rfl | rfl <;> rfl

theorem Spec.NegativePred.meanDom (h : NegativePred fam) : meanDom fam = Set.Ioi 0 := by
  rcases h with rfl | rfl | rfl <;> rfl

theorem Spec.NegativePred.concave (h : NegativePred fam) (hw : ∀ i, 0 < totalWt raw i) :
    Spec.Concave fam raw := by
  rcases h with rfl | rfl | rfl <;> exact ⟨trivial, trivial, Or.inl trivial, fun i => (hw i).le⟩

theorem Spec.NegativePred.dNat (h : NegativePred fam) (w : ℝ) :
    (fam.glm (F := ℝ)).link.dNatParam w = 1 := by
  rw [dNatParam_real]
  rcases h with rfl | rfl | rfl <;> rfl

/-- The mean tends to infinity as the linear predictor tends to zero. -/
theorem funcInv_tendsto (h : NegativePred fam) :
    Tendsto (fun ε => (fam.glm (F := ℝ)).link.funcInv (-ε)) (𝓝[>] 0) atTop := by
  have h1 : Tendsto (fun ε : ℝ => ε⁻¹) (𝓝[>] 0) atTop := tendsto_inv_nhdsGT_zero
  have key : (∀ ε : ℝ, 0 < ε → (fam.glm (F := ℝ)).link.funcInv (-ε) = ε⁻¹) ∨
      ∀ ε : ℝ, 0 < ε → (fam.glm (F := ℝ)).link.funcInv (-ε) = Real.sqrt (ε⁻¹ / 2) := by
    rcases h with rfl | rfl | rfl
    · left; intro ε _; rw [funcInv_real]; simp
    · left; intro ε _; rw [funcInv_real]; simp
    · right
      intro ε hε
      rw [funcInv_real]
      simp only
      rw [one_div, ← Real.sqrt_inv]
      congr 1
      field_simp
  have hev : ∀ᶠ ε : ℝ in 𝓝[>] 0, 0 < ε := eventually_mem_nhdsWithin
  rcases key with k | k
  · exact h1.congr' (hev.mono fun ε hε => (k ε hε).symm)
  · refine Tendsto.congr' (hev.mono fun ε hε => (k ε hε).symm) ?_
    exact Real.tendsto_sqrt_atTop.comp (h1.atTop_div_const two_pos)

/-- The log-likelihood of one observation decays linearly as its predictor tends to minus infinity. -/
theorem logLikeAt_decay_neg (h : NegativePred fam) {y : ℝ} (hy : y ∈ yDom fam) (o : ℝ) :
    ∃ C c : ℝ, 0 < c ∧ ∀ z, z + o < 0 →
      (fam.glm (F := ℝ)).logLikeNatural y ((fam.glm (F := ℝ)).link.natParam (z + o))
        ≤ C - c * |z| := by
  have hv : ValidFamily fam := by rcases h with rfl | rfl | rfl <;> trivial
  have hc : ConcavePair fam := by rcases h with rfl | rfl | rfl <;> trivial
  have hy0 : 0 < y := by rw [h.yDom] at hy; exact hy
  have hμ : y / 2 ∈ meanDom fam := by rw [h.meanDom]; exact half_pos hy0
  have hw := func_mem fam hμ
  have h1 := funcInv_func fam hμ
  set w := (fam.glm (F := ℝ)).link.func (y / 2) with hwdef
  refine ⟨(fam.glm (F := ℝ)).logLikeNatural y ((fam.glm (F := ℝ)).link.natParam w)
    + y / 2 * (|o| - w), y / 2, half_pos hy0, fun z hz => ?_⟩
  have h2 := logLikeAt_tangent_le fam hv hc (Or.inr hy) (w := z + o)
    (by rw [h.predDom]; exact hz) hw
  rw [h1, h.dNat] at h2
  have h3 : z + o ≤ |o| - |z| := by
    rcases le_total z 0 with hz0 | hz0
    · rw [abs_of_nonpos hz0]; linarith [le_abs_self o]
    · rw [abs_of_nonneg hz0]; linarith [neg_abs_le o]
  have h4 := mul_le_mul_of_nonneg_left h3 (half_pos hy0).le
  refine h2.trans ?_
  have : 1 * (y - y / 2) * (z + o - w) = y / 2 * (z + o) - y / 2 * w := by ring
  rw [this]
  linarith

/-- On coefficients whose linear predictors keep a margin from zero the objective has a maximum. -/
theorem penLogLik_exists_max_neg (h : NegativePred fam) (hy : ∀ i, raw.y i ∈ yDom fam)
    (hw : ∀ i, 0 < totalWt raw i) {l1 l2 : ℝ} (hl1 : l1 ≤ 0) (σ : Fin p → ℝ) {ε : ℝ} (hε : 0 < ε)
    {β₀ : Vec ℝ (ncols b p)} (hβ₀D : ∀ i, linPred raw b β₀ i ≤ -ε) :
    ∃ β : Vec ℝ (ncols b p), (∀ i, linPred raw b β i ≤ -ε) ∧
      ∀ β', (∀ i, linPred raw b β' i ≤ -ε) →
        penLogLik fam.glm raw b l1 l2 σ β' ≤ penLogLik fam.glm raw b l1 l2 σ β := by
  have hc := h.concave hw
  choose C c hcpos hle using fun i => logLikeAt_decay_neg h (hy i) (offset raw i)
  have hreach : ∀ β i, reach raw b l2 σ β (.inl i) = move raw b β i := fun β i => by
    change (if 0 < totalWt raw i then move raw b β i else 0) = _
    rw [if_pos (hw i)]
  set L := LinearMap.range (reach raw b l2 σ) with hL
  set S : Set (Fin n ⊕ Fin p → ℝ) := {z | z ∈ L ∧ ∀ i, z (.inl i) + offset raw i ≤ -ε} with hSdef
  have hSD : ∀ β, reach raw b l2 σ β ∈ S ↔ ∀ i, linPred raw b β i ≤ -ε := by
    intro β
    constructor
    · rintro ⟨-, h2⟩ i
      have := h2 i
      rw [hreach] at this
      exact this
    · intro h2
      refine ⟨⟨β, rfl⟩, fun i => ?_⟩
      rw [hreach]
      exact h2 i
  have hSc : IsClosed S := by
    refine IsClosed.inter L.closed_of_finiteDimensional ?_
    have : {z : Fin n ⊕ Fin p → ℝ | ∀ i, z (.inl i) + offset raw i ≤ -ε}
        = ⋂ i, {z | z (.inl i) + offset raw i ≤ -ε} := by ext; simp
    change IsClosed {z : Fin n ⊕ Fin p → ℝ | ∀ i, z (.inl i) + offset raw i ≤ -ε}
    rw [this]
    exact isClosed_iInter fun i =>
      isClosed_le ((continuous_apply _).add continuous_const) continuous_const
  have hGc : ContinuousOn (reachObj fam raw l2) S := by
    have hq : Continuous fun z : Fin n ⊕ Fin p → ℝ => max l2 0 / 2 * ∑ j, z (.inr j) ^ 2 :=
      continuous_const.mul (continuous_finsetSum _ fun j _ => (continuous_apply _).pow 2)
    refine ContinuousOn.sub ?_ hq.continuousOn
    refine continuousOn_finsetSum _ fun i _ => ?_
    refine continuousOn_const.mul ?_
    intro z hz
    have h1 := (logLikeAt_hasDerivAt fam hc.valid (raw.y i) (w := z (.inl i) + offset raw i)
      (by rw [h.predDom]; exact (hz.2 i).trans_lt (neg_lt_zero.mpr hε))).continuousAt
    refine ContinuousAt.continuousWithinAt ?_
    exact ContinuousAt.comp (f := fun z : Fin n ⊕ Fin p → ℝ => z (.inl i) + offset raw i) h1
      ((continuous_apply (Sum.inl i)).add continuous_const).continuousAt
  set N : (Fin n ⊕ Fin p → ℝ) → ℝ := fun z =>
    ∑ i, totalWt raw i * (c i * |z (.inl i)|) + max l2 0 * ∑ j, |z (.inr j)| with hN
  have hNc : Continuous N := by
    refine Continuous.add (continuous_finsetSum _ fun i _ => ?_)
      (continuous_const.mul (continuous_finsetSum _ fun j _ => (continuous_apply _).abs))
    exact continuous_const.mul (continuous_const.mul (continuous_apply _).abs)
  have hom : ∀ k : ℝ, 0 ≤ k → ∀ z, N (k • z) = k * N z := by
    intro k hk z
    simp only [hN, Pi.smul_apply, smul_eq_mul, abs_mul, abs_of_nonneg hk, mul_add, Finset.mul_sum]
    congr 1
    · exact Finset.sum_congr rfl fun i _ => by ring
    · exact Finset.sum_congr rfl fun i _ => by ring
  have hbound : ∀ z ∈ S, reachObj fam raw l2 z
      ≤ (∑ i, totalWt raw i * C i + max l2 0 / 2 * ∑ _j : Fin p, (1 : ℝ)) - N z := by
    intro z hz
    have h1 : ∑ i, totalWt raw i * (fam.glm (F := ℝ)).logLikeNatural (raw.y i)
          ((fam.glm (F := ℝ)).link.natParam (z (.inl i) + offset raw i))
        ≤ ∑ i, totalWt raw i * C i - ∑ i, totalWt raw i * (c i * |z (.inl i)|) := by
      rw [← Finset.sum_sub_distrib]
      refine Finset.sum_le_sum fun i _ => ?_
      rw [← mul_sub]
      exact mul_le_mul_of_nonneg_left
        (hle i _ ((hz.2 i).trans_lt (neg_lt_zero.mpr hε))) (hw i).le
    have h2 : max l2 0 * ∑ j, |z (.inr j)|
        ≤ max l2 0 / 2 * ∑ _j : Fin p, (1 : ℝ)
          + max l2 0 / 2 * ∑ j, z (.inr j) ^ 2 := by
      rw [← mul_add, ← Finset.sum_add_distrib, Finset.mul_sum, Finset.mul_sum]
      refine Finset.sum_le_sum fun j _ => ?_
      have h3 : 2 * |z (.inr j)| ≤ 1 + z (.inr j) ^ 2 := by
        nlinarith [sq_nonneg (|z (.inr j)| - 1), sq_abs (z (.inr j))]
      have := mul_le_mul_of_nonneg_left h3 (div_nonneg (le_max_right l2 0)
        (by norm_num : (0 : ℝ) ≤ 2))
      linarith
    simp only [reachObj, hN]
    linarith
  have hpos : ∀ z ∈ L, z ≠ 0 → 0 < N z := by
    rintro _ ⟨δ, rfl⟩ hz
    obtain ⟨k, hk⟩ := Function.ne_iff.mp hz
    have n1 : ∀ i, 0 ≤ totalWt raw i * (c i * |reach raw b l2 σ δ (.inl i)|) := fun i =>
      mul_nonneg (hw i).le (mul_nonneg (hcpos i).le (abs_nonneg _))
    have n2 : 0 ≤ max l2 0 * ∑ j, |reach raw b l2 σ δ (.inr j)| :=
      mul_nonneg (le_max_right _ _) (Finset.sum_nonneg fun j _ => abs_nonneg _)
    rcases k with i | j
    · refine add_pos_of_pos_of_nonneg ?_ n2
      exact Finset.sum_pos' (fun i _ => n1 i) ⟨i, Finset.mem_univ _,
        mul_pos (hw i) (mul_pos (hcpos i) (abs_pos.mpr hk))⟩
    · refine add_pos_of_nonneg_of_pos (Finset.sum_nonneg fun i _ => n1 i) ?_
      have hl : 0 < l2 := by
        by_contra hl
        refine hk ?_
        change (if 0 < l2 then σ j * slopes b δ j else 0) = 0
        rw [if_neg hl]
      exact mul_pos (lt_max_of_lt_left hl) (Finset.sum_pos' (fun j _ => abs_nonneg _)
        ⟨j, Finset.mem_univ _, abs_pos.mpr hk⟩)
  obtain ⟨_, hzS, hmax⟩ := exists_max_of_decayOn L hSc (fun z hz => hz.1)
    ⟨_, (hSD β₀).mpr hβ₀D⟩ hGc hNc hom hpos hbound
  obtain ⟨β, rfl⟩ := hzS.1
  refine ⟨β, (hSD β).mp hzS, fun β' hβ' => ?_⟩
  have := hmax _ ((hSD β').mpr hβ')
  rwa [reachObj_reach (fun i => (hw i).le) hl1, reachObj_reach (fun i => (hw i).le) hl1] at this

theorem linPred_segment {β β₀ : Vec ℝ (ncols b p)} {s t : ℝ} (hst : s + t = 1) (k : Fin n) :
    linPred raw b (s • β + t • (β + (β₀ - β))) k
      = s * linPred raw b β k + t * linPred raw b β₀ k := by
  obtain rfl : s = 1 - t := by linarith
  have h9 : ∑ j, design b raw.x k j * (((1 - t) • β + t • (β + (β₀ - β))) j)
      = (1 - t) * ∑ j, design b raw.x k j * β j + t * ∑ j, design b raw.x k j * β₀ j := by
    rw [Finset.mul_sum, Finset.mul_sum, ← Finset.sum_add_distrib]
    refine Finset.sum_congr rfl fun j _ => ?_
    simp only [Pi.add_apply, Pi.smul_apply, Pi.sub_apply, smul_eq_mul]
    ring
  simp only [linPred, h9]
  ring

/-- C87 (canonical links of the exponential, gamma and inverse Gaussian families).  If some
coefficients give every observation an admissible mean, an estimate exists: admissible coefficients
where the score vanishes and nothing admissible has a larger likelihood. -/
theorem C87_negative (h : NegativePred fam) (hy : ∀ i, raw.y i ∈ yDom fam)
    (hw : ∀ i, 0 < totalWt raw i) (hd : raw.finalize std b = some d)
    (hl1 : options.l1 ≤ 0) (hf : regression env fam.glm d options = .ok f)
    {β₀ : Vec ℝ (ncols b p)} (h0 : Admissible fam raw b β₀) :
    ∃ β, Admissible fam raw b β ∧ f.score β = 0 ∧
      ∀ β', Admissible fam raw b β' → f.lrTestAgainst β ≤ f.lrTestAgainst β' := by
  have hx := C10_external (Family.lawfulAdj fam) hd hl1 hf
  have hσ := Dataset.scale_pos hd
  have hc := h.concave hw
  have hadm : ∀ β : Vec ℝ (ncols b p), (∀ i, linPred raw b β i < 0) → Admissible fam raw b β :=
    fun β hβ i => by rw [h.predDom]; exact hβ i
  have h0' : ∀ i, linPred raw b β₀ i < 0 := fun i => by have := h0 i; rwa [h.predDom] at this
  suffices hmain : ∃ β, Admissible fam raw b β ∧ f.score β = 0 by
    obtain ⟨β, h1, h2⟩ := hmain
    refine ⟨β, h1, h2, fun β' h3 => ?_⟩
    rw [hx.2.2.2.1, hx.2.2.2.1]
    rw [hx.2.1] at h2
    have := C29_global_optimum hc hσ h1 h2 β' h3
    linarith
  set σ := scale d
  set P := penLogLik fam.glm raw b options.l1 options.l2 σ with hP
  choose C c hcpos hle using fun i => logLikeAt_decay_neg h (hy i) (offset raw i)
  -- upper bounds of the single log-likelihoods
  have hub : ∀ i β, linPred raw b β i < 0 → logLikAt fam.glm raw b β i ≤ C i := by
    intro i β hβ
    refine (hle i (move raw b β i) hβ).trans ?_
    have := mul_nonneg (hcpos i).le (abs_nonneg (move raw b β i))
    linarith
  set K := ∑ k, totalWt raw k * (C k - logLikAt fam.glm raw b β₀ k)
    + penalty options.l1 options.l2 σ b β₀ with hK
  -- the margin
  obtain ⟨ε, hε, hεi⟩ : ∃ ε : ℝ, 0 < ε ∧ ∀ i, ε < -linPred raw b β₀ i ∧
      K < totalWt raw i * ((fam.glm (F := ℝ)).link.funcInv (-ε) - raw.y i)
        * (-linPred raw b β₀ i - ε) := by
    have hev : ∀ᶠ ε : ℝ in 𝓝[>] 0, 0 < ε ∧ ∀ i, ε < -linPred raw b β₀ i ∧
        K < totalWt raw i * ((fam.glm (F := ℝ)).link.funcInv (-ε) - raw.y i)
          * (-linPred raw b β₀ i - ε) := by
      refine eventually_mem_nhdsWithin.and (eventually_all.mpr fun i => ?_)
      have hpos : 0 < -linPred raw b β₀ i := neg_pos.mpr (h0' i)
      refine (((tendsto_id).mono_left nhdsWithin_le_nhds).eventually_lt_const hpos).and ?_
      have t1 : Tendsto (fun ε => totalWt raw i
          * ((fam.glm (F := ℝ)).link.funcInv (-ε) - raw.y i)) (𝓝[>] 0) atTop :=
        (tendsto_atTop_add_const_right _ (-raw.y i) (funcInv_tendsto h)).const_mul_atTop (hw i)
      have t2 : Tendsto (fun ε : ℝ => -linPred raw b β₀ i - ε) (𝓝[>] 0)
          (𝓝 (-linPred raw b β₀ i - 0)) :=
        (tendsto_const_nhds.sub tendsto_id).mono_left nhdsWithin_le_nhds
      rw [sub_zero] at t2
      exact (t1.atTop_mul_pos hpos t2).eventually_gt_atTop K
    obtain ⟨ε, h1, h2⟩ := hev.exists
    exact ⟨ε, h1, h2⟩
  -- maximum on the closed part
  set D : Set (Vec ℝ (ncols b p)) := {β | ∀ i, linPred raw b β i ≤ -ε} with hD
  have hDneg : ∀ β ∈ D, ∀ i, linPred raw b β i < 0 := fun β hβ i =>
    (hβ i).trans_lt (neg_lt_zero.mpr hε)
  have hβ₀D : β₀ ∈ D := fun i => by linarith [(hεi i).1]
  obtain ⟨β, hβD, hmax⟩ : ∃ β ∈ D, ∀ β' ∈ D, P β' ≤ P β :=
    penLogLik_exists_max_neg h hy hw hl1 σ hε hβ₀D
  have hβadm := hadm β (hDneg β hβD)
  have hg := C50_score_gradient hd hf hc.valid hβadm (Or.inl hl1)
  rw [hx.2.1] at hg
  -- the maximum is not on the edge
  have hinner : ∀ i, linPred raw b β i < -ε := by
    by_contra hcon
    push Not at hcon
    obtain ⟨i, hi⟩ := hcon
    have hi : linPred raw b β i = -ε := le_antisymm (hβD i) hi
    have hconv : segment ℝ β (β + (β₀ - β)) ⊆ D := by
      rintro _ ⟨s, t, hs, ht, hst, rfl⟩ k
      rw [linPred_segment hst]
      have e1 := mul_le_mul_of_nonneg_left (hβD k) hs
      have e2 := mul_le_mul_of_nonneg_left (hβ₀D k) ht
      have e3 : s * -ε + t * -ε = -ε := by rw [← add_mul, hst, one_mul]
      linarith
    have hdir := IsLocalMaxOn.hasFDerivWithinAt_nonpos (s := D) (a := β) (y := β₀ - β)
      (eventually_of_mem self_mem_nhdsWithin fun x hx => hmax x hx) hg.hasFDerivWithinAt
      (mem_posTangentConeAt_of_segment_subset hconv)
    have hdir' : penScore fam.glm raw b options.l1 options.l2 σ β ⬝ᵥ (β₀ - β) ≤ 0 := by
      refine le_trans (le_of_eq ?_) hdir
      simp [dotProduct]
    have h3 : penScore fam.glm raw b options.l1 options.l2 σ β = scoreVec fam.glm raw b β
      - onSlopes b (fun j => max options.l1 0 * (σ j * SignType.sign (slopes b β j))
        + max options.l2 0 * (σ j ^ 2 * slopes b β j)) := rfl
    rw [h3, sub_dotProduct (scoreVec _ _ _ _) (onSlopes _ _), scoreVec_dot] at hdir'
    have hpen := penalty_gap (b := b) options.l1 options.l2 hσ β β₀
    have hrid := ridge_nonneg (b := b) options.l2 σ (β₀ - β)
    have hpen0 : 0 ≤ penalty options.l1 options.l2 σ b β := by
      unfold penalty
      exact add_nonneg (mul_nonneg (le_max_right _ _) (Finset.sum_nonneg fun j _ => abs_nonneg _))
        (mul_nonneg (div_nonneg (le_max_right _ _) two_pos.le)
          (Finset.sum_nonneg fun j _ => sq_nonneg _))
    -- every row contributes at least a constant, row `i` much more
    have hrow : ∀ k, -(totalWt raw k * (C k - logLikAt fam.glm raw b β₀ k))
        ≤ totalWt raw k * ((fam.glm (F := ℝ)).link.dNatParam (linPred raw b β k)
          * (raw.y k - meanAt fam.glm raw b β k) * ∑ j, design b raw.x k j * (β₀ - β) j) := by
      intro k
      rw [← linPred_diff, ← mul_neg]
      refine mul_le_mul_of_nonneg_left ?_ (hw k).le
      have h5 := logLikeAt_tangent_le fam hc.valid hc.pair (Or.inr (hy k)) (h0 k) (hβadm k)
      have h6 := hub k β (hDneg β hβD k)
      simp only [logLikAt, meanAt] at h6 ⊢
      linarith
    have hrow' : K < totalWt raw i * ((fam.glm (F := ℝ)).link.dNatParam (linPred raw b β i)
          * (raw.y i - meanAt fam.glm raw b β i) * ∑ j, design b raw.x i j * (β₀ - β) j) := by
      rw [← linPred_diff, h.dNat, meanAt, hi]
      refine (hεi i).2.trans_le (le_of_eq ?_)
      ring
    have hKi : 0 ≤ totalWt raw i * (C i - logLikAt fam.glm raw b β₀ i) :=
      mul_nonneg (hw i).le (sub_nonneg.mpr (hub i β₀ (h0' i)))
    have hsum : K - ∑ k ∈ Finset.univ.erase i, totalWt raw k * (C k - logLikAt fam.glm raw b β₀ k)
        < ∑ k, totalWt raw k * ((fam.glm (F := ℝ)).link.dNatParam (linPred raw b β k)
          * (raw.y k - meanAt fam.glm raw b β k) * ∑ j, design b raw.x k j * (β₀ - β) j) := by
      rw [← Finset.add_sum_erase _ _ (Finset.mem_univ i)]
      have := Finset.sum_le_sum fun k (_ : k ∈ Finset.univ.erase i) => hrow k
      rw [Finset.sum_neg_distrib] at this
      linarith
    have hsplit := Finset.add_sum_erase Finset.univ
      (fun k => totalWt raw k * (C k - logLikAt fam.glm raw b β₀ k)) (Finset.mem_univ i)
    rw [← hsplit] at hK
    linarith
  -- hence a local maximum
  have hloc : IsLocalMax P β := by
    have hopen : ∀ᶠ β' in 𝓝 β, ∀ i, linPred raw b β' i < -ε := by
      refine eventually_all.mpr fun i => ?_
      have hcont : Continuous fun β' : Vec ℝ (ncols b p) => linPred raw b β' i :=
        (continuous_finsetSum _ fun j _ => continuous_const.mul (continuous_apply j)).add
          continuous_const
      exact hcont.continuousAt.eventually_lt_const (hinner i)
    exact hopen.mono fun β' hβ' => hmax β' fun i => (hβ' i).le
  refine ⟨β, hβadm, ?_⟩
  have hz := IsLocalMax.hasFDerivAt_eq_zero hloc hg
  rw [hx.2.1]
  funext j
  have := congrArg (fun L => L (Pi.single j 1)) hz
  simpa [_root_.sum_apply, Pi.single_apply] using this

/-! ### Non-vacuity -/

/-- Gamma regression with the canonical link; the starting point is admissible. -/
example (std : Bool) (m : ℕ) : ∃ d f, (exRaw ![1, 1, 1]).finalize std true = some d ∧
    regression (exactEnv (1 / 1000) 7) Family.gammaNegRec.glm d
      (exOpts 0 0 (some ![-1, 0]) m) = .ok f ∧
    ∃ β, Admissible .gammaNegRec (exRaw ![1, 1, 1]) true β ∧ f.score β = 0 ∧
      ∀ β', Admissible .gammaNegRec (exRaw ![1, 1, 1]) true β' →
        f.lrTestAgainst β ≤ f.lrTestAgainst β' := by
  obtain ⟨d, hd⟩ := exRaw_finalize ![1, 1, 1] std true
  have hlin : ∀ i, linPred (exRaw ![1, 1, 1]) true ![-1, 0] i = -1 := fun i => by
    rw [exRaw_linPred]; simp
  have hst : ∀ σ, penScore Family.gammaNegRec.glm (exRaw ![1, 1, 1]) true 0 0 σ ![-1, 0] = 0 := by
    intro σ
    funext j
    have hη : (Family.gammaNegRec.glm (F := ℝ)).link.dNatParam (-1) = 1 := rfl
    have hm : (Family.gammaNegRec.glm (F := ℝ)).link.funcInv (-1) = 1 := by
      rw [funcInv_real]
      norm_num
    simp only [penScore, scoreVec, meanAt, hlin, hη, hm, Fin.sum_univ_three, exRaw_totalWt,
      max_self, zero_mul, add_zero]
    rw [onSlopes_zero]
    change Fin 2 at j
    fin_cases j <;> simp [design, exRaw]
  have hs0 : penScore Family.gammaNegRec.glm (exRaw ![1, 1, 1]) true
      (exOpts (k := ncols true 1) 0 0 (some ![-1, 0]) m).l1
      (exOpts (k := ncols true 1) 0 0 (some ![-1, 0]) m).l2 (scale d) ![-1, 0] = 0 := hst _
  obtain ⟨f, hf, -⟩ := C22_stationary_start (options := exOpts 0 0 (some ![-1, 0]) m)
    (β := ![-1, 0])
    (exactEnv_exact (by norm_num : (0 : ℝ) ≤ 1 / 1000) 7) (Family.lawfulAdj .gammaNegRec) hd le_rfl
    rfl ((isUnit_iff_isUnit_det _).mp
      (C30_fullRank_posDef (by norm_num [exactEnv]) (fun i => (exRaw_totalWt_pos _ i).le)
      (fun _ => Family.variance_nonneg .gammaNegRec trivial _) (exRaw_gram_det _)).isUnit) hs0
  have hy : ∀ i, (exRaw ![1, 1, 1]).y i ∈ yDom .gammaNegRec := fun i => by
    fin_cases i <;> simp [exRaw, yDom]
  have h0 : Admissible .gammaNegRec (exRaw ![1, 1, 1]) true ![-1, 0] := fun i => by
    rw [hlin]
    exact Set.mem_Iio.mpr neg_one_lt_zero
  exact ⟨d, f, hd, hf, C87_negative (.inr (.inl rfl)) hy (exRaw_totalWt_pos _) hd le_rfl hf h0⟩

end GLM
