/-
  C87: a maximum likelihood estimate exists exactly when the data are not separated.
-/
import Verif.Lemmas.Existence
import Verif.Props.Gradient

namespace GLM
open Spec Matrix
variable {n p : ℕ} {b : Bool} {env : Env ℝ} {raw : Dataset ℝ n p false} {std : Bool}
  {d : Dataset ℝ n p b} {options : FitOptions ℝ (ncols b p)} {f : Fit ℝ n p b} {fam : Family}

namespace Spec

/-- Setting of the theorems: a pair with a concave log-likelihood that is defined for every linear
predictor (linear, logistic with either link, Poisson, binomial, exponential and gamma with the log
link), responses in the domain of the family and non-negative weights. -/
structure Everywhere (fam : Family) (raw : Dataset ℝ n p false) : Prop where
  valid : ValidFamily fam
  pair : ConcavePair fam
  dom : predDom fam = Set.univ
  y : ∀ i, raw.y i ∈ yDom fam
  weights : ∀ i, 0 ≤ totalWt raw i

end Spec

theorem Spec.Everywhere.concave (h : Everywhere fam raw) : Spec.Concave fam raw :=
  ⟨h.valid, h.pair, Or.inr h.y, h.weights⟩

theorem Spec.Everywhere.adm (h : Everywhere fam raw) (β : Vec ℝ (ncols b p)) :
    Admissible fam raw b β := fun _ => h.dom ▸ Set.mem_univ _

/-- The coordinates in which the objective is bounded: changes of the weighted linear predictors and,
with an L2 penalty, the scaled slopes. -/
noncomputable def reach (raw : Dataset ℝ n p false) (b : Bool) (l2 : ℝ) (σ : Fin p → ℝ) :
    Vec ℝ (ncols b p) →ₗ[ℝ] (Fin n ⊕ Fin p → ℝ) where
  toFun β := Sum.elim (fun i => if 0 < totalWt raw i then move raw b β i else 0)
    fun j => if 0 < l2 then σ j * slopes b β j else 0
  map_add' x y := by
    funext k
    rcases k with i | j
    · by_cases h : 0 < totalWt raw i <;> simp [h, move, mul_add, Finset.sum_add_distrib]
    · by_cases h : 0 < l2 <;> cases b <;> simp [h, slopes, mul_add]
  map_smul' c x := by
    funext k
    rcases k with i | j
    · by_cases h : 0 < totalWt raw i <;> simp [h, move, Finset.mul_sum, mul_left_comm]
    · by_cases h : 0 < l2 <;> cases b <;> simp [h, slopes, mul_left_comm]

/-- The objective in these coordinates. -/
noncomputable def reachObj (fam : Family) (raw : Dataset ℝ n p false) (l2 : ℝ)
    (z : Fin n ⊕ Fin p → ℝ) : ℝ :=
  ∑ i, totalWt raw i * (fam.glm (F := ℝ)).logLikeNatural (raw.y i)
    ((fam.glm (F := ℝ)).link.natParam (z (.inl i) + offset raw i))
  - max l2 0 / 2 * ∑ j, z (.inr j) ^ 2

theorem reachObj_reach (hw : ∀ i, 0 ≤ totalWt raw i) {l1 : ℝ} (hl1 : l1 ≤ 0) (l2 : ℝ)
    (σ : Fin p → ℝ) (β : Vec ℝ (ncols b p)) :
    reachObj fam raw l2 (reach raw b l2 σ β) = penLogLik fam.glm raw b l1 l2 σ β := by
  simp only [reachObj, penLogLik, penalty, logLik, max_eq_right hl1, zero_mul, zero_add]
  congr 1
  · refine Finset.sum_congr rfl fun i _ => ?_
    rcases (hw i).eq_or_lt with h | h
    · rw [← h, zero_mul, zero_mul]
    · have : reach raw b l2 σ β (.inl i) = move raw b β i := by
        change (if 0 < totalWt raw i then move raw b β i else 0) = _
        rw [if_pos h]
      rw [this]
      rfl
  · rcases le_or_gt l2 0 with h | h
    · rw [max_eq_right h, zero_div, zero_mul, zero_mul]
    · congr 1
      refine Finset.sum_congr rfl fun j _ => ?_
      change (if 0 < l2 then σ j * slopes b β j else 0) ^ 2 = _
      rw [if_pos h]

theorem reachObj_continuous (h : Everywhere fam raw) (l2 : ℝ) :
    Continuous (reachObj fam raw l2) := by
  refine Continuous.sub (continuous_finsetSum _ fun i _ => ?_) ?_
  · refine continuous_const.mul ?_
    have h1 : Continuous fun w => (fam.glm (F := ℝ)).logLikeNatural (raw.y i)
        ((fam.glm (F := ℝ)).link.natParam w) := continuous_iff_continuousAt.mpr fun w =>
      (logLikeAt_hasDerivAt fam h.valid (raw.y i) (h.dom ▸ Set.mem_univ w)).continuousAt
    exact h1.comp ((continuous_apply _).add continuous_const)
  · exact continuous_const.mul (continuous_finsetSum _ fun j _ => (continuous_apply _).pow 2)

/-- Without separation the objective has a maximum. -/
theorem penLogLik_exists_max (h : Everywhere fam raw) {l1 l2 : ℝ} (hl1 : l1 ≤ 0) {σ : Fin p → ℝ}
    (hσ : ∀ j, 0 < σ j) (hs : ¬ Separated fam raw b l2) :
    ∃ β : Vec ℝ (ncols b p), ∀ β', penLogLik fam.glm raw b l1 l2 σ β'
      ≤ penLogLik fam.glm raw b l1 l2 σ β := by
  choose C a c ha hc hat hcb hle using fun i =>
    logLikeAt_decay h.valid h.pair h.dom (h.y i) (offset raw i)
  set N : (Fin n ⊕ Fin p → ℝ) → ℝ := fun z =>
    ∑ i, totalWt raw i * (a i * max (z (.inl i)) 0 + c i * max (-z (.inl i)) 0)
      + max l2 0 * ∑ j, |z (.inr j)| with hNdef
  have hterm : ∀ i t, 0 ≤ a i * max t 0 + c i * max (-t) 0 := fun i t =>
    add_nonneg (mul_nonneg (ha i) (le_max_right _ _)) (mul_nonneg (hc i) (le_max_right _ _))
  have hNcont : Continuous N := by
    refine Continuous.add (continuous_finsetSum _ fun i _ => ?_)
      (continuous_const.mul (continuous_finsetSum _ fun j _ => (continuous_apply _).abs))
    exact continuous_const.mul ((continuous_const.mul ((continuous_apply _).max continuous_const)).add
      (continuous_const.mul ((continuous_apply _).neg.max continuous_const)))
  have hmax : ∀ k : ℝ, 0 ≤ k → ∀ t : ℝ, max (k * t) 0 = k * max t 0 := fun k hk t => by
    rw [mul_max_of_nonneg _ _ hk, mul_zero]
  have hom : ∀ k : ℝ, 0 ≤ k → ∀ z, N (k • z) = k * N z := by
    intro k hk z
    simp only [hNdef, Pi.smul_apply, smul_eq_mul, abs_mul, abs_of_nonneg hk, ← mul_neg, hmax k hk,
      mul_add, Finset.mul_sum]
    congr 1
    · exact Finset.sum_congr rfl fun i _ => by ring
    · exact Finset.sum_congr rfl fun i _ => by ring
  have hbound : ∀ z, reachObj fam raw l2 z
      ≤ (∑ i, totalWt raw i * C i + max l2 0 / 2 * ∑ _j : Fin p, (1 : ℝ)) - N z := by
    intro z
    have h1 : ∑ i, totalWt raw i * (fam.glm (F := ℝ)).logLikeNatural (raw.y i)
          ((fam.glm (F := ℝ)).link.natParam (z (.inl i) + offset raw i))
        ≤ ∑ i, totalWt raw i * C i
          - ∑ i, totalWt raw i * (a i * max (z (.inl i)) 0 + c i * max (-z (.inl i)) 0) := by
      rw [← Finset.sum_sub_distrib]
      refine Finset.sum_le_sum fun i _ => ?_
      rw [← mul_sub]
      exact mul_le_mul_of_nonneg_left (hle i _) (h.weights i)
    have h2 : max l2 0 * ∑ j, |z (.inr j)|
        ≤ max l2 0 / 2 * ∑ _j : Fin p, (1 : ℝ) + max l2 0 / 2 * ∑ j, z (.inr j) ^ 2 := by
      rw [← mul_add, ← Finset.sum_add_distrib, Finset.mul_sum, Finset.mul_sum]
      refine Finset.sum_le_sum fun j _ => ?_
      have h3 : 2 * |z (.inr j)| ≤ 1 + z (.inr j) ^ 2 := by
        nlinarith [sq_nonneg (|z (.inr j)| - 1), sq_abs (z (.inr j))]
      have := mul_le_mul_of_nonneg_left h3 (div_nonneg (le_max_right l2 0)
        (by norm_num : (0 : ℝ) ≤ 2))
      linarith
    simp only [reachObj, hNdef]
    linarith
  have hpos : ∀ z ∈ LinearMap.range (reach raw b l2 σ), z ≠ 0 → 0 < N z := by
    rintro _ ⟨δ, rfl⟩ hz
    have hsum : ∀ z : Fin n ⊕ Fin p → ℝ, 0 ≤ ∑ i, totalWt raw i
        * (a i * max (z (.inl i)) 0 + c i * max (-z (.inl i)) 0) := fun z =>
      Finset.sum_nonneg fun i _ => mul_nonneg (h.weights i) (hterm i _)
    have hsum2 : ∀ z : Fin n ⊕ Fin p → ℝ, 0 ≤ max l2 0 * ∑ j, |z (.inr j)| := fun z =>
      mul_nonneg (le_max_right _ _) (Finset.sum_nonneg fun j _ => abs_nonneg _)
    by_contra hN0
    have e1 := hsum (reach raw b l2 σ δ)
    have e2 := hsum2 (reach raw b l2 σ δ)
    have hN1 : N (reach raw b l2 σ δ) ≤ 0 := not_lt.mp hN0
    simp only [hNdef] at hN1
    have z1 := (Finset.sum_eq_zero_iff_of_nonneg fun i _ =>
      mul_nonneg (h.weights i) (hterm i _)).mp (le_antisymm (by linarith) e1)
    have z2 : max l2 0 * ∑ j, |reach raw b l2 σ δ (.inr j)| = 0 := le_antisymm (by linarith) e2
    have hin : ∀ i, 0 < totalWt raw i → reach raw b l2 σ δ (.inl i) = move raw b δ i := fun i hi => by
      change (if 0 < totalWt raw i then move raw b δ i else 0) = _
      rw [if_pos hi]
    have hrow : ∀ i, 0 < totalWt raw i →
        a i * max (move raw b δ i) 0 + c i * max (-move raw b δ i) 0 = 0 := fun i hi => by
      have := z1 i (Finset.mem_univ _)
      rw [hin i hi] at this
      exact (mul_eq_zero.mp this).resolve_left hi.ne'
    have hslope : 0 < l2 → slopes b δ = 0 := by
      intro hl
      rw [max_eq_left hl.le] at z2
      have z3 := (Finset.sum_eq_zero_iff_of_nonneg fun j _ => abs_nonneg _).mp
        ((mul_eq_zero.mp z2).resolve_left hl.ne')
      funext j
      have z4 := abs_eq_zero.mp (z3 j (Finset.mem_univ _))
      change (if 0 < l2 then σ j * slopes b δ j else 0) = 0 at z4
      rw [if_pos hl] at z4
      exact (mul_eq_zero.mp z4).resolve_left (hσ j).ne'
    refine hs ⟨δ, fun i hi hm => ?_, fun i hi hm => ?_, ?_, hslope⟩
    · by_contra ht
      have := hrow i hi
      rw [max_eq_left hm.le, max_eq_right (by linarith : -move raw b δ i ≤ 0)] at this
      have := mul_pos (hat i ht) hm
      linarith
    · by_contra ht
      have := hrow i hi
      rw [max_eq_right hm.le, max_eq_left (by linarith : 0 ≤ -move raw b δ i)] at this
      have := mul_pos (hcb i ht) (neg_pos.mpr hm)
      linarith
    · by_contra hno
      push Not at hno
      refine hz (funext fun k => ?_)
      rcases k with i | j
      · change (if 0 < totalWt raw i then move raw b δ i else 0) = 0
        split_ifs with hi
        · exact hno i hi
        · rfl
      · change (if 0 < l2 then σ j * slopes b δ j else 0) = 0
        split_ifs with hl
        · rw [hslope hl]; simp
        · rfl
  obtain ⟨_, ⟨β, rfl⟩, hβ⟩ := exists_max_of_decay _ (reachObj_continuous h l2) hNcont hom hpos hbound
  refine ⟨β, fun β' => ?_⟩
  rw [← reachObj_reach (fam := fam) h.weights hl1 l2 σ β', ← reachObj_reach (fam := fam) h.weights hl1 l2 σ β]
  exact hβ _ ⟨β', rfl⟩

/-- With separation the score has a positive component along the separating direction. -/
theorem separated_score_pos (h : Everywhere fam raw) {l1 l2 : ℝ} (hl1 : l1 ≤ 0) (σ : Fin p → ℝ)
    {δ : Vec ℝ (ncols b p)}
    (ht : ∀ i, 0 < totalWt raw i → 0 < move raw b δ i → AtTop fam (raw.y i))
    (hb : ∀ i, 0 < totalWt raw i → move raw b δ i < 0 → AtBottom fam (raw.y i))
    (hne : ∃ i, 0 < totalWt raw i ∧ move raw b δ i ≠ 0) (hl : 0 < l2 → slopes b δ = 0)
    (β : Vec ℝ (ncols b p)) : 0 < penScore fam.glm raw b l1 l2 σ β ⬝ᵥ δ := by
  have h3 : penScore fam.glm raw b l1 l2 σ β = scoreVec fam.glm raw b β - onSlopes b (fun j =>
    max l1 0 * (σ j * SignType.sign (slopes b β j)) + max l2 0 * (σ j ^ 2 * slopes b β j)) := rfl
  have h4 : onSlopes b (fun j => max l1 0 * (σ j * SignType.sign (slopes b β j))
      + max l2 0 * (σ j ^ 2 * slopes b β j)) ⬝ᵥ δ = 0 := by
    rw [max_eq_right hl1]
    rcases le_or_gt l2 0 with h | h
    · rw [max_eq_right h]
      simp only [zero_mul, add_zero]
      rw [onSlopes_zero]
      exact zero_dotProduct δ
    · have hz := hl h
      cases b
      · change δ = 0 at hz
        rw [hz, dotProduct_zero]
      · change Fin (p + 1) → ℝ at δ
        change (Fin.cons 0 _ : Fin (p + 1) → ℝ) ⬝ᵥ δ = 0
        simp only [dotProduct, Fin.sum_univ_succ, Fin.cons_zero, Fin.cons_succ, zero_mul, zero_add]
        refine Finset.sum_eq_zero fun j _ => ?_
        have : δ j.succ = 0 := congrFun hz j
        rw [this, mul_zero]
  rw [h3, sub_dotProduct (scoreVec _ _ _ _) (onSlopes _ _), h4, sub_zero, scoreVec_dot]
  have hmean : ∀ i, meanAt fam.glm raw b β i ∈ meanDom fam := fun i => funcInv_mem fam h.valid (h.adm β i)
  have hpos : ∀ i, 0 < totalWt raw i → move raw b δ i ≠ 0 →
      0 < (raw.y i - meanAt fam.glm raw b β i) * move raw b δ i := by
    intro i hi hm
    have hμ := hmean i
    rcases hm.lt_or_gt with hm | hm
    · refine mul_pos_of_neg_of_neg ?_ hm
      have := hb i hi hm
      cases fam <;> simp only [AtBottom, meanDom, Set.mem_Ioo, Set.mem_Ioi] at this hμ <;> linarith
    · refine mul_pos ?_ hm
      have := ht i hi hm
      cases fam <;> simp only [AtTop, meanDom, Set.mem_Ioo] at this hμ <;> linarith
  have hnn : ∀ i, 0 ≤ totalWt raw i * (fam.glm.link.dNatParam (linPred raw b β i)
      * (raw.y i - meanAt fam.glm raw b β i) * ∑ j, design b raw.x i j * δ j) := by
    intro i
    rcases (h.weights i).eq_or_lt with hi | hi
    · rw [← hi, zero_mul]
    · refine mul_nonneg hi.le ?_
      rw [mul_assoc]
      refine mul_nonneg (dNatParam_pos fam _).le ?_
      by_cases hm : move raw b δ i = 0
      · change 0 ≤ _ * move raw b δ i
        rw [hm, mul_zero]
      · exact (hpos i hi hm).le
  obtain ⟨i, hi, hm⟩ := hne
  refine Finset.sum_pos' (fun i _ => hnn i) ⟨i, Finset.mem_univ _, mul_pos hi ?_⟩
  rw [mul_assoc]
  exact mul_pos (dNatParam_pos fam _) (hpos i hi hm)

/-- C87.  The score of a fit has a zero, that is, a maximum likelihood estimate (L2-penalized, if the
fit is) exists, exactly when the data are not separated.  The features may be collinear. -/
theorem C87_exists (h : Everywhere fam raw) (hd : raw.finalize std b = some d)
    (hl1 : options.l1 ≤ 0) (hf : regression env fam.glm d options = .ok f) :
    (∃ β, f.score β = 0) ↔ ¬ Separated fam raw b options.l2 := by
  have hsc := (C10_external (Family.lawfulAdj fam) hd hl1 hf).2.1
  simp only [hsc]
  constructor
  · rintro ⟨β, hβ⟩ ⟨δ, h1, h2, h3, h4⟩
    have := separated_score_pos h hl1 (scale d) h1 h2 h3 h4 β
    rw [hβ, zero_dotProduct] at this
    exact lt_irrefl _ this
  · intro hs
    obtain ⟨β, hβ⟩ := penLogLik_exists_max h hl1 (Dataset.scale_pos hd) hs
    refine ⟨β, ?_⟩
    have hg := C50_score_gradient hd hf h.valid (h.adm β) (Or.inl hl1)
    rw [hsc] at hg
    have h0 := IsLocalMax.hasFDerivAt_eq_zero (Filter.Eventually.of_forall hβ) hg
    funext j
    have := congrArg (fun L => L (Pi.single j 1)) h0
    simpa [_root_.sum_apply, Pi.single_apply] using this

/-- C87 (the estimate).  Without separation some coefficients minimize the reported test statistic:
nothing has a larger penalized likelihood, and the score vanishes there. -/
theorem C87_optimum (h : Everywhere fam raw) (hd : raw.finalize std b = some d)
    (hl1 : options.l1 ≤ 0) (hf : regression env fam.glm d options = .ok f)
    (hs : ¬ Separated fam raw b options.l2) :
    ∃ β, f.score β = 0 ∧ ∀ β', f.lrTestAgainst β ≤ f.lrTestAgainst β' := by
  obtain ⟨β, hβ⟩ := (C87_exists h hd hl1 hf).mpr hs
  have hx := C10_external (Family.lawfulAdj fam) hd hl1 hf
  refine ⟨β, hβ, fun β' => ?_⟩
  rw [hx.2.2.2.1, hx.2.2.2.1]
  rw [hx.2.1] at hβ
  have := C29_global_optimum h.concave (Dataset.scale_pos hd) (h.adm β) hβ β' (h.adm β')
  linarith

/-- C87 (running away).  With separation the fit can always be improved by larger coefficients: for
every bound some coefficients beat all those within the bound.  In particular whatever the fit
returned is not the optimum. -/
theorem C87_runaway (h : Everywhere fam raw) (hd : raw.finalize std b = some d)
    (hl1 : options.l1 ≤ 0) (hf : regression env fam.glm d options = .ok f)
    (hs : Separated fam raw b options.l2) (R : ℝ) :
    ∃ β', ∀ β : Vec ℝ (ncols b p), (∀ j, |β j| ≤ R) → f.lrTestAgainst β' < f.lrTestAgainst β := by
  have hx := (C10_external (Family.lawfulAdj fam) hd hl1 hf).2.2.2.1
  simp only [hx]
  obtain ⟨δ, h1, h2, h3, h4⟩ := hs
  have hcont : Continuous (penLogLik fam.glm raw b options.l1 options.l2 (scale d)) := by
    have := (reachObj_continuous h options.l2).comp
      (reach raw b options.l2 (scale d)).continuous_of_finiteDimensional
    refine this.congr fun β => ?_
    exact reachObj_reach h.weights hl1 _ _ _
  have hK : IsCompact (Set.Icc (fun _ => -R : Vec ℝ (ncols b p)) fun _ => R) := isCompact_Icc
  have hmem : ∀ β : Vec ℝ (ncols b p), (∀ j, |β j| ≤ R) →
      β ∈ Set.Icc (fun _ => -R : Vec ℝ (ncols b p)) fun _ => R := fun β hβ =>
    ⟨fun j => (abs_le.mp (hβ j)).1, fun j => (abs_le.mp (hβ j)).2⟩
  rcases (Set.Icc (fun _ => -R : Vec ℝ (ncols b p)) fun _ => R).eq_empty_or_nonempty with he | hne
  · exact ⟨0, fun β hβ => absurd (hmem β hβ) (by rw [he]; exact Set.notMem_empty _)⟩
  · obtain ⟨β₀, -, hmax⟩ := hK.exists_isMaxOn hne hcont.continuousOn
    refine ⟨β₀ + δ, fun β hβ => ?_⟩
    have e1 : penLogLik fam.glm raw b options.l1 options.l2 (scale d) β
      ≤ penLogLik fam.glm raw b options.l1 options.l2 (scale d) β₀ := hmax (hmem β hβ)
    have e2 := penLogLik_gap (raw := raw) (fam := fam) options.l1 options.l2 (Dataset.scale_pos hd)
      (β₀ + δ) β₀
    have e3 := Finset.sum_nonneg fun i (_ : i ∈ Finset.univ) =>
      gapAt_nonneg h.concave (h.adm (β₀ + δ)) (h.adm β₀) i
    have e4 := ridge_nonneg (b := b) options.l2 (scale d) (β₀ - (β₀ + δ))
    have e5 := separated_score_pos h hl1 (scale d) h1 h2 h3 h4 (β₀ + δ)
    have e6 : β₀ - (β₀ + δ) = -δ := by abel
    rw [e6] at e2 e4
    rw [dotProduct_neg] at e2
    linarith

/-- C87 (never stationary).  With separation no coefficients, those returned included, have a
vanishing score. -/
theorem C87_separated_score (h : Everywhere fam raw) (hd : raw.finalize std b = some d)
    (hl1 : options.l1 ≤ 0) (hf : regression env fam.glm d options = .ok f)
    (hs : Separated fam raw b options.l2) : f.score f.result ≠ 0 := fun h0 =>
  (C87_exists h hd hl1 hf).mp ⟨_, h0⟩ hs

/-- C87 (nothing to separate).  Linear regression, and exponential and gamma regression with the log
link, always have an estimate, whatever the features. -/
theorem C87_always (hfam : fam = .linear ∨ fam = .exponentialLog ∨ fam = .gammaLog)
    (h : Everywhere fam raw) (hd : raw.finalize std b = some d)
    (hl1 : options.l1 ≤ 0) (hf : regression env fam.glm d options = .ok f) :
    ∃ β, f.score β = 0 ∧ ∀ β', f.lrTestAgainst β ≤ f.lrTestAgainst β' := by
  refine C87_optimum h hd hl1 hf ?_
  rintro ⟨δ, h1, h2, ⟨i, hi, hm⟩, -⟩
  rcases hm.lt_or_gt with hm | hm
  · have := h2 i hi hm
    rcases hfam with rfl | rfl | rfl <;> exact this
  · have := h1 i hi hm
    rcases hfam with rfl | rfl | rfl <;> exact this

/-- C87 (ridge, no intercept).  With a positive L2 strength and no intercept there is always an
estimate. -/
theorem C87_ridge {d : Dataset ℝ n p false} {options : FitOptions ℝ (ncols false p)}
    {f : Fit ℝ n p false} (h : Everywhere fam raw) (hd : raw.finalize std false = some d)
    (hl1 : options.l1 ≤ 0) (hl2 : 0 < options.l2)
    (hf : regression env fam.glm d options = .ok f) :
    ∃ β, f.score β = 0 ∧ ∀ β', f.lrTestAgainst β ≤ f.lrTestAgainst β' := by
  refine C87_optimum h hd hl1 hf ?_
  rintro ⟨δ, -, -, ⟨i, -, hm⟩, h4⟩
  have : δ = 0 := h4 hl2
  exact hm (by simp [move, this])

/-- C87 (ridge with an intercept).  With a positive L2 strength and an intercept there is an estimate
exactly when the observations with weight are neither all at the top nor all at the bottom. -/
theorem C87_ridge_intercept {d : Dataset ℝ n p true} {options : FitOptions ℝ (ncols true p)}
    {f : Fit ℝ n p true} (h : Everywhere fam raw) (hd : raw.finalize std true = some d)
    (hl1 : options.l1 ≤ 0) (hl2 : 0 < options.l2) (hpos : ∃ i, 0 < totalWt raw i)
    (hf : regression env fam.glm d options = .ok f) :
    (∃ β, f.score β = 0) ↔ (∃ i, 0 < totalWt raw i ∧ ¬ AtTop fam (raw.y i)) ∧
      ∃ i, 0 < totalWt raw i ∧ ¬ AtBottom fam (raw.y i) := by
  rw [C87_exists h hd hl1 hf]
  have hmove : ∀ (δ : Vec ℝ (ncols true p)), slopes true δ = 0 → ∀ i, move raw true δ i = δ 0 := by
    intro δ hδ i
    change Fin (p + 1) → ℝ at δ
    change ∑ j : Fin (p + 1), (Fin.cons 1 (raw.x i) : Fin (p + 1) → ℝ) j * δ j = δ 0
    rw [Fin.sum_univ_succ]
    simp only [Fin.cons_zero, Fin.cons_succ, one_mul]
    have : ∀ j : Fin p, δ j.succ = 0 := fun j => congrFun hδ j
    simp [this]
  have hconst : ∀ c : ℝ, slopes true (fun k : Fin (p + 1) => if k = 0 then c else 0) = 0 := by
    intro c
    funext j
    change (if j.succ = 0 then c else 0) = 0
    rw [if_neg (Fin.succ_ne_zero j)]
  constructor
  · intro hs
    obtain ⟨i₀, hi₀⟩ := hpos
    constructor
    · by_contra hno
      push Not at hno
      refine hs ⟨fun k : Fin (p + 1) => if k = 0 then 1 else 0, fun i hi _ => hno i hi,
        fun i hi hm => ?_, ⟨i₀, hi₀, ?_⟩, fun _ => hconst 1⟩
      · rw [hmove _ (hconst 1)] at hm
        exact absurd hm (by norm_num)
      · rw [hmove _ (hconst 1)]
        norm_num
    · by_contra hno
      push Not at hno
      refine hs ⟨fun k : Fin (p + 1) => if k = 0 then -1 else 0, fun i hi hm => ?_,
        fun i hi _ => hno i hi, ⟨i₀, hi₀, ?_⟩, fun _ => hconst (-1)⟩
      · rw [hmove _ (hconst (-1))] at hm
        exact absurd hm (by norm_num)
      · rw [hmove _ (hconst (-1))]
        norm_num
  · rintro ⟨⟨i, hi, ht⟩, ⟨k, hk, hb⟩⟩ ⟨δ, h1, h2, ⟨m, hm, hm0⟩, h4⟩
    have hmv := hmove δ (h4 hl2)
    rw [hmv] at hm0
    rcases hm0.lt_or_gt with h0 | h0
    · exact hb (h2 k hk (by rw [hmv]; exact h0))
    · exact ht (h1 i hi (by rw [hmv]; exact h0))

/-! ### Non-vacuity -/

/-- Three observations with responses 1, 0, 1 at 0, 1, 2 are not separated: a straight line cannot be
non-negative at the ends, non-positive in the middle and not zero. -/
theorem exRaw_notSeparated (l2 : ℝ) : ¬ Separated .logisticLogit (exRaw ![1, 0, 1]) true l2 := by
  rintro ⟨δ, h1, h2, ⟨i, -, hi⟩, -⟩
  change Fin 2 → ℝ at δ
  have hm : ∀ i, move (exRaw ![1, 0, 1]) true δ i = δ 0 + ![0, 1, 2] i * δ 1 := by
    intro i
    change ∑ j : Fin 2, (Fin.cons 1 (fun _ => ![0, 1, 2] i) : Fin 2 → ℝ) j * δ j = _
    rw [Fin.sum_univ_two]
    simp
  have hw := exRaw_totalWt_pos ![1, 0, 1]
  have e0 : 0 ≤ move (exRaw ![1, 0, 1]) true δ 0 := by
    by_contra h
    exact one_ne_zero (α := ℝ) (h2 0 (hw 0) (not_le.mp h))
  have e1 : move (exRaw ![1, 0, 1]) true δ 1 ≤ 0 := by
    by_contra h
    exact zero_ne_one (α := ℝ) (h1 1 (hw 1) (not_le.mp h))
  have e2 : 0 ≤ move (exRaw ![1, 0, 1]) true δ 2 := by
    by_contra h
    exact one_ne_zero (α := ℝ) (h2 2 (hw 2) (not_le.mp h))
  rw [hm] at e0 e1 e2 hi
  simp at e0 e1 e2
  have d0 : δ 0 = 0 := by linarith
  have d1 : δ 1 = 0 := by linarith
  rw [d0, d1] at hi
  simp at hi

theorem exRaw_everywhere : Everywhere .logisticLogit (exRaw ![1, 0, 1]) where
  valid := trivial
  pair := trivial
  dom := rfl
  y i := by fin_cases i <;> simp [exRaw, yDom]
  weights i := (exRaw_totalWt_pos _ i).le

/-- `C87_exists`, `C87_optimum` and `C87_ridge_intercept`: data that are not separated. -/
example (std : Bool) (m : ℕ) : ∃ d f, (exRaw ![1, 0, 1]).finalize std true = some d ∧
    regression (exactEnv (1 / 1000) 7) Family.logisticLogit.glm d (exOpts 0 0 (some 0) m) = .ok f ∧
    (∃ β, f.score β = 0) ∧ ∃ β, f.score β = 0 ∧ ∀ β', f.lrTestAgainst β ≤ f.lrTestAgainst β' := by
  obtain ⟨d, hd⟩ := exRaw_finalize ![1, 0, 1] std true
  have hst : ∀ σ, penScore Family.logisticLogit.glm (exRaw ![1, 0, 1]) true 0 0 σ 0 = 0 := by
    intro σ
    funext j
    have hlin : ∀ i, linPred (exRaw ![1, 0, 1]) true 0 i = 0 := fun i => by
      rw [exRaw_linPred]; simp
    have h0 : slopes true (0 : Vec ℝ (ncols true 1)) = 0 := rfl
    have hη : (Family.logisticLogit.glm (F := ℝ)).link.dNatParam 0 = 1 := rfl
    have hm : (Family.logisticLogit.glm (F := ℝ)).link.funcInv 0 = 1 / 2 := by
      rw [funcInv_real]
      norm_num
    simp only [penScore, scoreVec, meanAt, hlin, h0, hη, hm, Fin.sum_univ_three, exRaw_totalWt,
      max_self, zero_mul, add_zero, onSlopes_zero]
    change Fin 2 at j
    fin_cases j <;> simp [design, exRaw] <;> norm_num
  obtain ⟨f, hf, -⟩ := C22_stationary_start (options := exOpts 0 0 (some 0) m)
    (exactEnv_exact (by norm_num : (0 : ℝ) ≤ 1 / 1000) 7) (Family.lawfulAdj .logisticLogit) hd le_rfl
    rfl ((isUnit_iff_isUnit_det _).mp
      (C30_fullRank_posDef (by norm_num [exactEnv]) (fun i => (exRaw_totalWt_pos _ i).le)
      (fun _ => Family.variance_nonneg .logisticLogit trivial _) (exRaw_gram_det _)).isUnit) (hst _)
  exact ⟨d, f, hd, hf, (C87_exists exRaw_everywhere hd le_rfl hf).mpr (exRaw_notSeparated _),
    C87_optimum exRaw_everywhere hd le_rfl hf (exRaw_notSeparated _)⟩

/-- Options with a wide tolerance. -/
def exLoose (m : ℕ) : FitOptions ℝ (ncols false 1) where
  maxIter := m
  tol := 10
  l2 := 0
  l1 := 0
  initGuess := some fun _ => 0

theorem exLooseLogLike (v : Vec ℝ (ncols false 1)) :
    (Family.logisticLogit.glm : Glm ℝ).logLike exData v = v 0 - Real.log (1 + Real.exp (v 0)) := by
  simp only [Glm.logLike, vsum_real, Dataset.applyTotalWeights, Dataset.applyFreqWeights,
    Dataset.applyVarWeights, exData, Glm.logLikeTerms, Dataset.linearPredictorStd,
    Mat.dotV, vdotBy_real, Finset.univ_unique, Finset.sum_singleton]
  rw [logLikeNatural_real, natParam_real]
  simp [cumulant]

theorem exLooseReg (m : ℕ) : getReg (exLoose m) = .null := by
  simp [getReg, exLoose]

/-- Logistic regression on one success returns, although the data are separated. -/
theorem exLooseRun : ∃ f, regression exEnv Family.logisticLogit.glm exData (exLoose 3) = .ok f := by
  have hinit : initialGuess exEnv Family.logisticLogit.glm exData (exLoose 3) = fun _ => 0 := rfl
  set s := Irls.new Family.logisticLogit.glm exData (fun _ => 0) (exLoose 3) with hs
  have hsol : s.sol exEnv Family.logisticLogit.glm exData = .ok fun _ => 2 := by
    simp only [hs, Irls.sol, Irls.new, exLooseReg, Reg.prepare, Reg.irlsMat, Reg.irlsVec, exEnv]
    congr 1
    funext j
    have hm : (Family.logisticLogit.glm (F := ℝ)).link.funcInv 0 = 1 / 2 := by
      rw [funcInv_real]
      norm_num
    have ha : ∀ e v ω, (Family.logisticLogit.glm (F := ℝ)).link.adjustErrorsVariance e v ω = (e, v) :=
      fun _ _ _ => rfl
    have hv : (Family.logisticLogit.glm (F := ℝ)).variance (1 / 2) = 1 / 4 := by
      rw [variance_real]
      norm_num [varianceFn]
    simp only [Irls.irlsMatVec, Glm.mean, exData, vsub, Dataset.xConj, Dataset.weightCols,
      Mat.tr, Mat.dotM, Mat.dotV, ha, vdotBy_real]
    simp [hm]
    rw [← one_div, hv]
    norm_num
  have hlt : Real.log (1 + Real.exp 2) < 2 + Real.log 2 := by
    have e : (2 : ℝ) + Real.log 2 = Real.log (Real.exp 2 * 2) := by
      rw [Real.log_mul (Real.exp_pos _).ne' two_ne_zero, Real.log_exp]
    rw [e]
    exact Real.log_lt_log (by positivity) (by linarith [Real.add_one_le_exp 2])
  have hlog2 : Real.log 2 ≤ Real.log (1 + Real.exp 2) :=
    Real.log_le_log two_pos (by linarith [Real.add_one_le_exp 2])
  have h11 : (1 : ℝ) + 1 = 2 := by norm_num
  have hgt : Scalar.gt (s.nextObj Family.logisticLogit.glm exData fun _ => 2) s.lastObj = true := by
    simp only [Irls.nextObj, Irls.lastObj, hs, Irls.new, exLooseReg, Reg.prepare, Reg.irlsLike,
      exLooseLogLike, gt_real, Real.exp_zero, h11, add_zero]
    linarith
  have hne : vecEq (fun _ => 2 : Vec ℝ (ncols false 1)) s.guess = false := by
    rw [Bool.eq_false_iff]
    simp [vecEq, hs, Irls.new, List.finRange]
  have hsm : s.small Family.logisticLogit.glm exData (exLoose 3).tol (fun _ => 2) = true := by
    simp only [Irls.small, smallDelta, smallDeltaVec, Irls.nextObj, Irls.lastObj, hs, Irls.new,
      exLooseReg, Reg.prepare, Reg.irlsLike, exLooseLogLike, Bool.and_eq_true, le_real, vsub,
      vsum_real, ofNat_real, Real.exp_zero, h11, add_zero, abs_real]
    simp only [exLoose]
    refine ⟨?_, by norm_num⟩
    rw [abs_le]
    constructor <;> norm_num <;> linarith
  have ht : (s.reg.prepare s.guess).terminateOk (exLoose 3).tol = true := by
    simp [hs, Irls.new, exLooseReg, Reg.prepare, Reg.terminateOk]
  have hnext := Irls.nextRaw_full (tol := (exLoose 3).tol) rfl hsol ht hne hgt
  rw [hsm] at hnext
  have hloop := fitLoop_eq exEnv Family.logisticLogit.glm exData (exLoose 3) s none
  rw [hnext] at hloop
  dsimp only at hloop
  rw [regression_eq, hinit, ← hs, hloop]
  rw [if_neg (by simp [Irls.prep, hs, Irls.new, exLoose]), fitLoop_eq, Irls.nextRaw_done rfl]
  exact ⟨_, rfl⟩

/-- `C87_runaway` and `C87_separated_score`: one success is separated data. -/
example : ∃ f, regression exEnv Family.logisticLogit.glm exData (exLoose 3) = .ok f ∧
    f.score f.result ≠ 0 ∧ ∀ R, ∃ β', ∀ β : Vec ℝ (ncols false 1), (∀ j, |β j| ≤ R) →
      f.lrTestAgainst β' < f.lrTestAgainst β := by
  obtain ⟨f, hf⟩ := exLooseRun
  have hd : exData.finalize false false = some exData := rfl
  have hw : ∀ i, totalWt exData i = 1 := fun i => by simp [totalWt, freq, varWt, exData]
  have he : Everywhere .logisticLogit exData :=
    ⟨trivial, trivial, rfl, fun i => by simp [exData, yDom], fun i => by rw [hw]; norm_num⟩
  have hmv : ∀ i, move exData false (fun _ => 1) i = 1 := fun i => by
    change ∑ j : Fin 1, (1 : ℝ) * 1 = 1
    simp
  have hs : Separated .logisticLogit exData false (exLoose 3).l2 :=
    ⟨fun _ => 1, fun i _ _ => rfl, fun i _ h => absurd h (by rw [hmv]; norm_num),
      ⟨0, by rw [hw]; norm_num, by rw [hmv]; norm_num⟩, fun h => absurd h (lt_irrefl _)⟩
  exact ⟨f, hf, C87_separated_score he hd le_rfl hf hs, C87_runaway he hd le_rfl hf hs⟩

end GLM
