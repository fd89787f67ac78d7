/-
  C87 with an L1 penalty: an optimum exists unless the intercept alone separates the data.
-/
import Verif.Props.Existence
import Verif.Props.Selection

namespace GLM
open Spec Matrix
variable {n p : ℕ} {b : Bool} {env : Env ℝ} {raw : Dataset ℝ n p false} {std : Bool}
  {d : Dataset ℝ n p b} {options : FitOptions ℝ (ncols b p)} {f : Fit ℝ n p b} {fam : Family}

/-- The objective with an L1 penalty in the coordinates `reach` (all slopes kept). -/
noncomputable def reachObjL1 (fam : Family) (raw : Dataset ℝ n p false) (l1 l2 : ℝ)
    (z : Fin n ⊕ Fin p → ℝ) : ℝ :=
  ∑ i, totalWt raw i * (fam.glm (F := ℝ)).logLikeNatural (raw.y i)
    ((fam.glm (F := ℝ)).link.natParam (z (.inl i) + offset raw i))
  - (max l1 0 * ∑ j, |z (.inr j)| + max l2 0 / 2 * ∑ j, z (.inr j) ^ 2)

theorem reachObjL1_reach (hw : ∀ i, 0 ≤ totalWt raw i) (l1 l2 : ℝ) (σ : Fin p → ℝ)
    (β : Vec ℝ (ncols b p)) :
    reachObjL1 fam raw l1 l2 (reach raw b 1 σ β) = penLogLik fam.glm raw b l1 l2 σ β := by
  have hr : ∀ j, reach raw b 1 σ β (.inr j) = σ j * slopes b β j := fun j => by
    change (if (0 : ℝ) < 1 then σ j * slopes b β j else 0) = _
    rw [if_pos one_pos]
  simp only [reachObjL1, penLogLik, penalty, logLik, hr]
  congr 1
  refine Finset.sum_congr rfl fun i _ => ?_
  rcases (hw i).eq_or_lt with h | h
  · rw [← h, zero_mul, zero_mul]
  · have : reach raw b 1 σ β (.inl i) = move raw b β i := by
      change (if 0 < totalWt raw i then move raw b β i else 0) = _
      rw [if_pos h]
    rw [this]
    rfl

theorem reachObjL1_continuous (h : Everywhere fam raw) (l1 l2 : ℝ) :
    Continuous (reachObjL1 fam raw l1 l2) := by
  refine Continuous.sub (continuous_finsetSum _ fun i _ => ?_) (Continuous.add ?_ ?_)
  · refine continuous_const.mul ?_
    have h1 : Continuous fun w => (fam.glm (F := ℝ)).logLikeNatural (raw.y i)
        ((fam.glm (F := ℝ)).link.natParam w) := continuous_iff_continuousAt.mpr fun w =>
      (logLikeAt_hasDerivAt fam h.valid (raw.y i) (h.dom ▸ Set.mem_univ w)).continuousAt
    exact h1.comp ((continuous_apply _).add continuous_const)
  · exact continuous_const.mul (continuous_finsetSum _ fun j _ => (continuous_apply _).abs)
  · exact continuous_const.mul (continuous_finsetSum _ fun j _ => (continuous_apply _).pow 2)

/-- With an L1 penalty the objective has a maximum unless the data are separated by a direction that
no penalty sees. -/
theorem penLogLik_exists_max_l1 (h : Everywhere fam raw) {l1 l2 : ℝ} (hl1 : 0 < l1) {σ : Fin p → ℝ}
    (hσ : ∀ j, 0 < σ j) (hs : ¬ Separated fam raw b 1) :
    ∃ β : Vec ℝ (ncols b p), ∀ β', penLogLik fam.glm raw b l1 l2 σ β'
      ≤ penLogLik fam.glm raw b l1 l2 σ β := by
  choose C a c ha hc hat hcb hle using fun i =>
    logLikeAt_decay h.valid h.pair h.dom (h.y i) (offset raw i)
  set N : (Fin n ⊕ Fin p → ℝ) → ℝ := fun z =>
    ∑ i, totalWt raw i * (a i * max (z (.inl i)) 0 + c i * max (-z (.inl i)) 0)
      + l1 * ∑ j, |z (.inr j)| with hNdef
  have hterm : ∀ i t, 0 ≤ a i * max t 0 + c i * max (-t) 0 := fun i t =>
    add_nonneg (mul_nonneg (ha i) (le_max_right _ _)) (mul_nonneg (hc i) (le_max_right _ _))
  have hNcont : Continuous N := by
    refine Continuous.add (continuous_finsetSum _ fun i _ => ?_)
      (continuous_const.mul (continuous_finsetSum _ fun j _ => (continuous_apply _).abs))
    exact continuous_const.mul ((continuous_const.mul ((continuous_apply _).max continuous_const)).add
      (continuous_const.mul ((continuous_apply _).neg.max continuous_const)))
  have hmax : ∀ k : ℝ, 0 ≤ k → ∀ t : ℝ, max (k * t) 0 = k * max t 0 := fun k hk t => by
    rw [mul_max_of_nonneg _ _ hk, mul_zero]
  have hom : ∀ k : ℝ, 0 ≤ k → ∀ z, N (k • z) = k * N z := by
    intro k hk z
    simp only [hNdef, Pi.smul_apply, smul_eq_mul, abs_mul, abs_of_nonneg hk, ← mul_neg, hmax k hk,
      mul_add, Finset.mul_sum]
    congr 1
    · exact Finset.sum_congr rfl fun i _ => by ring
    · exact Finset.sum_congr rfl fun i _ => by ring
  have hbound : ∀ z, reachObjL1 fam raw l1 l2 z ≤ (∑ i, totalWt raw i * C i) - N z := by
    intro z
    have h1 : ∑ i, totalWt raw i * (fam.glm (F := ℝ)).logLikeNatural (raw.y i)
          ((fam.glm (F := ℝ)).link.natParam (z (.inl i) + offset raw i))
        ≤ ∑ i, totalWt raw i * C i
          - ∑ i, totalWt raw i * (a i * max (z (.inl i)) 0 + c i * max (-z (.inl i)) 0) := by
      rw [← Finset.sum_sub_distrib]
      refine Finset.sum_le_sum fun i _ => ?_
      rw [← mul_sub]
      exact mul_le_mul_of_nonneg_left (hle i _) (h.weights i)
    have h2 : 0 ≤ max l2 0 / 2 * ∑ j, z (.inr j) ^ 2 :=
      mul_nonneg (div_nonneg (le_max_right _ _) (by norm_num))
        (Finset.sum_nonneg fun j _ => sq_nonneg _)
    simp only [reachObjL1, hNdef, max_eq_left hl1.le]
    linarith
  have hpos : ∀ z ∈ LinearMap.range (reach raw b 1 σ), z ≠ 0 → 0 < N z := by
    rintro _ ⟨δ, rfl⟩ hz
    have e1 : 0 ≤ ∑ i, totalWt raw i * (a i * max (reach raw b 1 σ δ (.inl i)) 0
        + c i * max (-reach raw b 1 σ δ (.inl i)) 0) :=
      Finset.sum_nonneg fun i _ => mul_nonneg (h.weights i) (hterm i _)
    have e2 : 0 ≤ l1 * ∑ j, |reach raw b 1 σ δ (.inr j)| :=
      mul_nonneg hl1.le (Finset.sum_nonneg fun j _ => abs_nonneg _)
    by_contra hN0
    have hN1 : N (reach raw b 1 σ δ) ≤ 0 := not_lt.mp hN0
    simp only [hNdef] at hN1
    have z1 := (Finset.sum_eq_zero_iff_of_nonneg fun i _ =>
      mul_nonneg (h.weights i) (hterm i _)).mp (le_antisymm (by linarith) e1)
    have z2 : l1 * ∑ j, |reach raw b 1 σ δ (.inr j)| = 0 := le_antisymm (by linarith) e2
    have hin : ∀ i, 0 < totalWt raw i → reach raw b 1 σ δ (.inl i) = move raw b δ i := fun i hi => by
      change (if 0 < totalWt raw i then move raw b δ i else 0) = _
      rw [if_pos hi]
    have hrow : ∀ i, 0 < totalWt raw i →
        a i * max (move raw b δ i) 0 + c i * max (-move raw b δ i) 0 = 0 := fun i hi => by
      have := z1 i (Finset.mem_univ _)
      rw [hin i hi] at this
      exact (mul_eq_zero.mp this).resolve_left hi.ne'
    have hslope : slopes b δ = 0 := by
      have z3 := (Finset.sum_eq_zero_iff_of_nonneg fun j _ => abs_nonneg _).mp
        ((mul_eq_zero.mp z2).resolve_left hl1.ne')
      funext j
      have z4 := abs_eq_zero.mp (z3 j (Finset.mem_univ _))
      change (if (0 : ℝ) < 1 then σ j * slopes b δ j else 0) = 0 at z4
      rw [if_pos one_pos] at z4
      exact (mul_eq_zero.mp z4).resolve_left (hσ j).ne'
    refine hs ⟨δ, fun i hi hm => ?_, fun i hi hm => ?_, ?_, fun _ => hslope⟩
    · by_contra ht
      have := hrow i hi
      rw [max_eq_left hm.le, max_eq_right (by linarith : -move raw b δ i ≤ 0)] at this
      have := mul_pos (hat i ht) hm
      linarith
    · by_contra ht
      have := hrow i hi
      rw [max_eq_right hm.le, max_eq_left (by linarith : 0 ≤ -move raw b δ i)] at this
      have := mul_pos (hcb i ht) (neg_pos.mpr hm)
      linarith
    · by_contra hno
      push Not at hno
      refine hz (funext fun k => ?_)
      rcases k with i | j
      · change (if 0 < totalWt raw i then move raw b δ i else 0) = 0
        split_ifs with hi
        · exact hno i hi
        · rfl
      · change (if (0 : ℝ) < 1 then σ j * slopes b δ j else 0) = 0
        rw [hslope]; simp
  obtain ⟨_, ⟨β, rfl⟩, hβ⟩ := exists_max_of_decay _ (reachObjL1_continuous h l1 l2) hNcont hom hpos hbound
  refine ⟨β, fun β' => ?_⟩
  rw [← reachObjL1_reach (fam := fam) h.weights l1 l2 σ β',
    ← reachObjL1_reach (fam := fam) h.weights l1 l2 σ β]
  exact hβ _ ⟨β', rfl⟩

/-- The change of the linear predictors along a direction that leaves the slopes alone. -/
theorem move_intercept {δ : Vec ℝ (ncols true p)} (hδ : slopes true δ = 0) (i : Fin n) :
    move raw true δ i = δ (0 : Fin (p + 1)) := by
  change Fin (p + 1) → ℝ at δ
  change ∑ j : Fin (p + 1), (Fin.cons 1 (raw.x i) : Fin (p + 1) → ℝ) j * δ j = δ 0
  rw [Fin.sum_univ_succ]
  simp only [Fin.cons_zero, Fin.cons_succ, one_mul]
  have : ∀ j : Fin p, δ j.succ = 0 := fun j => congrFun hδ j
  simp [this]

/-- Separation by a direction no penalty sees: there is an intercept and the observations with weight,
of which there are some, are all at the top or all at the bottom. -/
theorem separated_penalized {l2 : ℝ} (hl2 : 0 < l2) : Separated fam raw b l2 ↔
    b = true ∧ (∃ i, 0 < totalWt raw i) ∧ ((∀ i, 0 < totalWt raw i → AtTop fam (raw.y i)) ∨
      ∀ i, 0 < totalWt raw i → AtBottom fam (raw.y i)) := by
  constructor
  · rintro ⟨δ, h1, h2, ⟨i, hi, hm⟩, h4⟩
    cases b
    · have : δ = 0 := h4 hl2
      exact absurd (by simp [move, this]) hm
    · have hmv : ∀ k, move raw true δ k = δ (0 : Fin (p + 1)) := fun k => move_intercept (h4 hl2) k
      rw [hmv] at hm
      refine ⟨rfl, ⟨i, hi⟩, ?_⟩
      rcases hm.lt_or_gt with h0 | h0
      · exact .inr fun k hk => h2 k hk (by rw [hmv]; exact h0)
      · exact .inl fun k hk => h1 k hk (by rw [hmv]; exact h0)
  · rintro ⟨rfl, ⟨i, hi⟩, h⟩
    have hsl : ∀ c : ℝ, slopes true (interceptOnly c : Vec ℝ (ncols true p)) = 0 := fun c => by
      funext k; simp [slopes, interceptOnly]
    have hmv : ∀ (c : ℝ) k, move raw true (interceptOnly c : Vec ℝ (ncols true p)) k = c :=
      fun c k => by rw [move_intercept (hsl c)]; rfl
    rcases h with h | h
    · exact ⟨interceptOnly 1, fun k hk _ => h k hk, fun k _ hm => absurd hm (by rw [hmv]; norm_num),
        ⟨i, hi, by rw [hmv]; norm_num⟩, fun _ => hsl 1⟩
    · exact ⟨interceptOnly (-1), fun k _ hm => absurd hm (by rw [hmv]; norm_num), fun k hk _ => h k hk,
        ⟨i, hi, by rw [hmv]; norm_num⟩, fun _ => hsl (-1)⟩

/-- **C87** (L1 penalty).  With an L1 penalty, whatever the features and the L2 strength, some
coefficients minimize the reported test statistic, unless there is an intercept and the observations with
weight are all at the top or all at the bottom of the range of the mean; in that case every coefficients
can be improved upon. -/
theorem C87_l1 (h : Everywhere fam raw) (hd : raw.finalize std b = some d) (hl1 : 0 < options.l1)
    (hf : regression env fam.glm d options = .ok f) :
    (∃ β, ∀ β', f.lrTestAgainst β ≤ f.lrTestAgainst β') ↔
      ¬ (b = true ∧ (∃ i, 0 < totalWt raw i) ∧ ((∀ i, 0 < totalWt raw i → AtTop fam (raw.y i)) ∨
        ∀ i, 0 < totalWt raw i → AtBottom fam (raw.y i))) := by
  rw [← separated_penalized (l2 := 1) one_pos]
  have hlr : ∀ β β', f.lrTestAgainst β ≤ f.lrTestAgainst β' ↔
      penLogLik fam.glm raw b options.l1 options.l2 (scale d) β'
        ≤ penLogLik fam.glm raw b options.l1 options.l2 (scale d) β := fun β β' => by
    rw [C36_lr hd hf, C36_lr hd hf]
    constructor <;> intro h <;> linarith
  simp only [hlr]
  constructor
  · rintro ⟨β, hβ⟩ ⟨δ, h1, h2, h3, h4⟩
    have hk := kkt_of_max h.valid (Dataset.scale_pos hd) (h.adm β) fun β' _ => hβ β'
    obtain ⟨u, -, hu⟩ := hk
    have hpos := separated_score_pos h (l1 := 0) (l2 := 0) le_rfl (scale d) h1 h2 h3
      (fun h => absurd h (lt_irrefl _)) β
    have e : penScore fam.glm raw b 0 0 (scale d) β = scoreVec fam.glm raw b β := by
      funext j
      simp only [penScore, max_self, zero_mul, add_zero, onSlopes_zero, sub_zero]
    rw [e, hu, onSlopes_dot _ _ _ rfl, h4 one_pos] at hpos
    simp at hpos
  · exact penLogLik_exists_max_l1 h hl1 (Dataset.scale_pos hd)

/-! ### Concrete cases -/

/-- Poisson counts all one, any standardization: an L1 fit that succeeds and an optimum exists. -/
example (std : Bool) (m : ℕ) : ∃ d f, (exRaw ![1, 1, 1]).finalize std true = some d ∧
    regression (exactEnv (1 / 1000) 7) Family.poisson.glm d (exOpts 2 3 (some 0) m) = .ok f ∧
    ∃ β, ∀ β', f.lrTestAgainst β ≤ f.lrTestAgainst β' := by
  obtain ⟨d, hd⟩ := exRaw_finalize ![1, 1, 1] std true
  have hs : scoreVec Family.poisson.glm (exRaw ![1, 1, 1]) true 0 = 0 := by
    have := exPoisson_stationary (fun _ => 1) 0
    unfold penScore at this
    funext j
    have h := congrFun this j
    simpa [onSlopes_zero] using h
  obtain ⟨f, h1, -, h2⟩ := C35_zero_start (options := exOpts 2 3 (some 0) m)
    (exactEnv_exact (by norm_num : (0 : ℝ) ≤ 1 / 1000) 7) (Family.lawfulAdj .poisson) hd
    (by norm_num [exOpts]) (by norm_num [exOpts]) (fun i => (exRaw_totalWt_pos _ i).le)
    (Family.variance_nonneg .poisson trivial) (by norm_num) rfl hs
  have hy : ∀ i : Fin 3, (exRaw ![1, 1, 1]).y i = 1 := fun i => by fin_cases i <;> rfl
  have he : Everywhere .poisson (exRaw ![1, 1, 1]) :=
    ⟨trivial, trivial, rfl, fun i => by rw [hy]; simp [yDom],
      fun i => (exRaw_totalWt_pos _ i).le⟩
  refine ⟨d, f, hd, h1, (C87_l1 he hd (by norm_num [exOpts]) h1).mpr ?_⟩
  rintro ⟨-, -, h | h⟩
  · exact absurd (h 0 (exRaw_totalWt_pos _ 0)) (by simp [AtTop])
  · have := h 0 (exRaw_totalWt_pos _ 0)
    rw [hy] at this
    simp [AtBottom] at this

/-- Logistic responses all one: the same fit with `l1 = 2` has no optimum. -/
example {d : Dataset ℝ 3 1 true} {f : Fit ℝ 3 1 true}
    (hd : (exRaw ![1, 1, 1]).finalize true true = some d)
    (hf : regression (exactEnv (1 / 1000) 7) Family.logisticLogit.glm d (exOpts 2 3 (some 0) 9)
      = .ok f) : ¬ ∃ β, ∀ β', f.lrTestAgainst β ≤ f.lrTestAgainst β' := by
  have hy : ∀ i : Fin 3, (exRaw ![1, 1, 1]).y i = 1 := fun i => by fin_cases i <;> rfl
  have he : Everywhere .logisticLogit (exRaw ![1, 1, 1]) :=
    ⟨trivial, trivial, rfl, fun i => by rw [hy]; simp [yDom],
      fun i => (exRaw_totalWt_pos _ i).le⟩
  rw [C87_l1 he hd (by norm_num [exOpts]) hf, not_not]
  exact ⟨rfl, ⟨0, exRaw_totalWt_pos _ 0⟩, .inl fun i _ => by rw [hy]; simp [AtTop]⟩

end GLM
