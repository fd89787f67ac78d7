/-
  C23, C57: the Linear family is weighted least squares.
-/
import Verif.Lemmas.LeastSquares
import Verif.Props.Newton
import Verif.Lemmas.Witness
import Mathlib.Analysis.SpecificLimits.Basic
import Mathlib.Topology.Instances.Matrix

namespace GLM
open Spec Matrix
variable {n p : ℕ} {b : Bool} {env : Env ℝ} {raw : Dataset ℝ n p false} {std : Bool}
  {d : Dataset ℝ n p b} {options : FitOptions ℝ (ncols b p)} {βs : Vec ℝ (ncols b p)}

/-- The contraction factor of one step. -/
noncomputable def contraction (eps : ℝ) : ℝ := eps / (1 + eps)

theorem contraction_nonneg (he : env.Exact) : 0 ≤ contraction env.eps :=
  div_nonneg he.eps_nonneg (by linarith [he.eps_nonneg])

theorem contraction_lt_one (he : env.Exact) : contraction env.eps < 1 := by
  unfold contraction
  rw [div_lt_one (by linarith [he.eps_nonneg])]; linarith

theorem lin_newtonMat {eps l2 : ℝ} (hl2 : l2 ≤ 0) (σ : Fin p → ℝ) (β : Vec ℝ (ncols b p)) :
    newtonMat eps linG raw b l2 σ β = (1 + eps) • gram raw b := by
  have : ridgeMat l2 σ b = 0 := by
    rw [ridgeMat, max_eq_right hl2]; simp [onSlopes_zero]
  rw [newtonMat, lin_fisher, this, add_zero, add_smul, one_smul]

theorem lin_penScore {l1 l2 : ℝ} (hl1 : l1 ≤ 0) (hl2 : l2 ≤ 0) (σ : Fin p → ℝ)
    (hβ : scoreVec linG raw b βs = 0) (β : Vec ℝ (ncols b p)) :
    penScore linG raw b l1 l2 σ β = gram raw b *ᵥ (βs - β) := by
  have h1 : penScore linG raw b l1 l2 σ β = scoreVec linG raw b β := by
    funext j
    simp [penScore, max_eq_right hl1, max_eq_right hl2, onSlopes_zero]
  have h2 := lin_score_add (raw := raw) βs (β - βs)
  rw [add_sub_cancel, hβ, zero_sub] at h2
  rw [h1, h2, ← mulVec_neg, neg_sub]

/-- The standing assumptions: exact arithmetic, an unregularized model with non-negative weights and
a design of full column rank, and its least-squares solution. -/
structure LinSetting (env : Env ℝ) (raw : Dataset ℝ n p false) (std : Bool) (d : Dataset ℝ n p b)
    (options : FitOptions ℝ (ncols b p)) (βs : Vec ℝ (ncols b p)) : Prop where
  exact : env.Exact
  built : raw.finalize std b = some d
  noL1 : options.l1 ≤ 0
  noL2 : options.l2 ≤ 0
  weights : ∀ i, 0 ≤ totalWt raw i
  rank : IsUnit (gram raw b).det
  solution : IsLeastSquares raw b βs

namespace LinSetting
variable (h : LinSetting env raw std d options βs)
include h

theorem score_eq : scoreVec linG raw b βs = 0 := (isLeastSquares_iff h.weights βs).mp h.solution

theorem det_newton (β : Vec ℝ (ncols b p)) :
    IsUnit (newtonMat env.eps linG raw b options.l2 (scale d) β).det := by
  rw [lin_newtonMat h.noL2, det_smul]
  have : (1 + env.eps) ≠ 0 := by have := h.exact.eps_nonneg; linarith
  exact (isUnit_iff_ne_zero.mpr (pow_ne_zero _ this)).mul h.rank

/-- One exact step. -/
theorem sol {s : Irls ℝ (ncols b p)} (hr : Reg.Same s.reg (getReg options)) :
    s.sol env linG d = .ok (d.transformBeta
      (βs + contraction env.eps • (d.inverseTransformBeta s.guess - βs))) := by
  refine sol_eq h.exact (Family.lawfulAdj .linear) h.built h.noL1 hr (h.det_newton _) ?_
  rw [lin_newtonMat h.noL2, lin_penScore h.noL1 h.noL2 _ h.score_eq, smul_mulVec, ← mulVec_smul]
  congr 1
  have : (1 + env.eps) ≠ 0 := by have := h.exact.eps_nonneg; linarith
  funext j
  simp only [Pi.smul_apply, Pi.sub_apply, Pi.add_apply, smul_eq_mul, contraction]
  field_simp
  ring

/-- The log-likelihood of the next point is larger, unless the point is the solution. -/
theorem improves {β : Vec ℝ (ncols b p)} (hne : β ≠ βs) :
    logLik linG raw b β
      < logLik linG raw b (βs + contraction env.eps • (β - βs)) := by
  have h1 := sse_add (raw := raw) βs (β - βs)
  have h2 := sse_add (raw := raw) βs (contraction env.eps • (β - βs))
  rw [h.score_eq, zero_dotProduct] at h1 h2
  rw [add_sub_cancel] at h1
  rw [mulVec_smul, smul_dotProduct, dotProduct_smul, smul_eq_mul, smul_eq_mul] at h2
  rw [lin_logLik, lin_logLik, h1, h2]
  have hpos := gram_pos (raw := raw) (b := b) h.weights h.rank (sub_ne_zero.mpr hne)
  have hc0 := contraction_nonneg h.exact
  have hc1 := contraction_lt_one h.exact
  have : contraction env.eps * (contraction env.eps * ((β - βs) ⬝ᵥ gram raw b *ᵥ (β - βs)))
      < (β - βs) ⬝ᵥ gram raw b *ᵥ (β - βs) := by
    have : contraction env.eps * contraction env.eps < 1 := by nlinarith
    nlinarith
  linarith

theorem step_ext (β : Vec ℝ (ncols b p)) :
    d.inverseTransformBeta (d.transformBeta β) = β :=
  (Dataset.finalize_wf h.built).inverseTransformBeta_transformBeta β

/-- What one iterator call does: stop at the solution (or when marked done), otherwise take the full
step. -/
theorem next {initial : Vec ℝ (ncols b p)} {s : Irls ℝ (ncols b p)}
    (hi : Irls.Inv linG d options initial s) (hdone : s.done = false) :
    (d.inverseTransformBeta s.guess = βs ∧
      s.nextRaw env linG d options.tol = .stop s.prep) ∨
    (d.inverseTransformBeta s.guess ≠ βs ∧
      ∃ v l, d.inverseTransformBeta v
          = βs + contraction env.eps • (d.inverseTransformBeta s.guess - βs) ∧
        s.nextRaw env linG d options.tol
          = .cand { s.prep with done := s.small linG d options.tol v } v l) := by
  have hwf := Dataset.finalize_wf h.built
  have hs := h.sol (s := s) hi.same
  obtain ⟨t1, t2, t3⟩ := hi.same.noL1 (getReg_noL1 h.noL1) s.guess
  have ht : (s.reg.prepare s.guess).terminateOk options.tol = true := by rw [t1]; exact t3 _
  by_cases hβ : d.inverseTransformBeta s.guess = βs
  · refine Or.inl ⟨hβ, Irls.nextRaw_equal hdone hs ht ?_⟩
    rw [hβ, sub_self, smul_zero, add_zero, ← hβ, hwf.transformBeta_inverseTransformBeta]
    simp [vecEq]
  · refine Or.inr ⟨hβ, _, _, h.step_ext _, Irls.nextRaw_full hdone hs ht ?_ ?_⟩
    · rw [Bool.eq_false_iff]
      intro heq
      simp only [vecEq, List.all_eq_true, List.mem_finRange, forall_const, eq_real] at heq
      have h1 : d.transformBeta (βs + contraction env.eps • (d.inverseTransformBeta s.guess - βs))
          = s.guess := funext heq
      have h2 := congrArg d.inverseTransformBeta h1
      rw [h.step_ext] at h2
      refine (h.improves hβ).ne ?_
      rw [h2]
    · rw [gt_real]
      simp only [Irls.nextObj, Irls.lastObj, t1, t2, hi.last, getReg_likelihood, penalty,
        max_eq_right h.noL1, max_eq_right h.noL2, zero_mul, zero_div, add_zero, neg_zero]
      rw [Dataset.finalize_logLike _ h.built, Dataset.finalize_logLike' _ h.built]
      exact h.improves hβ

end LinSetting

/-- Iterating an affine contraction along a list. -/
theorem chain_closed_form {k : ℕ} (r : ℝ) (βs : Vec ℝ k) (x0 : Vec ℝ k) (l : List (Vec ℝ k))
    (h : (x0 :: l).IsChain fun β β' => β' = βs + r • (β - βs)) :
    ∀ i (hi : i < l.length), l[i] = βs + r ^ (i + 1) • (x0 - βs) := by
  induction l generalizing x0 with
  | nil => intro i hi; simp at hi
  | cons a l ih =>
    rw [List.isChain_cons_cons] at h
    obtain ⟨h1, h2⟩ := h
    intro i hi
    cases i with
    | zero => simpa using h1
    | succ i =>
      have := ih a h2 i (by simpa using hi)
      simp only [List.getElem_cons_succ]
      rw [this, h1, add_sub_cancel_left, smul_smul, ← pow_succ]

/-- C23.  For the Linear family (exact arithmetic, no regularization, full column rank), every
recorded point is the weighted least-squares solution plus the initial error times
`(ε/(1+ε))^(k+1)`, whatever the start; so is the result, with `k = n_iter`. -/
theorem C23_geometric (h : LinSetting env raw std d options βs) {f : Fit ℝ n p b}
    (hf : regression env Family.linear.glm d options = .ok f) :
    let β0 := d.inverseTransformBeta (initialGuess env linG d options)
    (∀ k (hk : k < f.history.length), (f.history[k]).guess
      = βs + (env.eps / (1 + env.eps)) ^ (k + 1) • (β0 - βs)) ∧
    f.result = βs + (env.eps / (1 + env.eps)) ^ f.nIter • (β0 - βs) := by
  intro β0
  obtain ⟨hist, hh, hc⟩ := regression_chain hf
    (R := fun γ v => d.inverseTransformBeta v
      = βs + contraction env.eps • (d.inverseTransformBeta γ - βs))
    (by
      intro s s' v l hi hn
      by_cases hdone : s.done = true
      · rw [Irls.nextRaw_done hdone] at hn; simp at hn
      · rcases h.next hi (by simpa using hdone) with ⟨-, h2⟩ | ⟨-, v', l', h2, h3⟩
        · rw [h2] at hn; simp at hn
        · rw [h3] at hn
          simp only [RawNext.cand.injEq] at hn
          rw [← hn.2.1]; exact h2)
  have e : β0 :: f.history.map IrlsStep.guess
      = (initialGuess env linG d options :: hist.map IrlsStep.guess).map
        d.inverseTransformBeta := by
    rw [hh]; simp [Function.comp_def, β0]
  have hchain : (β0 :: f.history.map IrlsStep.guess).IsChain fun β β' =>
      β' = βs + contraction env.eps • (β - βs) := by
    rw [e, List.isChain_map]; exact hc
  have hcl := chain_closed_form _ βs β0 _ hchain
  have h1 : ∀ k (hk : k < f.history.length), (f.history[k]).guess
      = βs + (env.eps / (1 + env.eps)) ^ (k + 1) • (β0 - βs) := by
    intro k hk
    have := hcl k (by simpa using hk)
    simpa [contraction] using this
  refine ⟨h1, ?_⟩
  have hlen := (C24_ok hf).1
  by_cases hne : f.history = []
  · rw [hlen, hne]
    simp only [List.length_nil, pow_zero, one_smul, add_sub_cancel]
    rcases C25_best_of_history hf with ⟨-, -, h3, -⟩ | ⟨pre, opt, post, h3, -⟩
    · exact h3
    · rw [hne] at h3; simp at h3
  · have := (C26_monotone h.noL1 hf).2.1 hne
    have hpos : 0 < f.history.length := List.length_pos_iff.mpr hne
    rw [List.getLast?_eq_getElem?, List.getElem?_eq_getElem (by omega)] at this
    have h3 := h1 (f.history.length - 1) (by omega)
    simp only [Option.some.injEq] at this
    rw [this] at h3
    rw [hlen]
    have e2 : f.history.length - 1 + 1 = f.history.length := by omega
    rw [e2] at h3
    exact h3

/-- C57 (no failure): such a fit returns either a fit or `MaxIter`; it never fails in linear
algebra, never runs the line search, and never diverges. -/
theorem C57_only_maxIter (h : LinSetting env raw std d options βs) :
    (∃ f, regression env Family.linear.glm d options = .ok f) ∨
      ∃ m hist, regression env Family.linear.glm d options = .err (.maxIter m hist) := by
  obtain ⟨-, -, h3, h4, h5⟩ := fitLoop_inv (env := env) (g := linG) (data := d) (options := options)
    (P := fun _ => True) (fun _ _ _ _ _ _ _ => trivial) _ none
    (Irls.Inv.new (initial := initialGuess env linG d options)) trivial
  rw [regression_eq]
  have key : ∀ s s', Irls.Inv linG d options (initialGuess env linG d options) s →
      s.nextRaw env linG d options.tol ≠ .linalg s' ∧
      s.nextRaw env linG d options.tol ≠ .diverge s' := by
    intro s s' hi
    by_cases hdone : s.done = true
    · rw [Irls.nextRaw_done hdone]; simp
    · rcases h.next hi (by simpa using hdone) with ⟨-, h2⟩ | ⟨-, v', l', h2, h3⟩
      · rw [h2]; simp
      · rw [h3]; simp
  split
  · exact Or.inl ⟨_, rfl⟩
  · rename_i e hr
    cases e with
    | linalg =>
      obtain ⟨s0, s', hi, -, hn⟩ := h3 hr
      exact absurd hn (key s0 s' hi).1
    | maxIter m hist => exact Or.inr ⟨m, hist, rfl⟩
  · rename_i hr; exact absurd hr h5
  · rename_i hr
    obtain ⟨s0, s', hi, -, hn⟩ := h4 hr
    exact absurd hn (key s0 s' hi).2

/-- C57 (total correctness): with machine epsilon zero and a budget of at least one step, a Linear
fit succeeds from any start and returns the weighted least-squares solution. -/
theorem C57_exact_least_squares (h : LinSetting env raw std d options βs) (heps : env.eps = 0)
    (hbud : 1 ≤ options.maxIter) :
    ∃ f, regression env Family.linear.glm d options = .ok f ∧ f.result = βs ∧ f.nIter ≤ 1 := by
  have hc0 : contraction env.eps = 0 := by rw [contraction, heps, zero_div]
  have hok : ∃ f, regression env linG d options = .ok f := by
    refine regression_total
      (P := fun s => s.history = [] ∨ d.inverseTransformBeta s.guess = βs) (Or.inl rfl) ?_ ?_ ?_ ?_
    · intro s s' v l hi hp hn
      by_cases hdone : s.done = true
      · rw [Irls.nextRaw_done hdone] at hn; simp at hn
      · rcases h.next hi (by simpa using hdone) with ⟨-, h2⟩ | ⟨-, v', l', h2, h3⟩
        · rw [h2] at hn; simp at hn
        · rw [h3] at hn
          simp only [RawNext.cand.injEq] at hn
          rw [hc0, zero_smul, add_zero] at h2
          refine Or.inr ?_
          rw [← hn.2.1]
          exact h2
    · intro s s' hi _
      by_cases hdone : s.done = true
      · rw [Irls.nextRaw_done hdone]; simp
      · rcases h.next hi (by simpa using hdone) with ⟨-, h2⟩ | ⟨-, v', l', h2, h3⟩
        · rw [h2]; simp
        · rw [h3]; simp
    · intro s s' hi _
      by_cases hdone : s.done = true
      · rw [Irls.nextRaw_done hdone]; simp
      · rcases h.next hi (by simpa using hdone) with ⟨-, h2⟩ | ⟨-, v', l', h2, h3⟩
        · rw [h2]; simp
        · rw [h3]; simp
    · intro s s' v l hi hp hn hlen
      rcases hp with hp | hp
      · rw [hp] at hlen; simp only [List.length_nil] at hlen; omega
      · by_cases hdone : s.done = true
        · rw [Irls.nextRaw_done hdone] at hn; simp at hn
        · rcases h.next hi (by simpa using hdone) with ⟨-, h2⟩ | ⟨h2, -⟩
          · rw [h2] at hn; simp at hn
          · exact h2 hp
  obtain ⟨f, hf⟩ := hok
  have hg := C23_geometric h hf
  dsimp only at hg
  rw [heps] at hg
  simp only [zero_div] at hg
  have hlen := (C24_ok hf).1
  have hchain : f.nIter ≤ 1 := by
    by_contra hlt
    push Not at hlt
    have h0 := hg.1 0 (by omega)
    have h1 := hg.1 1 (by omega)
    have hmono := (C26_monotone h.noL1 hf).1
    rw [List.pairwise_cons] at hmono
    have hp := (List.pairwise_iff_getElem.mp hmono.2) 0 1 (by simpa using by omega)
      (by simpa using by omega) (by omega)
    simp only [List.getElem_map] at hp
    have hr := (C27_recorded_likelihoods hf).1
    obtain ⟨g0, e0, l0⟩ := hr _ (List.getElem_mem (by omega : 0 < f.history.length))
    obtain ⟨g1, e1, l1⟩ := hr _ (List.getElem_mem (by omega : 1 < f.history.length))
    have : g0 = g1 := by
      have hwf := Dataset.finalize_wf h.built
      rw [← hwf.transformBeta_inverseTransformBeta g0, ← hwf.transformBeta_inverseTransformBeta g1,
        ← e0, ← e1, h0, h1]
      simp
    rw [l0, l1, this] at hp
    exact lt_irrefl _ hp
  refine ⟨f, hf, ?_, hchain⟩
  rw [hg.2]
  rcases Nat.lt_or_ge 0 f.nIter with hpos | hzero
  · rw [zero_pow (by omega), zero_smul, add_zero]
  · have hn0 : f.nIter = 0 := by omega
    rw [hn0, pow_zero, one_smul, add_sub_cancel]
    obtain ⟨s0, s', hi, hp, hn, hh⟩ := regression_inv hf
      (P := fun s => s.history = [] → s.done = false) (fun _ => rfl) (by
        intro s s' v l _ _ _ hx
        simp [Irls.candState] at hx)
    have hnil : s0.history = [] := by
      have : f.history = [] := List.length_eq_zero_iff.mp (by omega)
      rw [this] at hh
      exact (List.map_eq_nil_iff.mp hh.symm)
    have hguess := hi.guess
    rw [hnil] at hguess
    simp only [List.getLast?_nil, Option.map_none, Option.getD_none] at hguess
    rw [← hguess]
    rcases h.next hi (hp hnil) with ⟨h2, -⟩ | ⟨-, v', l', h2, h3⟩
    · exact h2
    · rw [h3] at hn; simp at hn

open Filter Topology in
/-- C57 (convergence): with a positive tolerance there is a budget from which on a Linear fit
succeeds, from any start and for any machine epsilon. -/
theorem C57_converges (h : LinSetting env raw std d options βs) (htol : 0 < options.tol)
    (hn : 0 < n) :
    ∃ N, ∀ m, N ≤ m →
      ∃ f, regression env Family.linear.glm d { options with maxIter := m } = .ok f := by
  set β0 := d.inverseTransformBeta (initialGuess env linG d options) with hβ0
  set r := contraction env.eps with hr
  have hwf := Dataset.finalize_wf h.built
  have hr0 : 0 ≤ r := contraction_nonneg h.exact
  have hr1 : r < 1 := contraction_lt_one h.exact
  let z : ℕ → Vec ℝ (ncols b p) := fun k => βs + r ^ k • (β0 - βs)
  have hz : Tendsto z atTop (𝓝 βs) := by
    have h1 : Tendsto (fun k : ℕ => r ^ k) atTop (𝓝 0) :=
      tendsto_pow_atTop_nhds_zero_of_lt_one hr0 hr1
    have h2 := (h1.smul_const (β0 - βs)).const_add βs
    simpa using h2
  have hzs : Tendsto (fun k => z (k + 1)) atTop (𝓝 βs) := hz.comp (tendsto_add_atTop_nat 1)
  have hT : Continuous d.transformBeta := by
    have : d.transformBeta = fun β => d.tmat *ᵥ β := funext fun β => d.transformBeta_eq β
    rw [this]
    exact continuous_const.matrix_mulVec continuous_id
  have hL : Continuous (logLik linG raw b) := by
    have : logLik linG raw b = fun β => (∑ i, totalWt raw i * raw.y i ^ 2) / 2 - sse raw b β / 2 :=
      funext fun β => lin_logLik β
    rw [this]
    have hs : Continuous (sse raw b) := by
      have e : sse raw b = fun β => sse raw b 0 - 2 * (scoreVec linG raw b 0 ⬝ᵥ β)
          + β ⬝ᵥ gram raw b *ᵥ β := by
        funext β
        have := sse_add (raw := raw) (0 : Vec ℝ (ncols b p)) β
        rw [zero_add] at this
        exact this
      rw [e]
      fun_prop
    fun_prop
  have e1 : ∀ᶠ k in atTop, |logLik linG raw b (z (k + 1)) - logLik linG raw b (z k)|
      ≤ options.tol * n := by
    have h1 := (hL.tendsto βs).comp hzs
    have h2 := (hL.tendsto βs).comp hz
    have h3 := (h1.sub h2).abs
    rw [sub_self, abs_zero] at h3
    have hpos : 0 < options.tol * n := mul_pos htol (by exact_mod_cast hn)
    filter_upwards [h3.eventually (gt_mem_nhds hpos)] with k hk
    exact hk.le
  have e2 : ∀ᶠ k in atTop, ∑ j, (d.transformBeta (z (k + 1)) j - d.transformBeta (z k) j)
      * (d.transformBeta (z (k + 1)) j - d.transformBeta (z k) j)
      ≤ (ncols b p : ℝ) * options.tol * options.tol := by
    rcases Nat.eq_zero_or_pos (ncols b p) with h0 | hpos
    · have : IsEmpty (Fin (ncols b p)) := by rw [h0]; infer_instance
      refine Eventually.of_forall fun k => ?_
      simp [h0]
    · have h1 : ∀ j, Tendsto (fun k => d.transformBeta (z (k + 1)) j - d.transformBeta (z k) j)
          atTop (𝓝 0) := by
        intro j
        have h1 := ((continuous_apply j).comp hT).tendsto βs |>.comp hzs
        have h2 := ((continuous_apply j).comp hT).tendsto βs |>.comp hz
        have := h1.sub h2
        rw [sub_self] at this
        exact this
      have h2 := tendsto_finsetSum (Finset.univ : Finset (Fin (ncols b p)))
        fun j _ => (h1 j).mul (h1 j)
      simp only [mul_zero, Finset.sum_const_zero] at h2
      have hb : 0 < (ncols b p : ℝ) * options.tol * options.tol := by
        have : (0 : ℝ) < ncols b p := by exact_mod_cast hpos
        positivity
      filter_upwards [h2.eventually (gt_mem_nhds hb)] with k hk
      exact hk.le
  obtain ⟨N, hN⟩ := eventually_atTop.mp (e1.and e2)
  refine ⟨N + 1, fun m hm => ?_⟩
  set o : FitOptions ℝ (ncols b p) := { options with maxIter := m } with ho
  have ho' : LinSetting env raw std d o βs :=
    ⟨h.exact, h.built, h.noL1, h.noL2, h.weights, h.rank, h.solution⟩
  refine regression_total
    (P := fun s => d.inverseTransformBeta s.guess = z s.history.length ∧
      (s.history.length ≤ N ∨ s.done = true)) ⟨?_, Or.inl (Nat.zero_le _)⟩ ?_ ?_ ?_ ?_
  · change β0 = βs + r ^ 0 • (β0 - βs)
    rw [pow_zero, one_smul, add_sub_cancel]
  · intro s s' v l hi hp hn
    by_cases hdone : s.done = true
    · rw [Irls.nextRaw_done hdone] at hn; simp at hn
    · rcases ho'.next hi (by simpa using hdone) with ⟨-, h2⟩ | ⟨-, v', l', h2, h3⟩
      · rw [h2] at hn; simp at hn
      · rw [h3] at hn
        simp only [RawNext.cand.injEq] at hn
        obtain ⟨rfl, rfl, rfl⟩ := hn
        have hv : d.inverseTransformBeta v' = z (s.history.length + 1) := by
          rw [h2, hp.1]
          simp only [z, add_sub_cancel_left, smul_smul, ← pow_succ', hr]
        refine ⟨?_, ?_⟩
        · simp only [Irls.candState, Irls.prep, List.length_append, List.length_singleton]
          exact hv
        · simp only [Irls.candState, Irls.prep, List.length_append, List.length_singleton]
          rcases Nat.lt_or_ge s.history.length N with hlt | hge
          · exact Or.inl hlt
          · right
            obtain ⟨a1, a2⟩ := hN _ hge
            obtain ⟨t1, t2, t3⟩ := hi.same.noL1 (getReg_noL1 ho'.noL1) s.guess
            have hv' : v' = d.transformBeta (z (s.history.length + 1)) := by
              rw [← hv, hwf.transformBeta_inverseTransformBeta]
            have hg : s.guess = d.transformBeta (z s.history.length) := by
              rw [← hp.1, hwf.transformBeta_inverseTransformBeta]
            rw [Irls.small, Bool.and_eq_true]
            constructor
            · simp only [smallDelta, Irls.nextObj, Irls.lastObj, t1, t2, hi.last, le_real,
                getReg_likelihood, penalty, abs_real, ofNat_real,
                max_eq_right ho'.noL1, max_eq_right ho'.noL2, zero_mul, zero_div, add_zero,
                neg_zero]
              rw [Dataset.finalize_logLike' _ h.built, Dataset.finalize_logLike' _ h.built, hv,
                hp.1]
              exact a1
            · simp only [smallDeltaVec, le_real, vsum_real, vsub, ofNat_real]
              rw [hv', hg]
              refine a2.trans ?_
              have hsq : 0 ≤ ∑ j, d.transformBeta (z (s.history.length + 1)) j
                  * d.transformBeta (z (s.history.length + 1)) j :=
                Finset.sum_nonneg fun j _ => mul_self_nonneg _
              have : options.tol * options.tol = o.tol * o.tol := rfl
              nlinarith [mul_self_nonneg options.tol, mul_nonneg hsq (mul_self_nonneg options.tol)]
  · intro s s' hi _
    by_cases hdone : s.done = true
    · rw [Irls.nextRaw_done hdone]; simp
    · rcases ho'.next hi (by simpa using hdone) with ⟨-, h2⟩ | ⟨-, v', l', h2, h3⟩
      · rw [h2]; simp
      · rw [h3]; simp
  · intro s s' hi _
    by_cases hdone : s.done = true
    · rw [Irls.nextRaw_done hdone]; simp
    · rcases ho'.next hi (by simpa using hdone) with ⟨-, h2⟩ | ⟨-, v', l', h2, h3⟩
      · rw [h2]; simp
      · rw [h3]; simp
  · intro s s' v l hi hp hn hlen
    rcases hp.2 with h1 | h1
    · simp only [ho] at hlen; omega
    · rw [Irls.nextRaw_done h1] at hn; simp at hn

/-- The hypotheses hold for the concrete data set, standardized or not, from any start. -/
theorem exLinSetting (std : Bool) (eps : ℝ) (heps : 0 ≤ eps) (fuel m : ℕ)
    (init : Option (Vec ℝ (ncols true 1))) :
    ∃ d, LinSetting (exactEnv eps fuel) (exRaw ![1, 3, 5]) std d (exOpts 0 0 init m) ![1, 2] := by
  obtain ⟨d, hd⟩ := exRaw_finalize ![1, 3, 5] std true
  refine ⟨d, exactEnv_exact heps fuel, hd, le_rfl, le_rfl, fun i => (exRaw_totalWt_pos _ i).le,
    exRaw_gram_det _, fun β' => ?_⟩
  have h0 : sse (exRaw ![1, 3, 5]) true ![1, 2] = 0 := by
    refine Finset.sum_eq_zero fun i _ => ?_
    rw [exRaw_linPred]
    fin_cases i <;> norm_num [exRaw]
  rw [h0]
  exact Finset.sum_nonneg fun i _ => mul_nonneg (exRaw_totalWt_pos _ i).le (sq_nonneg _)

example (std : Bool) (init : Option (Vec ℝ (ncols true 1))) :
    ∃ d f, (exRaw ![1, 3, 5]).finalize std true = some d ∧
      regression (exactEnv 0 0) Family.linear.glm d (exOpts 0 0 init 1) = .ok f ∧
      f.result = ![1, 2] := by
  obtain ⟨d, h⟩ := exLinSetting std 0 le_rfl 0 1 init
  obtain ⟨f, h1, h2, -⟩ := C57_exact_least_squares h rfl le_rfl
  exact ⟨d, f, h.built, h1, h2⟩

example : ∃ (d : Dataset ℝ 3 1 true) (o : FitOptions ℝ (ncols true 1)) (f : Fit ℝ 3 1 true),
    LinSetting (exactEnv (1 / 2) 0) (exRaw ![1, 3, 5]) true d o ![1, 2] ∧
      regression (exactEnv (1 / 2) 0) Family.linear.glm d o = .ok f := by
  obtain ⟨d, h⟩ := exLinSetting true (1 / 2) (by norm_num) 0 0 none
  obtain ⟨N, hN⟩ := C57_converges h (by norm_num [exOpts]) (by norm_num)
  obtain ⟨f, hf⟩ := hN N le_rfl
  exact ⟨d, { exOpts 0 0 none 0 with maxIter := N }, f, ⟨h.exact, h.built, h.noL1, h.noL2, h.weights, h.rank, h.solution⟩, hf⟩

end GLM
