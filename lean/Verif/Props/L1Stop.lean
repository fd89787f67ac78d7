/-
  C92: what a successful L1 fit certifies.
-/
import Verif.Props.AdmmLinear
import Verif.Props.Optimum

namespace GLM
open Spec Matrix
variable {n p : ℕ} {b : Bool} {env : Env ℝ} {g : Glm ℝ} {raw : Dataset ℝ n p false} {std : Bool}
  {d : Dataset ℝ n p b} {options : FitOptions ℝ (ncols b p)} {initial : Vec ℝ (ncols b p)}

/-! ### The state of the iteration -/

/-- The ADMM state after `k` updates. -/
def RhoAfter (options : FitOptions ℝ (ncols b p)) (s : Irls ℝ (ncols b p)) : Prop :=
  ∃ st, ∃ z : ℤ, RegL1 options s.reg st ∧ AdmmInv (l1Vec b p options.l1) st ∧ st.rho = 2 ^ z ∧
    (|z| + 1 ≤ s.nIter ∨ (z = 0 ∧ st.rSq = none))

theorem updateRho_step {k : ℕ} {st : Admm ℝ k} {z : ℤ} (h : st.rho = 2 ^ z) :
    ∃ z' : ℤ, st.updateRho.rho = 2 ^ z' ∧ |z'| ≤ |z| + 1 ∧ (st.rSq = none → z' = z) := by
  have h2 : (Scalar.ofNat 2 : ℝ) = 2 := by norm_num [ofNat_real]
  have hle : |z| ≤ |z| + 1 := by linarith
  unfold Admm.updateRho
  cases st.rSq with
  | none => exact ⟨z, h, hle, fun _ => rfl⟩
  | some r => cases st.sSq with
    | none => exact ⟨z, h, hle, by simp⟩
    | some s =>
      dsimp only
      rw [h2]
      split <;> split
      · exact ⟨z, by simp only [h]; field_simp, hle, by simp⟩
      · refine ⟨z - 1, by simp only [h]; rw [zpow_sub_one₀ two_ne_zero]; field_simp, ?_, by simp⟩
        exact (abs_sub z 1).trans (by simp)
      · refine ⟨z + 1, by simp only [h]; rw [zpow_add_one₀ two_ne_zero], ?_, by simp⟩
        exact (abs_add_le z 1).trans (by simp)
      · exact ⟨z, h, hle, by simp⟩

/-- After one more update. -/
theorem RhoAfter.prep {s : Irls ℝ (ncols b p)} (hl1 : 0 < options.l1) (h : RhoAfter options s) :
    ∃ st, ∃ z : ℤ, RegL1 options (s.reg.prepare s.guess) st ∧ AdmmInv (l1Vec b p options.l1) st ∧
      st.rho = 2 ^ z ∧ |z| ≤ s.nIter ∧
      st.rSq = some (∑ j, (s.guess j - st.dual j) ^ 2) := by
  obtain ⟨st, z, h1, h2, h3, h4⟩ := h
  obtain ⟨z', e1, e2, e3⟩ := updateRho_step h3
  refine ⟨_, z', h1.prepare s.guess, AdmmInv.prepare (fun j => onSlopes_nonneg hl1.le j) h2.rho _,
    e1, ?_, ?_⟩
  · rcases h4 with h4 | ⟨rfl, h4⟩
    · exact e2.trans h4
    · rw [e3 h4]; simp
  · change some (vsum _) = _
    rw [vsum_real]
    congr 1
    exact Finset.sum_congr rfl fun j _ => (sq _).symm

/-- The system set up in state `s` was solved by `v`, and the residuals allowed to stop there. -/
structure LastSystem (env : Env ℝ) (g : Glm ℝ) (d : Dataset ℝ n p b)
    (options : FitOptions ℝ (ncols b p)) (initial : Vec ℝ (ncols b p)) (s : Irls ℝ (ncols b p))
    (v : Vec ℝ (ncols b p)) : Prop where
  inv : Irls.Inv g d options initial s
  rho : RhoAfter options s
  sol : s.sol env g d = .ok v
  ok : (s.reg.prepare s.guess).terminateOk options.tol = true

/-- The objective on the internal scale. -/
noncomputable def objInt (g : Glm ℝ) (d : Dataset ℝ n p b) (options : FitOptions ℝ (ncols b p))
    (γ : Vec ℝ (ncols b p)) : ℝ := g.logLike d γ + (getReg options).likelihood γ

theorem objInt_eq (hd : raw.finalize std b = some d) (γ : Vec ℝ (ncols b p)) :
    objInt g d options γ
      = penLogLik g raw b options.l1 options.l2 (scale d) (d.inverseTransformBeta γ) := by
  have h := getReg_likelihood_ext d options (d.inverseTransformBeta γ)
  rw [(Dataset.finalize_wf hd).transformBeta_inverseTransformBeta] at h
  rw [objInt, penLogLik, Dataset.finalize_logLike' g hd, h]
  ring

def StopInv (env : Env ℝ) (g : Glm ℝ) (d : Dataset ℝ n p b)
    (options : FitOptions ℝ (ncols b p)) (initial : Vec ℝ (ncols b p)) (s : Irls ℝ (ncols b p)) :
    Prop :=
  RhoAfter options s ∧ (s.done = true → ∃ s0 v, LastSystem env g d options initial s0 v ∧
    s0.small g d options.tol v = true ∧ s.nIter = s0.nIter + 1 ∧
    s.history = s0.history ++ s.history.drop s0.history.length ∧
    (s.guess = v ∧ s0.lastObj < s0.nextObj g d v ∨
      objInt g d options s0.guess ≤ objInt g d options s.guess))

theorem StopInv.new (hl1 : 0 < options.l1) : StopInv env g d options initial
    (Irls.new g d initial options) :=
  ⟨⟨_, 0, getReg_regL1 hl1, AdmmInv.init fun j => onSlopes_nonneg hl1.le j, by simp [Admm.init],
    Or.inr ⟨rfl, rfl⟩⟩, by simp [Irls.new]⟩

theorem interp_zero {k : ℕ} (s v : Vec ℝ k) : Irls.interp s v 0 = s := by
  funext j; simp [Irls.interp]

theorem StopInv.cand (hl1 : 0 < options.l1) {s s' : Irls ℝ (ncols b p)} {v : Vec ℝ (ncols b p)}
    {l : ℝ} (hi : Irls.Inv g d options initial s) (hs : StopInv env g d options initial s)
    (h : s.nextRaw env g d options.tol = .cand s' v l) :
    StopInv env g d options initial (s'.candState v l) := by
  obtain ⟨hρ, -⟩ := hs
  obtain ⟨st, z, h1, h2, h3, h4, -⟩ := hρ.prep hl1
  have hf := s.nextRaw_frame env g d options.tol
  rw [h] at hf
  obtain ⟨hf, hl, hreg⟩ := hf
  have hρ' : RhoAfter options (s'.candState v l) := by
    refine ⟨st, z, ?_, h2, h3, Or.inl ?_⟩
    · change RegL1 options s'.reg st
      rw [hreg]; exact h1
    · change |z| + 1 ≤ ((s'.nIter + 1 : ℕ) : ℤ)
      rw [hf.nIter]; push_cast; linarith
  refine ⟨hρ', fun hdone => ?_⟩
  have hhist : (s'.candState v l).history
      = s.history ++ (s'.candState v l).history.drop s.history.length := by
    simp [Irls.candState, hf.history]
  have hn : (s'.candState v l).nIter = s.nIter + 1 := by
    change s'.nIter + 1 = _
    rw [hf.nIter]
  have hc := s.nextRaw_case env g d options.tol
  rw [h] at hc
  generalize hr : (RawNext.cand s' v l : RawNext ℝ (ncols b p)) = r at hc
  cases hc <;> simp only [RawNext.cand.injEq, reduceCtorEq] at hr
  case admm hd0 _ _ _ =>
    obtain ⟨rfl, -, -⟩ := hr
    exact absurd (hd0.symm.trans hdone) (by simp)
  case full w hsol ht _ hgt =>
    obtain ⟨rfl, rfl, rfl⟩ := hr
    refine ⟨s, v, ⟨hi, hρ, hsol, ht⟩, hdone, hn, hhist, Or.inl ⟨rfl, ?_⟩⟩
    rwa [gt_real] at hgt
  case scaled w hsol ht _ _ m hm h0 =>
    obtain ⟨rfl, rfl, rfl⟩ := hr
    refine ⟨s, w, ⟨hi, hρ, hsol, ht⟩, hdone, hn, hhist, Or.inr ?_⟩
    rcases C28_only_improvements _ _ _ _ hm with h5 | h5
    · rw [h5, Bool.eq_false_iff] at h0
      exact absurd ((eq_real _ _).mpr rfl) h0
    · rw [gt_real] at h5
      have e : ∀ x, Irls.fStep g d (s.reg.prepare s.guess) s.guess w x
          = objInt g d options (Irls.interp s.guess w x) := by
        intro x
        change g.logLike d _ + (s.reg.prepare s.guess).likelihood _ = _
        rw [Reg.prepare_likelihood, hi.same.likelihood]
        rfl
      rw [e, e, interp_zero] at h5
      exact h5.le


/-- The reported coefficients are at least as good as every recorded point. -/
theorem result_best (hd : raw.finalize std b = some d) {f : Fit ℝ n p b}
    (h : regression env g d options = .ok f) :
    penLogLik g raw b options.l1 options.l2 (scale d) f.result = f.modelLike ∧
    (∀ st ∈ f.history, st.like ≤ f.modelLike) ∧
    (f.history = [] → f.modelLike = objInt g d options (initialGuess env g d options)) := by
  obtain ⟨-, h2, h3⟩ := C27_recorded_likelihoods h
  refine ⟨?_, ?_⟩
  · rw [h2, ← objInt_eq hd, h3]; rfl
  · rcases C25_best_of_history h with ⟨h4, h5, -, h6⟩ | ⟨pre, opt, post, h4, -, h5, h6, h7⟩
    · rw [h4]
      exact ⟨by simp, fun _ => by rw [h6, h5]; rfl⟩
    · refine ⟨fun st hst => ?_, fun h => by rw [h4] at h; simp at h⟩
      rw [h4] at hst
      rcases List.mem_append.mp hst with hst | hst
      · have := h6 st hst
        rw [totalCmp_real] at this
        exact not_lt.mp fun hlt => this (compare_gt_iff_gt.mpr hlt)
      · rcases List.mem_cons.mp hst with rfl | hst
        · exact h5.ge
        · have := h7 st hst
          rw [totalCmp_real, compare_lt_iff_lt] at this
          exact this.le

/-- So is the last point of the iteration. -/
theorem last_le (hd : raw.finalize std b = some d) {f : Fit ℝ n p b}
    (h : regression env g d options = .ok f) {s : Irls ℝ (ncols b p)}
    (hi : Irls.Inv g d options (initialGuess env g d options) s)
    (hh : f.history = s.history.map fun st =>
      { guess := d.inverseTransformBeta st.guess, like := st.like }) :
    objInt g d options s.guess ≤ f.modelLike := by
  obtain ⟨-, h2, h3⟩ := result_best hd h
  cases hl : s.history.getLast? with
  | none =>
    have hnil : s.history = [] := List.getLast?_eq_none_iff.mp hl
    rw [hi.guess, hl, h3 (by rw [hh, hnil]; rfl)]
    rfl
  | some st =>
    have hm : st ∈ s.history := List.mem_of_getLast? hl
    have h4 := hi.hist st hm
    have h5 := h2 { guess := d.inverseTransformBeta st.guess, like := st.like }
      (by rw [hh]; exact List.mem_map_of_mem hm)
    rw [hi.guess, hl]
    change g.logLike d st.guess + (getReg options).likelihood st.guess ≤ _
    rw [← h4]
    exact h5

/-- The point at which the last system was set up was recorded, or is the start. -/
theorem guess_mem {s : Irls ℝ (ncols b p)} (hi : Irls.Inv g d options initial s) :
    s.guess = initial ∨ ∃ st ∈ s.history, st.guess = s.guess := by
  cases hl : s.history.getLast? with
  | none => left; rw [hi.guess, hl]; rfl
  | some st =>
    refine Or.inr ⟨st, List.mem_of_getLast? hl, ?_⟩
    rw [hi.guess, hl]; rfl

/-! ### The last system -/

theorem penScore_zero_int (hg : LawfulAdj g) (hd : raw.finalize std b = some d) (l2 : ℝ)
    (γ w : Vec ℝ (ncols b p)) :
    (d.scoreInt g γ - onSlopes b (fun j => max l2 0 * slopes b γ j)) ⬝ᵥ d.transformBeta w
      = penScore g raw b 0 l2 (scale d) (d.inverseTransformBeta γ) ⬝ᵥ w := by
  have hwf := Dataset.finalize_wf hd
  have h := Dataset.tmat_gradient hd hg ⟨0, 0, l2, 0, none⟩ (d.inverseTransformBeta γ)
  rw [hwf.transformBeta_inverseTransformBeta, getReg_gradient] at h
  rw [← h, Dataset.transformBeta_eq, dotProduct_mulVec, ← mulVec_transpose]
  congr 2
  funext j
  rw [Pi.sub_apply]
  congr 2
  funext i
  simp

/-- The system in the user's terms. -/
theorem LastSystem.l1Stop (he : env.Exact) (hg : LawfulAdj g) (hd : raw.finalize std b = some d)
    (hl1 : 0 < options.l1) {s : Irls ℝ (ncols b p)} {v : Vec ℝ (ncols b p)}
    (h : LastSystem env g d options initial s v) :
    ∃ st, ∃ j : ℤ, RegL1 options (s.reg.prepare s.guess) st ∧ st.rho = 2 ^ j ∧ |j| ≤ s.nIter ∧
      L1Stop env.eps g raw d options.l1 options.l2 options.tol (d.inverseTransformBeta s.guess)
        (d.inverseTransformBeta v) st.dual (st.rho • st.cumRes) st.rho := by
  have hwf := Dataset.finalize_wf hd
  obtain ⟨st, z, h1, h2, h3, h4, h5⟩ := h.rho.prep hl1
  refine ⟨st, z, h1, h3, h4, h2.sub, ?_, fun w => ?_⟩
  · have := h.ok
    rw [h1.terminateOk, Admm.terminateOk, h5] at this
    rw [hwf.transformBeta_inverseTransformBeta]
    cases hs : st.sSq with
    | none => rw [hs] at this; simp at this
    | some q =>
      rw [hs] at this
      simp only [Bool.and_eq_true, lt_real, sqrt_real, ofNat_real] at this
      exact this.1
  · have hsol := he.solveh_sound (h1.mat_symm (d := d) (eps := env.eps) hg s.guess) h.sol
    have hint := h1.step_int hg hsol
    rw [← penScore_zero_int hg hd, newtonMat_eq hd hg,
      hwf.transformBeta_inverseTransformBeta, hwf.transformBeta_inverseTransformBeta]
    have e1 : d.scoreInt g s.guess - onSlopes b (fun j => max options.l2 0 * slopes b s.guess j)
        = st.rho • st.cumRes + st.rho • (v - st.dual)
          + lhsInt env.eps g d options.l2 s.guess *ᵥ (v - s.guess) := by
      rw [eq_sub_iff_add_eq] at hint
      rw [← hint]; abel
    rw [e1, add_dotProduct]
    congr 1
    rw [← mulVec_mulVec, ← mulVec_mulVec, mulVec_sub d.tmat, ← Dataset.transformBeta_eq,
      ← Dataset.transformBeta_eq, hwf.transformBeta_inverseTransformBeta,
      hwf.transformBeta_inverseTransformBeta, mulVec_transpose, ← dotProduct_mulVec,
      ← Dataset.transformBeta_eq]


/-! ### The gap -/

/-- The objective in terms of its smooth part. -/
theorem penLogLik_split (l1 l2 : ℝ) (β : Vec ℝ (ncols b p)) :
    penLogLik g raw b l1 l2 (scale d) β = penLogLik g raw b 0 l2 (scale d) β
      - ∑ j, l1Vec b p (max l1 0) j * |d.transformBeta β j| := by
  have h1 : ∑ j, l1Vec b p (max l1 0) j * |d.transformBeta β j|
      = max l1 0 * ∑ j, |scale d j * slopes b β j| := by
    rw [Finset.mul_sum, l1Vec]
    refine onSlopes_dot (fun _ => max l1 0) _ (fun j => |d.transformBeta β j|) ?_
    funext j
    rw [← Dataset.slopes_transformBeta]
    cases b <;> rfl
  rw [h1]
  simp only [penLogLik, penalty, max_self, zero_mul, zero_add]
  ring

/-- The smooth part lies below its tangent planes. -/
theorem smooth_tangent {fam : Family} (h : Spec.Concave fam raw) (hd : raw.finalize std b = some d)
    (l2 : ℝ) {β β' : Vec ℝ (ncols b p)} (hβ : Admissible fam raw b β)
    (hβ' : Admissible fam raw b β') :
    penLogLik fam.glm raw b 0 l2 (scale d) β' ≤ penLogLik fam.glm raw b 0 l2 (scale d) β
      + penScore fam.glm raw b 0 l2 (scale d) β ⬝ᵥ (β' - β) := by
  have h1 := logLik_gap (raw := raw) fam β β'
  have h2 := penalty_le_of_subgrad (b := b) 0 l2 (Dataset.scale_pos hd) (β := β) (u := fun _ => 0)
    (fun j => by simp [IsSubgrad]) β'
  have h3 := Finset.sum_nonneg fun i (_ : i ∈ Finset.univ) => gapAt_nonneg h hβ hβ' i
  have h4 := ridge_nonneg (b := b) l2 (scale d) (β' - β)
  have h5 : penScore fam.glm raw b 0 l2 (scale d) β = scoreVec fam.glm raw b β
      - onSlopes b (fun j => 0 + max l2 0 * (scale d j ^ 2 * slopes b β j)) := by
    funext j
    rw [penScore, Pi.sub_apply]
    congr 2
    funext i
    simp
  rw [h5, sub_dotProduct]
  simp only [penLogLik]
  linarith

theorem transformBeta_sub (β β' : Vec ℝ (ncols b p)) :
    d.transformBeta (β' - β) = d.transformBeta β' - d.transformBeta β := by
  rw [Dataset.transformBeta_eq, Dataset.transformBeta_eq, Dataset.transformBeta_eq, mulVec_sub]

/-- No point is much better than the one at which the last system was set up. -/
theorem Spec.L1Stop.gap {fam : Family} {eps l1 l2 tol ρ : ℝ} {β βn z y : Vec ℝ (ncols b p)}
    (hs : L1Stop eps fam.glm raw d l1 l2 tol β βn z y ρ) (h : Spec.Concave fam raw)
    (hd : raw.finalize std b = some d) (hl1 : 0 ≤ l1) (hβ : Admissible fam raw b β)
    {β' : Vec ℝ (ncols b p)} (hβ' : Admissible fam raw b β') :
    penLogLik fam.glm raw b l1 l2 (scale d) β' ≤ penLogLik fam.glm raw b l1 l2 (scale d) β
      + 2 * ∑ j, l1Vec b p l1 j * |d.transformBeta β j - z j|
      + ρ * ((d.transformBeta βn - z) ⬝ᵥ d.transformBeta (β' - β))
      + (newtonMat eps fam.glm raw b l2 (scale d) β *ᵥ (βn - β)) ⬝ᵥ (β' - β) := by
  have h1 := smooth_tangent h hd l2 hβ hβ'
  rw [hs.step, add_dotProduct, smul_dotProduct, smul_eq_mul] at h1
  rw [penLogLik_split l1 l2 β', penLogLik_split l1 l2 β, max_eq_left hl1]
  have h2 : y ⬝ᵥ d.transformBeta (β' - β) - ∑ j, l1Vec b p l1 j * |d.transformBeta β' j|
      ≤ - ∑ j, l1Vec b p l1 j * |d.transformBeta β j|
        + 2 * ∑ j, l1Vec b p l1 j * |d.transformBeta β j - z j| := by
    rw [transformBeta_sub, dotProduct, ← Finset.sum_sub_distrib, Finset.mul_sum,
      ← Finset.sum_neg_distrib, ← Finset.sum_add_distrib]
    refine Finset.sum_le_sum fun j _ => ?_
    have e1 := (hs.sub j).le (d.transformBeta β' j)
    have e0 : 0 ≤ l1Vec b p l1 j := onSlopes_nonneg hl1 j
    have e2 : |d.transformBeta β j| ≤ |z j| + |d.transformBeta β j - z j| := by
      have := abs_add_le (z j) (d.transformBeta β j - z j)
      rwa [add_sub_cancel] at this
    have e3 := mul_le_mul_of_nonneg_left e2 e0
    have e4 : -(y j * (d.transformBeta β j - z j))
        ≤ l1Vec b p l1 j * |d.transformBeta β j - z j| := by
      refine (neg_le_abs _).trans ?_
      rw [abs_mul]
      exact mul_le_mul_of_nonneg_right (hs.sub j).1 (abs_nonneg _)
    simp only [Pi.sub_apply]
    nlinarith
  linarith

/-- A step that increases the augmented Lagrangian does not lose much of the objective. -/
theorem Spec.L1Stop.ascent {eps l1 l2 tol ρ : ℝ} {β βn z y : Vec ℝ (ncols b p)}
    (hs : L1Stop eps g raw d l1 l2 tol β βn z y ρ) (hd : raw.finalize std b = some d)
    (hl1 : 0 ≤ l1) (hρ : 0 ≤ ρ)
    (h : lagrangian (smoothLik g raw d l2) z y ρ (d.transformBeta β)
      ≤ lagrangian (smoothLik g raw d l2) z y ρ (d.transformBeta βn)) :
    penLogLik g raw b l1 l2 (scale d) β ≤ penLogLik g raw b l1 l2 (scale d) βn
      + 2 * ∑ j, l1Vec b p l1 j * |d.transformBeta βn j - z j|
      + ρ / 2 * ∑ j, (d.transformBeta β j - z j) ^ 2 := by
  have hwf := Dataset.finalize_wf hd
  unfold lagrangian smoothLik at h
  rw [hwf.inverseTransformBeta_transformBeta, hwf.inverseTransformBeta_transformBeta] at h
  rw [penLogLik_split l1 l2 β, penLogLik_split l1 l2 βn, max_eq_left hl1]
  have h2 : ∑ j, l1Vec b p l1 j * |d.transformBeta βn j|
      + ∑ j, (y j * (d.transformBeta β j - z j) + ρ / 2 * (d.transformBeta β j - z j) ^ 2)
      ≤ ∑ j, l1Vec b p l1 j * |d.transformBeta β j|
      + ∑ j, (y j * (d.transformBeta βn j - z j) + ρ / 2 * (d.transformBeta βn j - z j) ^ 2)
      + 2 * ∑ j, l1Vec b p l1 j * |d.transformBeta βn j - z j|
      + ρ / 2 * ∑ j, (d.transformBeta β j - z j) ^ 2 := by
    rw [Finset.mul_sum, Finset.mul_sum, ← Finset.sum_add_distrib, ← Finset.sum_add_distrib,
      ← Finset.sum_add_distrib, ← Finset.sum_add_distrib]
    refine Finset.sum_le_sum fun j _ => ?_
    have e1 := (hs.sub j).le (d.transformBeta β j)
    have e0 : 0 ≤ l1Vec b p l1 j := onSlopes_nonneg hl1 j
    have e2 : |d.transformBeta βn j| ≤ |z j| + |d.transformBeta βn j - z j| := by
      have := abs_add_le (z j) (d.transformBeta βn j - z j)
      rwa [add_sub_cancel] at this
    have e3 := mul_le_mul_of_nonneg_left e2 e0
    have e4 : -(y j * (d.transformBeta βn j - z j))
        ≤ l1Vec b p l1 j * |d.transformBeta βn j - z j| := by
      refine (neg_le_abs _).trans ?_
      rw [abs_mul]
      exact mul_le_mul_of_nonneg_right (hs.sub j).1 (abs_nonneg _)
    have e5 := mul_nonneg (div_nonneg hρ zero_le_two) (sq_nonneg (d.transformBeta βn j - z j))
    nlinarith
  linarith


/-! ### The theorem -/

/-- The test of the iteration, in the user's terms. -/
theorem small_iff (hd : raw.finalize std b = some d) {s : Irls ℝ (ncols b p)}
    {st : Admm ℝ (ncols b p)} (hr : RegL1 options (s.reg.prepare s.guess) st)
    (hl : s.lastLikeData = g.logLike d s.guess) (v : Vec ℝ (ncols b p)) :
    s.small g d options.tol v = true ↔ SmallStep g raw d options.l2 options.tol
      (d.inverseTransformBeta s.guess) (d.inverseTransformBeta v) st.dual (st.rho • st.cumRes)
      st.rho := by
  have hwf := Dataset.finalize_wf hd
  have e1 := hr.irlsLike (g := g) hd v
  have e2 := hr.irlsLike (g := g) hd s.guess
  rw [SmallStep, hwf.transformBeta_inverseTransformBeta, hwf.transformBeta_inverseTransformBeta]
  simp only [Irls.small, Irls.nextObj, Irls.lastObj, smallDelta, smallDeltaVec, Bool.and_eq_true,
    le_real, ofNat_real, abs_real, vsum_real, vsub]
  rw [hl, e1, e2, sub_sub_sub_cancel_right]
  refine and_congr Iff.rfl ?_
  simp only [sq, mul_assoc]

/-- The comparison of the iteration, in the user's terms. -/
theorem obj_lt_iff (hd : raw.finalize std b = some d) {s : Irls ℝ (ncols b p)}
    {st : Admm ℝ (ncols b p)} (hr : RegL1 options (s.reg.prepare s.guess) st)
    (hl : s.lastLikeData = g.logLike d s.guess) (v : Vec ℝ (ncols b p)) :
    s.lastObj < s.nextObj g d v ↔
      lagrangian (smoothLik g raw d options.l2) st.dual (st.rho • st.cumRes) st.rho
          (d.transformBeta (d.inverseTransformBeta s.guess))
        < lagrangian (smoothLik g raw d options.l2) st.dual (st.rho • st.cumRes) st.rho
          (d.transformBeta (d.inverseTransformBeta v)) := by
  have hwf := Dataset.finalize_wf hd
  have e1 := hr.irlsLike (g := g) hd v
  have e2 := hr.irlsLike (g := g) hd s.guess
  rw [hwf.transformBeta_inverseTransformBeta, hwf.transformBeta_inverseTransformBeta,
    Irls.lastObj, Irls.nextObj, hl, e1, e2, sub_lt_sub_iff_right]

/-- What is known about the last system when the iteration ends. -/
theorem stop_last (hl1 : 0 < options.l1) {f : Fit ℝ n p b} (hd : raw.finalize std b = some d)
    (h : regression env g d options = .ok f) :
    ∃ s v, LastSystem env g d options (initialGuess env g d options) s v ∧
      s.nIter ≤ f.history.length ∧
      (∀ st ∈ s.history, { guess := d.inverseTransformBeta st.guess, like := st.like } ∈ f.history) ∧
      (v = s.guess ∨ s.small g d options.tol v = true ∨
        (¬ s.lastObj < s.nextObj g d v ∧ s.scale env g d options.tol v = some 0)) ∧
      (objInt g d options s.guess ≤ f.modelLike ∨
        (objInt g d options v ≤ f.modelLike ∧ s.lastObj < s.nextObj g d v)) := by
  obtain ⟨s0, s', hi, ⟨hρ, hdone⟩, hn, hh⟩ := regression_inv h
    (P := StopInv env g d options (initialGuess env g d options)) (StopInv.new hl1)
    (fun s s' v l hi hs hn => hs.cand hl1 hi hn)
  have hlast := last_le hd h hi hh
  have hlen : f.history.length = s0.nIter := by rw [hh, List.length_map, hi.nIter]
  have hmem : ∀ st ∈ s0.history,
      { guess := d.inverseTransformBeta st.guess, like := st.like } ∈ f.history := fun st hst => by
    rw [hh]; exact List.mem_map_of_mem hst
  have hc := s0.nextRaw_case env g d options.tol
  rw [hn] at hc
  generalize hr : (RawNext.stop s' : RawNext ℝ (ncols b p)) = r at hc
  cases hc <;> simp only [RawNext.stop.injEq, reduceCtorEq] at hr
  case done hd0 =>
    obtain ⟨s1, v, h1, h2, h3, h4, h5⟩ := hdone hd0
    refine ⟨s1, v, h1, by rw [hlen, h3]; exact Nat.le_succ _, fun st hst => hmem st ?_,
      Or.inr (Or.inl h2), ?_⟩
    · rw [h4]; exact List.mem_append_left _ hst
    · rcases h5 with ⟨h5, h6⟩ | h5
      · exact Or.inr ⟨by rw [← h5]; exact hlast, h6⟩
      · exact Or.inl (h5.trans hlast)
  case equal v hs ht he =>
    exact ⟨s0, v, ⟨hi, hρ, hs, ht⟩, hlen.ge, hmem, Or.inl (vecEq_iff.mp he), Or.inl hlast⟩
  case zero v hs ht he hg m hm h0 =>
    refine ⟨s0, v, ⟨hi, hρ, hs, ht⟩, hlen.ge, hmem, Or.inr (Or.inr ⟨fun hlt => ?_, ?_⟩),
      Or.inl hlast⟩
    · rw [Bool.eq_false_iff] at hg
      exact hg ((gt_real _ _).mpr hlt)
    · rw [hm, (eq_real _ _).mp h0]

/-- C92: when a fit with an L1 penalty succeeds, the last linear system was set up at a recorded
point `β` (or the start) and solved by some `βn`, with multipliers `y` that are a subgradient of the
L1 penalty at a point `z` close to `β` and that balance the gradient of the rest of the objective up
to terms proportional to `βn - β` and `βn - z`.  Either `βn = β`, or the step is small for the
tolerance, or it is no progress.  For the concave families, the objective nowhere exceeds the one at
the reported coefficients by more than `excess`. -/
theorem C92_stop (fam : Family) (he : env.Exact) (hd : raw.finalize std b = some d)
    (hl1 : 0 < options.l1) {f : Fit ℝ n p b} (h : regression env fam.glm d options = .ok f) :
    ∃ (β βn z y : Vec ℝ (ncols b p)) (ρ : ℝ) (j : ℤ),
      (β = d.inverseTransformBeta (initialGuess env fam.glm d options) ∨
        ∃ st ∈ f.history, st.guess = β) ∧
      ρ = 2 ^ j ∧ |j| ≤ f.history.length ∧
      L1Stop env.eps fam.glm raw d options.l1 options.l2 options.tol β βn z y ρ ∧
      (βn = β ∨ SmallStep fam.glm raw d options.l2 options.tol β βn z y ρ ∨
        NoProgress fam.glm raw d options.l1 options.l2 options.tol β βn z y ρ) ∧
      (Spec.Concave fam raw → Admissible fam raw b β → ∀ β', Admissible fam raw b β' →
        penLogLik fam.glm raw b options.l1 options.l2 (scale d) β'
          ≤ penLogLik fam.glm raw b options.l1 options.l2 (scale d) f.result
            + excess env.eps fam.glm raw d options.l1 options.l2 β βn z ρ β') := by
  have hwf := Dataset.finalize_wf hd
  obtain ⟨s, v, h1, h2, h3, h4, h5⟩ := stop_last hl1 hd h
  obtain ⟨st, j, k1, k2, k3, k4⟩ := h1.l1Stop he (Family.lawfulAdj fam) hd hl1
  have hρ : 0 < st.rho := by rw [k2]; positivity
  refine ⟨d.inverseTransformBeta s.guess, d.inverseTransformBeta v, st.dual, st.rho • st.cumRes,
    st.rho, j, ?_, k2, k3.trans (by exact_mod_cast h2), k4, ?_, fun hconc hβ β' hβ' => ?_⟩
  · rcases guess_mem h1.inv with hm | ⟨st', hm, hm'⟩
    · exact Or.inl (by rw [hm])
    · exact Or.inr ⟨_, h3 st' hm, by rw [hm']⟩
  · rcases h4 with h4 | h4 | ⟨h4, h6⟩
    · exact Or.inl (by rw [h4])
    · exact Or.inr (Or.inl ((small_iff hd k1 h1.inv.last v).mp h4))
    · rw [obj_lt_iff hd k1 h1.inv.last v, not_lt] at h4
      have h7 := stepScale_zero h6
      have e : ∀ x, Irls.fStep fam.glm d (s.reg.prepare s.guess) s.guess v x
          = penLogLik fam.glm raw b options.l1 options.l2 (scale d) (d.inverseTransformBeta s.guess
            + x • (d.inverseTransformBeta v - d.inverseTransformBeta s.guess)) := by
        intro x
        rw [← inverse_interp hd, ← objInt_eq hd]
        change fam.glm.logLike d _ + (s.reg.prepare s.guess).likelihood _ = _
        rw [Reg.prepare_likelihood, h1.inv.same.likelihood]
        rfl
      simp only [e, zero_smul, add_zero] at h7
      refine Or.inr (Or.inr ⟨h4, fun i hi => h7.1 i ?_, ?_⟩)
      · refine lt_of_eq_of_lt ?_ hi
        rw [abs_mul, sqrt_real, vsum_real, abs_of_nonneg (Real.sqrt_nonneg _),
          hwf.transformBeta_inverseTransformBeta]
        simp only [sq]
      · have := h7.2
        rwa [neg_smul, ← sub_eq_add_neg] at this
  · have g1 := k4.gap hconc hd hl1.le hβ hβ'
    have g2 : penLogLik fam.glm raw b options.l1 options.l2 (scale d) (d.inverseTransformBeta s.guess)
        ≤ penLogLik fam.glm raw b options.l1 options.l2 (scale d) f.result
          + 2 * ∑ j, l1Vec b p options.l1 j
            * |d.transformBeta (d.inverseTransformBeta v) j - st.dual j|
          + st.rho / 2 * ∑ j, (d.transformBeta (d.inverseTransformBeta s.guess) j - st.dual j) ^ 2 := by
      have p1 : 0 ≤ ∑ j, l1Vec b p options.l1 j
          * |d.transformBeta (d.inverseTransformBeta v) j - st.dual j| :=
        Finset.sum_nonneg fun j _ => mul_nonneg (onSlopes_nonneg hl1.le j) (abs_nonneg _)
      have p2 : 0 ≤ st.rho / 2
          * ∑ j, (d.transformBeta (d.inverseTransformBeta s.guess) j - st.dual j) ^ 2 :=
        mul_nonneg (half_pos hρ).le (Finset.sum_nonneg fun j _ => sq_nonneg _)
      have hres := (result_best hd h).1
      rcases h5 with h5 | ⟨h5, h6⟩
      · rw [objInt_eq hd, ← hres] at h5
        linarith
      · rw [objInt_eq hd, ← hres] at h5
        rw [obj_lt_iff hd k1 h1.inv.last v] at h6
        have := k4.ascent hd hl1.le hρ.le h6.le
        linarith
    unfold excess
    linarith


/-! ### The size of the excess -/

theorem sqrt_sum_add_le {k : ℕ} (u v : Fin k → ℝ) :
    √(∑ j, (u j + v j) ^ 2) ≤ √(∑ j, u j ^ 2) + √(∑ j, v j ^ 2) := by
  refine Real.sqrt_le_iff.mpr ⟨by positivity, ?_⟩
  have h1 := Real.sum_mul_le_sqrt_mul_sqrt Finset.univ u v
  have h2 : ∑ j, (u j + v j) ^ 2 = ∑ j, u j ^ 2 + 2 * ∑ j, u j * v j + ∑ j, v j ^ 2 := by
    rw [Finset.mul_sum, ← Finset.sum_add_distrib, ← Finset.sum_add_distrib]
    exact Finset.sum_congr rfl fun j _ => by ring
  rw [add_sq, Real.sq_sqrt (Finset.sum_nonneg fun j _ => sq_nonneg _),
    Real.sq_sqrt (Finset.sum_nonneg fun j _ => sq_nonneg _), h2]
  nlinarith

theorem l1_sum_le {l1 : ℝ} (hl1 : 0 ≤ l1) (u : Vec ℝ (ncols b p)) :
    ∑ j, l1Vec b p l1 j * |u j| ≤ l1 * (√(ncols b p : ℕ) * √(∑ j, u j ^ 2)) := by
  have h1 : ∑ j, l1Vec b p l1 j * |u j| ≤ l1 * ∑ j, |u j| := by
    rw [Finset.mul_sum]
    refine Finset.sum_le_sum fun j _ => mul_le_mul_of_nonneg_right ?_ (abs_nonneg _)
    cases b
    · exact le_rfl
    · exact Fin.cases hl1 (fun _ => le_rfl) (j : Fin (p + 1))
  refine h1.trans (mul_le_mul_of_nonneg_left ?_ hl1)
  have h2 := Real.sum_mul_le_sqrt_mul_sqrt Finset.univ (fun _ : Fin (ncols b p) => (1 : ℝ))
    (fun j => |u j|)
  simpa using h2

/-- C92: the excess in terms of the tolerance and of the distance `B` between `β` and `βn` (on the
standardized scale). -/
theorem C92_excess {eps l1 l2 tol ρ B : ℝ} {β βn z y : Vec ℝ (ncols b p)}
    (hs : L1Stop eps g raw d l1 l2 tol β βn z y ρ) (hl1 : 0 ≤ l1) (hρ : 0 ≤ ρ)
    (hB : √(∑ j, (d.transformBeta βn j - d.transformBeta β j) ^ 2) ≤ B) (β' : Vec ℝ (ncols b p)) :
    excess eps g raw d l1 l2 β βn z ρ β'
      ≤ 2 * l1 * √(ncols b p : ℕ) * (2 * √(√(ncols b p : ℕ) * tol) + B)
        + ρ / 2 * (√(ncols b p : ℕ) * tol)
        + ρ * (√(√(ncols b p : ℕ) * tol) + B)
          * √(∑ j, (d.transformBeta β' j - d.transformBeta β j) ^ 2)
        + (newtonMat eps g raw b l2 (scale d) β *ᵥ (βn - β)) ⬝ᵥ (β' - β) := by
  set A := √(√(ncols b p : ℕ) * tol) with hA
  set K := √(ncols b p : ℕ) with hK
  have hK0 : 0 ≤ K := Real.sqrt_nonneg _
  have h1 : √(∑ j, (d.transformBeta β j - z j) ^ 2) ≤ A := Real.sqrt_le_sqrt hs.close.le
  have h2 : √(∑ j, (d.transformBeta βn j - z j) ^ 2) ≤ A + B := by
    have := sqrt_sum_add_le (fun j => d.transformBeta β j - z j)
      (fun j => d.transformBeta βn j - d.transformBeta β j)
    simp only [sub_add_sub_comm, add_comm (z _)] at this
    refine le_trans (le_of_eq ?_) (this.trans (add_le_add h1 hB))
    congr 1
    exact Finset.sum_congr rfl fun j _ => by ring
  have e1 := (l1_sum_le hl1 (d.transformBeta β - z)).trans
    (mul_le_mul_of_nonneg_left (mul_le_mul_of_nonneg_left h1 hK0) hl1)
  have e2 := (l1_sum_le hl1 (d.transformBeta βn - z)).trans
    (mul_le_mul_of_nonneg_left (mul_le_mul_of_nonneg_left h2 hK0) hl1)
  have e3 : (d.transformBeta βn - z) ⬝ᵥ d.transformBeta (β' - β)
      ≤ (A + B) * √(∑ j, (d.transformBeta β' j - d.transformBeta β j) ^ 2) := by
    rw [transformBeta_sub]
    refine (Real.sum_mul_le_sqrt_mul_sqrt Finset.univ _ _).trans ?_
    exact mul_le_mul_of_nonneg_right h2 (Real.sqrt_nonneg _)
  have e4 := mul_le_mul_of_nonneg_left e3 hρ
  have e5 := mul_le_mul_of_nonneg_left hs.close.le (div_nonneg hρ zero_le_two)
  simp only [Pi.sub_apply] at e1 e2
  unfold excess
  linarith


/-! ### The hypotheses are met -/

/-- The linear regression of `y = (0, 1, 1)` on `x = (0, 1, 2)` without intercept, with `l1 = 10`,
from zero. -/
example : ∃ f, regression (exactEnv (1 / 1000) 7) Family.linear.glm (exRaw ![0, 1, 1])
      (exOpts 10 0 (some 0) f.options.maxIter) = .ok f ∧
    ∃ β βn z y ρ, L1Stop (1 / 1000) Family.linear.glm (exRaw ![0, 1, 1]) (exRaw ![0, 1, 1]) 10 0
        (exOpts (k := 1) 10 0 none 0).tol β βn z y ρ ∧
      ∀ β', penLogLik Family.linear.glm (exRaw ![0, 1, 1]) false 10 0 (fun _ => 1) β'
        ≤ penLogLik Family.linear.glm (exRaw ![0, 1, 1]) false 10 0 (fun _ => 1) f.result
          + excess (1 / 1000) Family.linear.glm (exRaw ![0, 1, 1]) (exRaw ![0, 1, 1]) 10 0 β βn z ρ
            β' := by
  obtain ⟨M, hM⟩ := exNull_fits
  obtain ⟨f, hf⟩ := hM M le_rfl
  obtain ⟨β, βn, z, y, ρ, j, -, -, -, h1, -, h2⟩ := C92_stop (raw := exRaw ![0, 1, 1]) (std := false)
    .linear (exactEnv_exact (by norm_num : (0 : ℝ) ≤ 1 / 1000) 7) rfl (by norm_num [exOpts]) hf
  have ho : f.options.maxIter = M := by
    obtain ⟨best, s, -, rfl⟩ := regression_ok hf
    rfl
  refine ⟨f, by rw [ho]; exact hf, β, βn, z, y, ρ, h1, fun β' =>
    h2 ⟨trivial, trivial, Or.inl trivial, fun i => (exRaw_totalWt_pos _ i).le⟩ (fun _ => trivial) β'
      fun _ => trivial⟩

end GLM
