/-
  C63: staying where the likelihood is defined.  The reciprocal links accept only negative
  predictors, and nothing in the iteration keeps the predictors negative except that a point whose
  likelihood is not a number is never an improvement.  All statements are in the arithmetic with
  not-a-number, for every behaviour of the linear algebra routines (which may return
  not-a-number).
-/
import Verif.Props.DefinedStats
import Verif.Props.Iteration

namespace GLM
open Set Spec Scalar NReal
variable {n p : ℕ} {b : Bool}

theorem gt_defined {x y : NReal} (h : gt x y = true) : ∃ a c, x = val a ∧ y = val c ∧ c < a := by
  obtain ⟨a, c, h1, h2, h3⟩ := lt_defined h
  exact ⟨c, a, h2, h1, h3⟩

theorem add_defined {x y : NReal} {a : ℝ} (h : x + y = val a) :
    ∃ u v, x = val u ∧ y = val v ∧ u + v = a := by
  cases x <;> cases y <;> first
    | exact ⟨_, _, rfl, rfl, val_inj.mp h⟩
    | (simp at h)

theorem mul_defined {x y : NReal} {a : ℝ} (h : x * y = val a) :
    ∃ u v, x = val u ∧ y = val v ∧ u * v = a := by
  cases x <;> cases y <;> first
    | exact ⟨_, _, rfl, rfl, val_inj.mp h⟩
    | (simp at h)

theorem vsum_defined {k : ℕ} {v : Vec NReal k} {a : ℝ} (h : vsum v = val a) (i : Fin k) :
    ∃ c, v i = val c := by
  cases hv : v i with
  | val c => exact ⟨c, rfl⟩
  | nan => rw [vsum_nan i hv] at h; cases h

/-- The natural parameter of a predictor that is not a number is not a number. -/
theorem natParam_nan (fam : Family) : (fam.glm (F := NReal)).link.natParam nan = nan := by
  cases fam <;> rfl

theorem logLikeNatural_nan (fam : Family) (y : NReal) :
    (fam.glm (F := NReal)).logLikeNatural y nan = nan := by
  cases fam
  case logisticLogit | logisticCloglog =>
    change logisticLogLikeNatural y nan = nan
    cases y <;> rfl
  all_goals
    cases y <;> rfl

/-- A term of the log-likelihood is a number only for predictors in the domain of the link (and, for the
inverse Gaussian family with its canonical link, the boundary 0). -/
theorem predictor_of_defined {fam : Family} {ω t : ℝ} {y : NReal}
    (h : (fam.glm (F := NReal)).logLikeNatural y ((fam.glm (F := NReal)).link.natParam (val ω))
      = val t) :
    ω ∈ predDom fam ∨ (fam = .invGaussNegRecSq ∧ ω = 0) := by
  have hout : (fam.glm (F := NReal)).link.natParam (val ω) = val ω → ω ∈ closure (natDom fam) := by
    intro he
    rw [he] at h
    by_contra hn
    rw [C60_outside fam hn] at h
    cases h
  cases fam
  case exponentialNegRec | gammaNegRec =>
    left
    have h1 : ω ≤ 0 := by simpa only [natDom, closure_Iio, mem_Iic] using hout rfl
    refine lt_of_le_of_ne h1 ?_
    rintro rfl
    have h2 : -(ln (-(val 0))) = nan := congrArg (-·) (ln_nonpos (by norm_num : (-0 : ℝ) ≤ 0))
    have h3 := h.symm.trans ((congrArg (y * val 0 - ·) h2).trans (sub_nan _))
    cases h3
  case invGaussNegRecSq =>
    have h1 : ω ≤ 0 := by simpa only [natDom, closure_Iio, mem_Iic] using hout rfl
    rcases h1.eq_or_lt with h2 | h2
    · exact Or.inr ⟨rfl, h2⟩
    · exact Or.inl h2
  all_goals exact Or.inl (mem_univ _)

/-- A defined log-likelihood has a defined predictor for every observation, in the domain of the
link. -/
theorem logLike_defined {fam : Family} {data : Dataset NReal n p b} {v : Vec NReal (ncols b p)} {a : ℝ}
    (h : fam.glm.logLike data v = val a) (i : Fin n) :
    ∃ ω, data.linearPredictorStd v i = val ω ∧
      (ω ∈ predDom fam ∨ (fam = .invGaussNegRecSq ∧ ω = 0)) := by
  obtain ⟨c, hc⟩ := vsum_defined h i
  have ht : ∃ c, fam.glm.logLikeTerms data v i = val c := by
    unfold Dataset.applyTotalWeights Dataset.applyFreqWeights Dataset.applyVarWeights at hc
    cases hf : data.freqs <;> cases hw : data.weights <;> simp only [hf, hw, vmul] at hc
    · exact ⟨c, hc⟩
    · obtain ⟨u, w, -, h2, -⟩ := mul_defined hc
      exact ⟨_, h2⟩
    · obtain ⟨u, w, -, h2, -⟩ := mul_defined hc
      exact ⟨_, h2⟩
    · obtain ⟨u, w, -, h2, -⟩ := mul_defined hc
      obtain ⟨u', w', -, h4, -⟩ := mul_defined h2
      exact ⟨_, h4⟩
  obtain ⟨t, ht⟩ := ht
  change (fam.glm (F := NReal)).logLikeNatural (data.y i)
    ((fam.glm (F := NReal)).link.natParam (data.linearPredictorStd v i)) = val t at ht
  cases hω : data.linearPredictorStd v i with
  | nan => rw [hω, natParam_nan, logLikeNatural_nan] at ht; cases ht
  | val ω =>
    rw [hω] at ht
    exact ⟨ω, rfl, predictor_of_defined ht⟩

/-- Coefficients that are not numbers have no likelihood. -/
theorem logLike_nan {fam : Family} {data : Dataset NReal n p b} {v : Vec NReal (ncols b p)}
    (hn : 0 < n) (j : Fin (ncols b p)) (hj : v j = nan) : fam.glm.logLike data v = nan := by
  cases h : fam.glm.logLike data v with
  | nan => rfl
  | val a =>
    obtain ⟨ω, h1, -⟩ := logLike_defined h ⟨0, hn⟩
    have h2 : Mat.dotV data.x v ⟨0, hn⟩ = nan := by
      have e : data.x ⟨0, hn⟩ j * v j = nan := by rw [hj, mul_nan]
      exact vdotBy_nan j e
    unfold Dataset.linearPredictorStd at h1
    cases ho : data.linearOffset <;> simp only [ho, vadd, h2, nan_add] at h1 <;> cases h1

/-! ### The iteration -/

section
variable {env : Env NReal} {fam : Family} {data : Dataset NReal n p b}
  {options : FitOptions NReal (ncols b p)}

theorem getReg_noL1_strict (hl1 : gt options.l1 0 = false) :
    (getReg options = .null) ∨ ∃ l2, getReg options = .ridge l2 := by
  unfold getReg
  simp only [hl1, Bool.false_and, Bool.false_eq_true, if_false]
  split
  · exact Or.inr ⟨_, rfl⟩
  · exact Or.inl rfl

theorem Reg.Same.noL1_strict {k : ℕ} {r r' : Reg NReal k} (h : Reg.Same r r')
    (hr : r' = .null ∨ ∃ l2, r' = .ridge l2) (v : Vec NReal k) :
    r.prepare v = r ∧ r.irlsLike = r'.likelihood ∧ ∀ tol, r.terminateOk tol = true := by
  rcases hr with rfl | ⟨l2, rfl⟩ <;> cases h <;> exact ⟨rfl, rfl, fun _ => rfl⟩

/-- The penalized log-likelihood in the arithmetic with not-a-number. -/
noncomputable def objective (fam : Family) (data : Dataset NReal n p b)
    (options : FitOptions NReal (ncols b p)) (v : Vec NReal (ncols b p)) : NReal :=
  fam.glm.logLike data v + (getReg options).likelihood v

/-- Every accepted point strictly improves the penalized likelihood, and both are numbers. -/
theorem nextRaw_improves_strict (hn : 0 < n) {initial : Vec NReal (ncols b p)}
    (hl1 : gt options.l1 0 = false)
    {s s' : Irls NReal (ncols b p)} {v : Vec NReal (ncols b p)} {l : NReal}
    (hi : Irls.Inv fam.glm data options initial s)
    (h : s.nextRaw env fam.glm data options.tol = .cand s' v l) :
    gt (objective fam data options v) (objective fam data options s.guess) = true := by
  obtain ⟨h1, h2, h3⟩ := hi.same.noL1_strict (getReg_noL1_strict hl1) s.guess
  have hc := s.nextRaw_case env fam.glm data options.tol
  rw [h] at hc
  generalize hr : (RawNext.cand s' v l : RawNext NReal (ncols b p)) = r at hc
  cases hc <;> simp only [RawNext.cand.injEq, reduceCtorEq] at hr
  case admm ht => rw [h1, h3] at ht; simp at ht
  case full hg =>
    obtain ⟨-, rfl, rfl⟩ := hr
    simp only [Irls.nextObj, Irls.lastObj, h1, h2, hi.last] at hg
    exact hg
  case scaled v' hs ht he hg m hm h0 =>
    obtain ⟨-, rfl, rfl⟩ := hr
    have h4 := C28_only_improvements _ _ _ _ hm
    have hm0 : m ≠ 0 := by
      rintro rfl
      have : eq (val 0) (val 0) = true := by rw [eq_val, eq_real]
      exact absurd (h0.symm.trans this) (by simp)
    have h5 := h4.resolve_left hm0
    simp only [Irls.fStep, h1, hi.same.likelihood] at h5
    have h6 : (fun j => v' j * 0 + s.guess j * (1 - 0)) = s.guess := by
      funext j
      have hd : ∀ w : Vec NReal (ncols b p), (∃ a, objective fam data options w = val a) →
          ∀ j, ∃ a, w j = val a := by
        rintro w ⟨a, ha⟩ j
        obtain ⟨u, -, hu, -⟩ := add_defined ha
        cases hw : w j with
        | val a => exact ⟨a, rfl⟩
        | nan => rw [logLike_nan hn j hw] at hu; cases hu
      obtain ⟨-, a, -, ha, -⟩ := gt_defined h5
      obtain ⟨c, hc⟩ := hd _ ⟨a, ha⟩ j
      obtain ⟨u1, u2, e1, e2, e3⟩ := add_defined hc
      obtain ⟨w1, w2, f1, f2, f3⟩ := mul_defined e1
      obtain ⟨x1, x2, g1, g2, g3⟩ := mul_defined e2
      rw [f1, g1]
      change val (w1 * 0 + x1 * (1 - 0)) = val x1
      congr 1; ring
    rw [h6] at h5
    exact h5

/-- The penalized likelihoods visited by a run: the start, then the history. -/
noncomputable def likesStrict (fam : Family) (data : Dataset NReal n p b)
    (options : FitOptions NReal (ncols b p)) (initial : Vec NReal (ncols b p))
    (hist : List (IrlsStep NReal (ncols b p))) : List NReal :=
  objective fam data options initial :: hist.map IrlsStep.like

theorem likesStrict_cand (hn : 0 < n) {initial : Vec NReal (ncols b p)}
    (hl1 : gt options.l1 0 = false)
    {s s' : Irls NReal (ncols b p)} {v : Vec NReal (ncols b p)} {l : NReal}
    (hi : Irls.Inv fam.glm data options initial s)
    (hs : (likesStrict fam data options initial s.history).IsChain (fun x y => lt x y = true))
    (h : s.nextRaw env fam.glm data options.tol = .cand s' v l) :
    (likesStrict fam data options initial (s'.history ++ [s'.candStep v l])).IsChain
      (fun x y => lt x y = true) := by
  have hlt := nextRaw_improves_strict hn hl1 hi h
  have hf := s.nextRaw_frame env fam.glm data options.tol
  rw [h] at hf
  obtain ⟨hf, rfl, -⟩ := hf
  have hi' := hi.frame hf
  rw [hf.history]
  unfold likesStrict at hs ⊢
  rw [List.map_append, ← List.cons_append]
  refine List.IsChain.append hs (by simp) ?_
  intro x hx y hy
  simp only [List.map_cons, List.map_nil, List.head?_cons, Option.mem_def,
    Option.some.injEq] at hy
  subst hy
  have hlast : x = objective fam data options s.guess := by
    have hg := hi.guess
    rcases List.eq_nil_or_concat s.history with hnil | ⟨l0, st, hst⟩
    · simp only [hnil, List.map_nil, List.getLast?_singleton, Option.mem_def,
        Option.some.injEq] at hx
      simp only [hnil, List.getLast?_nil, Option.map_none, Option.getD_none] at hg
      rw [← hx, hg]
    · rw [List.concat_eq_append] at hst
      rw [hst] at hx hg
      simp only [List.map_append, List.map_cons, List.map_nil, ← List.cons_append,
        List.getLast?_append, List.getLast?_singleton, Option.some_or, Option.mem_def,
        Option.some.injEq] at hx
      simp only [List.getLast?_append, List.getLast?_singleton, Option.some_or, Option.map_some,
        Option.getD_some] at hg
      rw [← hx, hg]
      exact hi.hist st (by rw [hst]; simp)
  rw [hlast]
  simp only [Irls.candStep, hi'.same.likelihood]
  exact hlt

theorem fitLoop_likesStrict (hn : 0 < n) {initial : Vec NReal (ncols b p)}
    (hl1 : gt options.l1 0 = false)
    (s : Irls NReal (ncols b p)) (best : Option (IrlsStep NReal (ncols b p)))
    (hi : Irls.Inv fam.glm data options initial s)
    (hs : (likesStrict fam data options initial s.history).IsChain (fun x y => lt x y = true)) :
    (∀ best' s', fitLoop env fam.glm data options s best = .ok (best', s') →
      (likesStrict fam data options initial s'.history).IsChain (fun x y => lt x y = true)) ∧
    (∀ m hist, fitLoop env fam.glm data options s best = .err (.maxIter m hist) →
      hist ≠ [] ∧
      (likesStrict fam data options initial hist).IsChain (fun x y => lt x y = true)) := by
  revert hi hs
  refine fitLoop_ind env fam.glm data options (motive := fun s best =>
    Irls.Inv fam.glm data options initial s →
    (likesStrict fam data options initial s.history).IsChain (fun x y => lt x y = true) →
    (∀ best' s', fitLoop env fam.glm data options s best = .ok (best', s') →
      (likesStrict fam data options initial s'.history).IsChain (fun x y => lt x y = true)) ∧
    (∀ m hist, fitLoop env fam.glm data options s best = .err (.maxIter m hist) →
      hist ≠ [] ∧
      (likesStrict fam data options initial hist).IsChain (fun x y => lt x y = true))) ?_ s best
  intro s best ih hi hs
  rw [fitLoop_eq]
  have hf := s.nextRaw_frame env fam.glm data options.tol
  cases hr : s.nextRaw env fam.glm data options.tol with
  | stop s' =>
    rw [hr] at hf
    refine ⟨fun best' s'' h => ?_, fun m hist h => by simp at h⟩
    simp only [Outcome.ok.injEq, Prod.mk.injEq] at h
    rw [← h.2, hf.history]; exact hs
  | linalg s' => exact ⟨fun _ _ h => by simp at h, fun _ _ h => by simp at h⟩
  | diverge s' => exact ⟨fun _ _ h => by simp at h, fun _ _ h => by simp at h⟩
  | cand s' v l =>
    have hch := likesStrict_cand hn hl1 hi hs hr
    rw [hr] at hf
    obtain ⟨hf, rfl, -⟩ := hf
    dsimp only
    split
    · refine ⟨fun _ _ h => by simp at h, fun m hist h => ?_⟩
      simp only [Outcome.err.injEq, FitError.maxIter.injEq] at h
      rw [← h.2]; exact ⟨by simp, hch⟩
    · exact ih s' v _ hr (by omega) ((hi.frame hf).cand v) hch

theorem lt_trans_strict {x y z : NReal} (h1 : lt x y = true) (h2 : lt y z = true) : lt x z = true := by
  obtain ⟨a, c, rfl, rfl, h⟩ := lt_defined h1
  obtain ⟨c', d, hc, rfl, h'⟩ := lt_defined h2
  rw [val_inj.mp hc] at h
  rw [lt_val, lt_real]
  exact h.trans h'

/-- The reported optimum is the start, if no step was recorded, or a recorded step. -/
theorem modelLike_mem {f : Fit NReal n p b} (h : regression env fam.glm data options = .ok f) :
    (f.history = [] ∧ f.resultStd = initialGuess env fam.glm data options) ∨
      f.modelLike ∈ f.history.map IrlsStep.like := by
  obtain ⟨best, s, hl, rfl⟩ := regression_ok h
  obtain ⟨hi, -, rest, h1, h2⟩ := fitLoop_ok (initial := initialGuess env fam.glm data options)
    Irls.Inv.new (Nat.zero_le _) hl
  simp only [Irls.new, List.nil_append] at h1
  subst h1
  cases hh : s.history with
  | nil =>
    left
    rw [hh] at h2
    simp only [List.foldl_nil] at h2
    have hg := hi.guess
    simp only [hh, List.getLast?_nil, Option.map_none, Option.getD_none] at hg
    subst h2
    exact ⟨by simp [Fit.new, hh], by simp [Fit.new, Irls.makeLastStep, hg]⟩
  | cons a l =>
    right
    rw [hh, List.foldl_cons] at h2
    have h3 : ∃ st ∈ s.history, best = some st := by
      rcases foldl_best_mem l (some (maxByLike none a)) with h3 | ⟨st, hst, h3⟩
      · exact ⟨a, by simp [hh], h2.trans h3⟩
      · exact ⟨st, by simp [hh, hst], h2.trans h3⟩
    obtain ⟨st, hst, rfl⟩ := h3
    simp only [Fit.new, List.map_map, Option.getD_some]
    exact List.mem_map.mpr ⟨st, hst, rfl⟩

theorem likes_of_fit (hn : 0 < n) (hl1 : gt options.l1 0 = false) {f : Fit NReal n p b}
    (h : regression env fam.glm data options = .ok f) :
    (objective fam data options (initialGuess env fam.glm data options)
      :: f.history.map IrlsStep.like).Pairwise (fun x y => lt x y = true) := by
  obtain ⟨best, s, hl, rfl⟩ := regression_ok h
  have hch := (fitLoop_likesStrict (initial := initialGuess env fam.glm data options) hn hl1 _ none
    Irls.Inv.new (by simp [likesStrict, Irls.new])).1 best s hl
  have : Trans (fun x y : NReal => lt x y = true) (fun x y => lt x y = true)
    (fun x y => lt x y = true) := ⟨lt_trans_strict⟩
  rw [List.isChain_iff_pairwise] at hch
  simpa [Fit.new, likesStrict, List.map_map, Function.comp_def] using hch

/-- **C63**: an unregularized or ridge fit that starts at a point with a defined likelihood never
leaves the region where it is defined: every recorded likelihood is a number and they increase
strictly from the start; the reported likelihood is a number, at least that of the start; and every
fitted predictor is in the domain of the link with an admissible mean (or, for the canonical inverse
Gaussian link only, on its boundary). -/
theorem C63_stays_defined (hv : ValidFamily fam) (hn : 0 < n) (hl1 : gt options.l1 0 = false)
    {f : Fit NReal n p b} (h : regression env fam.glm data options = .ok f) {a : ℝ}
    (hs : objective fam data options (initialGuess env fam.glm data options) = val a) :
    (∃ ls : List ℝ, f.history.map IrlsStep.like = ls.map val ∧ (a :: ls).Pairwise (· < ·)) ∧
    (∃ m, f.modelLike = val m ∧ a ≤ m) ∧
    ∀ i, ∃ ω, f.xLinPred i = val ω ∧
      ((ω ∈ predDom fam ∧ ∃ μ ∈ meanDom fam, f.yHat i = val μ) ∨
        (fam = .invGaussNegRecSq ∧ ω = 0)) := by
  have hp := likes_of_fit hn hl1 h
  rw [hs] at hp
  have hm : ∃ m, f.modelLike = val m ∧ a ≤ m := by
    rcases modelLike_mem h with ⟨-, h1⟩ | h1
    · refine ⟨a, ?_, le_rfl⟩
      rw [(C27_recorded_likelihoods h).2.2, h1]
      exact hs
    · obtain ⟨c, m, h2, h3, h4⟩ := lt_defined ((List.pairwise_cons.mp hp).1 _ h1)
      refine ⟨m, h3, ?_⟩
      rw [val_inj.mp h2]; exact h4.le
  refine ⟨?_, hm, ?_⟩
  · clear hm hs h
    generalize f.history.map IrlsStep.like = l at hp
    have hl : ∃ ls : List ℝ, l = ls.map val := by
      have h1 := (List.pairwise_cons.mp hp).1
      clear hp
      induction l with
      | nil => exact ⟨[], rfl⟩
      | cons x l ih =>
        obtain ⟨ls, rfl⟩ := ih fun y hy => h1 y (List.mem_cons_of_mem _ hy)
        obtain ⟨c, m, -, rfl, -⟩ := lt_defined (h1 x List.mem_cons_self)
        exact ⟨m :: ls, rfl⟩
    obtain ⟨ls, rfl⟩ := hl
    refine ⟨ls, rfl, ?_⟩
    rw [← List.map_cons, List.pairwise_map] at hp
    exact hp.imp fun h => by simpa only [lt_val, lt_real] using h
  · intro i
    obtain ⟨m, hm, -⟩ := hm
    have hc := regression_coherent h
    rw [(C27_recorded_likelihoods h).2.2] at hm
    obtain ⟨u, -, hu, -⟩ := add_defined hm
    obtain ⟨ω, h1, h2⟩ := logLike_defined hu i
    have hx : f.xLinPred i = val ω := by rw [hc.2.2.2.xLinPred, hc.2.1, h1]
    refine ⟨ω, hx, h2.imp_left fun h3 => ⟨h3, _, funcInv_mem fam hv h3, ?_⟩⟩
    rw [hc.2.2.2.yHat, hc.1]
    unfold Glm.mean
    rw [hx, (C60_predictor fam h3 0 0).1]

/-- **C63**: a fit that starts where the likelihood is not a number, that is, where the predictor of
some observation is outside the domain of the likelihood, reports success without taking a step:
the result is the starting point and its likelihood is not a number.  It never exhausts its
budget. -/
theorem C63_stuck (hn : 0 < n) (hl1 : gt options.l1 0 = false) {i : Fin n} {ω : ℝ}
    (hi : data.linearPredictorStd (initialGuess env fam.glm data options) i = val ω)
    (hω : ω ∉ closure (predDom fam)) :
    (∀ f, regression env fam.glm data options = .ok f → f.history = [] ∧ f.modelLike = nan ∧
      f.result = data.inverseTransformBeta (initialGuess env fam.glm data options)) ∧
    ∀ m hist, regression env fam.glm data options ≠ .err (.maxIter m hist) := by
  have hs : objective fam data options (initialGuess env fam.glm data options) = nan := by
    cases ho : objective fam data options (initialGuess env fam.glm data options) with
    | nan => rfl
    | val a =>
      obtain ⟨u, -, hu, -⟩ := add_defined ho
      obtain ⟨ω', h1, h2⟩ := logLike_defined hu i
      rw [hi] at h1
      rw [← val_inj.mp h1] at h2
      refine absurd ?_ hω
      rcases h2 with h2 | ⟨rfl, rfl⟩
      · exact subset_closure h2
      · simp [predDom]
  refine ⟨fun f h => ?_, fun m hist h => ?_⟩
  · have hp := likes_of_fit hn hl1 h
    have hnil : f.history = [] := by
      rw [hs] at hp
      cases hh : f.history with
      | nil => rfl
      | cons st l =>
        rw [hh] at hp
        obtain ⟨c, d, h1, -⟩ := lt_defined ((List.pairwise_cons.mp hp).1 st.like (by simp))
        cases h1
    obtain ⟨-, hr⟩ : f.history = [] ∧ f.resultStd = initialGuess env fam.glm data options := by
      rcases modelLike_mem h with h1 | h1
      · exact h1
      · rw [hnil] at h1; simp at h1
    have h27 := C27_recorded_likelihoods h
    refine ⟨hnil, ?_, ?_⟩
    · rw [h27.2.2, hr]; exact hs
    · rw [h27.2.1, hr]
  · obtain ⟨h1, hch⟩ := (fitLoop_likesStrict (initial := initialGuess env fam.glm data options) hn hl1
      _ none Irls.Inv.new (by simp [likesStrict, Irls.new])).2 m hist (regression_err h)
    rcases hist with _ | ⟨st, l⟩
    · exact h1 rfl
    · unfold likesStrict at hch
      rw [hs, List.map_cons, List.isChain_cons_cons] at hch
      obtain ⟨c, d, h2, -⟩ := lt_defined hch.1
      cases h2

end

/-! ### Concrete cases -/

/-- One gamma response with one feature equal to 1 and no intercept. -/
noncomputable def exGammaData : Dataset NReal 1 1 false :=
  { y := fun _ => val 1, x := fun _ _ => val 1, linearOffset := none, weights := none, freqs := none
    standardizer := none }

/-- Linear algebra that always answers -1 and tolerance 1. -/
noncomputable def exGammaEnv : Env NReal :=
  { eps := 0, solveh := fun _ _ => .ok fun _ => val (-1), invh := fun m => .ok m
    inv := fun m => .ok m, fuel := 1 }

noncomputable def exGammaOptions (start : ℝ) : FitOptions NReal (ncols false 1) :=
  { maxIter := 5, tol := val 1, l2 := 0, l1 := 0, initGuess := some fun _ => val start }

theorem exGammaPred (v : Vec NReal (ncols false 1)) {c : ℝ} (h : v 0 = val c) (i : Fin 1) :
    exGammaData.linearPredictorStd v i = val c := by
  have e : exGammaData.linearPredictorStd v i = val 0 + val 1 * v 0 := by
    simp only [Dataset.linearPredictorStd, exGammaData, Mat.dotV]
    rw [vdotBy_left rfl]
    simp only [Fin.foldl_succ, Fin.foldl_zero]
    rfl
  rw [e, h, mul_val, add_val, zero_add, one_mul]

theorem exGammaReg (start : ℝ) : getReg (exGammaOptions start) = .null := by
  have h : gt (0 : NReal) 0 = false := by
    rw [zero_eq, gt_val, Bool.eq_false_iff, ne_eq, gt_real]; exact lt_irrefl _
  simp [getReg, exGammaOptions, h]

theorem exGammaLike (v : Vec NReal (ncols false 1)) {c : ℝ} (h : v 0 = val c) (hc : c < 0) :
    Family.gammaNegRec.glm.logLike exGammaData v = val (c + Real.log (-c)) := by
  have h0 : exGammaData.linearPredictorStd v 0 = val c := exGammaPred v h 0
  have e : Family.gammaNegRec.glm.logLike exGammaData v
      = val 0 + (val 1 * exGammaData.linearPredictorStd v 0
        - (-(ln (-(exGammaData.linearPredictorStd v 0))))) := by
    rw [Glm.logLike, vsum_left rfl]
    simp only [Fin.foldl_succ, Fin.foldl_zero]
    rfl
  rw [e, h0, neg_val, ln_val (neg_pos.mpr hc)]
  simp only [neg_val, mul_val, sub_val, add_val, ln_real]
  congr 1; ring

theorem exGammaInit (env : Env NReal) (start : ℝ) : initialGuess env Family.gammaNegRec.glm exGammaData
    (exGammaOptions start) = fun _ => val start := rfl

/-- The hypotheses of C63_stays_defined are met: a gamma fit that starts at -2 and moves to -1. -/
theorem exGammaFit : ∃ f, regression exGammaEnv Family.gammaNegRec.glm exGammaData (exGammaOptions (-2))
      = .ok f ∧ f.history ≠ [] ∧
    ∃ a, objective .gammaNegRec exGammaData (exGammaOptions (-2))
      (initialGuess exGammaEnv Family.gammaNegRec.glm exGammaData (exGammaOptions (-2))) = val a := by
  have hl2 := exGammaLike (fun _ => val (-2)) rfl (by norm_num)
  have hl1 := exGammaLike (fun _ => val (-1)) rfl (by norm_num)
  set s := Irls.new Family.gammaNegRec.glm exGammaData (fun _ => val (-2)) (exGammaOptions (-2)) with hs
  have hsol : s.sol exGammaEnv Family.gammaNegRec.glm exGammaData = .ok fun _ => val (-1) := rfl
  have hlog : 0 < Real.log 2 := Real.log_pos (by norm_num)
  have hlog' : Real.log 2 < 2 - 1 := Real.log_lt_sub_one_of_pos (by norm_num) (by norm_num)
  have e1 : s.nextObj Family.gammaNegRec.glm exGammaData (fun _ => val (-1))
      = val (-1 + Real.log (- -1)) + 0 := by
    simp only [Irls.nextObj, hs, Irls.new, exGammaReg, Reg.prepare, Reg.irlsLike, hl1]
  have e2 : s.lastObj = val (-2 + Real.log (- -2)) + 0 := by
    simp only [Irls.lastObj, hs, Irls.new, exGammaReg, Reg.prepare, Reg.irlsLike, hl2]
  have hgt : gt (s.nextObj Family.gammaNegRec.glm exGammaData fun _ => val (-1)) s.lastObj = true := by
    rw [e1, e2, zero_eq, add_val, add_val, gt_val, gt_real]
    norm_num; linarith
  have hne : vecEq (fun _ => val (-1) : Vec NReal (ncols false 1)) s.guess = false := by
    rw [Bool.eq_false_iff]
    simp [vecEq, hs, Irls.new, List.finRange]
  have hsm : s.small Family.gammaNegRec.glm exGammaData (exGammaOptions (-2)).tol (fun _ => val (-1))
      = true := by
    have h1 : smallDelta (s.nextObj Family.gammaNegRec.glm exGammaData fun _ => val (-1)) s.lastObj
        ((exGammaOptions (-2)).tol * ofNat 1) = true := by
      rw [e1, e2, zero_eq, add_val, add_val]
      change le (val _) (val _) = true
      rw [le_val, le_real]
      simp only [abs_real, ofNat_real]
      rw [abs_le]
      norm_num
      constructor <;> linarith
    have h2 : smallDeltaVec (fun _ => val (-1) : Vec NReal (ncols false 1)) s.guess
        (exGammaOptions (-2)).tol = true := by
      have : smallDeltaVec (fun _ => (-1) : Vec ℝ (ncols false 1)) (fun _ => -2) 1 = true := by
        simp only [smallDeltaVec, le_real, vsub, vsum_real, ofNat_real]
        norm_num
      simp only [smallDeltaVec] at this ⊢
      rw [← this]
      rw [vsum_left rfl, vsum_left rfl]
      simp only [Fin.foldl_succ, Fin.foldl_zero, ncols]
      rfl
    simp only [Irls.small, Bool.and_eq_true]
    exact ⟨h1, h2⟩
  have ht : (s.reg.prepare s.guess).terminateOk (exGammaOptions (-2)).tol = true := by
    simp [hs, Irls.new, exGammaReg, Reg.prepare, Reg.terminateOk]
  have hnext := Irls.nextRaw_full (tol := (exGammaOptions (-2)).tol) rfl hsol ht hne hgt
  rw [hsm] at hnext
  have hloop := fitLoop_eq exGammaEnv Family.gammaNegRec.glm exGammaData (exGammaOptions (-2)) s none
  rw [hnext] at hloop
  dsimp only at hloop
  rw [regression_eq, exGammaInit, ← hs, hloop,
    if_neg (by simp [Irls.prep, hs, Irls.new, exGammaOptions]), fitLoop_eq, Irls.nextRaw_done rfl]
  refine ⟨_, rfl, by simp [Fit.new, Irls.candState], -2 + Real.log (- -2) + 0, ?_⟩
  unfold objective
  rw [exGammaReg, hl2]
  exact add_val _ 0

theorem stepScale_immediate {F : Type} [Scalar F] (f : F → F) {t : F} (h : gt 1 (Scalar.abs t) = false) :
    stepScale 1 f t ≠ none := by
  unfold stepScale
  simp only [stepScaleLoop, h]
  split
  · rename_i heq; simp at heq
  · simp
  · split <;> simp

/-- The hypotheses of C63_stuck are met: the same fit started at 1 returns 1. -/
theorem exGammaStuck : (∃ f, regression exGammaEnv Family.gammaNegRec.glm exGammaData (exGammaOptions 1)
      = .ok f ∧ f.result = fun _ => val 1) ∧
    exGammaData.linearPredictorStd (initialGuess exGammaEnv Family.gammaNegRec.glm exGammaData
      (exGammaOptions 1)) 0 = val 1 ∧ (1 : ℝ) ∉ closure (predDom .gammaNegRec) := by
  have hpred : exGammaData.linearPredictorStd (fun _ => val 1) 0 = val 1 := exGammaPred _ rfl 0
  have hout : (1 : ℝ) ∉ closure (predDom .gammaNegRec) := by
    simp only [predDom, closure_Iio, mem_Iic]; norm_num
  have h0 : gt (exGammaOptions 1).l1 0 = false := by
    change gt (val 0) (val 0) = false
    rw [gt_val, Bool.eq_false_iff, ne_eq, gt_real]; exact lt_irrefl _
  refine ⟨?_, hpred, hout⟩
  have hst := C63_stuck (env := exGammaEnv) (options := exGammaOptions 1) (fam := .gammaNegRec)
    Nat.one_pos h0 (i := 0) hpred hout
  suffices h : ∃ f, regression exGammaEnv Family.gammaNegRec.glm exGammaData (exGammaOptions 1)
      = .ok f by
    obtain ⟨f, h⟩ := h
    exact ⟨f, h, (hst.1 f h).2.2⟩
  set s := Irls.new Family.gammaNegRec.glm exGammaData (fun _ => val 1) (exGammaOptions 1) with hs
  have hc := s.nextRaw_case exGammaEnv Family.gammaNegRec.glm exGammaData (exGammaOptions 1).tol
  have hloop := fitLoop_eq exGammaEnv Family.gammaNegRec.glm exGammaData (exGammaOptions 1) s none
  rw [regression_eq, exGammaInit, ← hs, hloop]
  cases hr : s.nextRaw exGammaEnv Family.gammaNegRec.glm exGammaData (exGammaOptions 1).tol with
  | stop s' => exact ⟨_, rfl⟩
  | linalg s' =>
    rw [hr] at hc
    cases hc
    case linalg e he => exact absurd he (by simp [hs, Irls.new, Irls.sol, exGammaEnv])
  | cand s' v l =>
    have h1 := nextRaw_improves_strict (fam := .gammaNegRec) Nat.one_pos h0
      (Irls.Inv.new (initial := fun _ => val 1)) hr
    obtain ⟨u, a, -, h2, -⟩ := gt_defined h1
    obtain ⟨w, -, h3, -⟩ := add_defined h2
    obtain ⟨ω, h4, h5⟩ := logLike_defined h3 0
    have h6 : exGammaData.linearPredictorStd s.guess 0 = val 1 := hpred
    rw [h6] at h4
    rw [← val_inj.mp h4] at h5
    rcases h5 with h5 | ⟨h5, -⟩
    · exact absurd (subset_closure h5) hout
    · cases h5
  | diverge s' =>
    rw [hr] at hc
    cases hc
    case diverge v' _ _ _ _ hm =>
      have hstop : gt (1 : NReal) (Scalar.abs (sqrt (vsum fun j => 1 + s.guess j * s.guess j)
          * (exGammaOptions 1).tol)) = false := by
        have e : (vsum fun j => 1 + s.guess j * s.guess j) = val (0 + (1 + 1 * 1)) := by
          rw [vsum_left rfl]
          simp only [ncols, Fin.foldl_succ, Fin.foldl_zero]
          rfl
        rw [e, sqrt_val (by norm_num)]
        change gt (val 1) (val _) = false
        rw [gt_val, Bool.eq_false_iff, ne_eq, gt_real, not_lt]
        simp only [abs_real, sqrt_real, mul_one]
        refine le_trans ?_ (le_abs_self _)
        rw [Real.one_le_sqrt]; norm_num
      exact absurd hm (stepScale_immediate _ hstop)

end GLM
