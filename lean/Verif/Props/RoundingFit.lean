/-
  C85: in floating-point arithmetic the penalized log-likelihoods of a fit without L1 penalty increase
  strictly from the start, for all data and whatever the linear-algebra library returns.
-/
import Verif.Lemmas.IeeeSame
import Verif.Props.RoundingSearch
import Verif.Props.Iteration

namespace GLM
open Spec Scalar Fl

variable {fmt : FloatFormat} {n p : ℕ} {b : Bool}

/-! ### Values of the format -/

theorem stored_add (x y : Fl fmt) : Stored (x + y) := by
  by_cases h : (x + y).isNaN
  · exact Or.inl h
  · right; rw [val_add h, fmt.rnd_idem]

theorem stored_mul (x y : Fl fmt) : Stored (x * y) := by
  by_cases h : (x * y).isNaN
  · exact Or.inl h
  · right; rw [val_mul h, fmt.rnd_idem]

theorem stored_zero : Stored (0 : Fl fmt) := Or.inr fmt.rnd_zero

theorem stored_interp {k : ℕ} (g v : Vec (Fl fmt) k) (m : Fl fmt) (j : Fin k) :
    Stored (Irls.interp g v m j) := stored_add _ _

theorem stored_transformBeta {data : Dataset (Fl fmt) n p b} {beta : Vec (Fl fmt) (ncols b p)}
    (h : ∀ j, Stored (beta j)) (j) : Stored (data.transformBeta beta j) := by
  cases b
  · cases hs : data.standardizer with
    | none =>
      have e : data.transformBeta beta = beta := by simp only [Dataset.transformBeta, hs]
      rw [e]; exact h j
    | some s =>
      have e : data.transformBeta beta = s.transformCoefficientsNoInt beta := by
        simp only [Dataset.transformBeta, hs]
      rw [e]; exact stored_mul _ _
  · cases hs : data.standardizer with
    | none =>
      have e : data.transformBeta beta = beta := by simp only [Dataset.transformBeta, hs]
      rw [e]; exact h j
    | some s =>
      have e : data.transformBeta beta = s.transformCoefficients beta := by
        simp only [Dataset.transformBeta, hs]
      rw [e]
      refine Fin.cases ?_ (fun j => ?_) j
      · exact stored_add _ _
      · exact stored_mul _ _

/-- The starting point consists of values of the format. -/
theorem stored_initialGuess {env : Env (Fl fmt)} {g : Glm (Fl fmt)} {data : Dataset (Fl fmt) n p b}
    {options : FitOptions (Fl fmt) (ncols b p)} (henv : SolvesInFormat env)
    (h : ∀ beta, options.initGuess = some beta → ∀ j, Stored (beta j)) (j) :
    Stored (initialGuess env g data options j) := by
  unfold initialGuess
  cases hg : options.initGuess with
  | some beta => exact stored_transformBeta (h beta hg) j
  | none =>
    dsimp only
    unfold Glm.initGuess
    dsimp only
    generalize (data.xConj.dotV _ : Vec (Fl fmt) (ncols b p)) = c
    cases hs : env.solveh (data.xConj.dotM data.x) c with
    | ok sol => exact henv _ _ _ hs j
    | error e => exact stored_zero

/-! ### The likelihood up to the sign of zeros -/

section
variable {fam : Family} {data : Dataset (Fl fmt) n p b}

theorem same_predictor {v w : Vec (Fl fmt) (ncols b p)} (h : ∀ j, same (v j) (w j)) (i : Fin n) :
    same (data.linearPredictorStd v i) (data.linearPredictorStd w i) := by
  have hd : same (data.x.dotV v i) (data.x.dotV w i) :=
    same_vdotBy (fun _ => same_refl _) h
  unfold Dataset.linearPredictorStd
  cases data.linearOffset with
  | none => exact hd
  | some o => exact same_add hd (same_refl _)

theorem same_logLike {v w : Vec (Fl fmt) (ncols b p)} (h : ∀ j, same (v j) (w j)) :
    same (fam.glm.logLike data v) (fam.glm.logLike data w) := by
  refine same_vsum fun i => ?_
  have ht : same (fam.glm.logLikeTerms data v i) (fam.glm.logLikeTerms data w i) :=
    fam.term_same (data.y i) (same_predictor h i)
  have hv : same (data.applyVarWeights (fam.glm.logLikeTerms data v) i)
      (data.applyVarWeights (fam.glm.logLikeTerms data w) i) := by
    unfold Dataset.applyVarWeights
    cases data.weights with
    | none => exact ht
    | some u => exact same_mul (same_refl _) ht
  unfold Dataset.applyTotalWeights Dataset.applyFreqWeights
  cases data.freqs with
  | none => exact hv
  | some u => exact same_mul (same_refl _) hv

theorem nan_logLike {v : Vec (Fl fmt) (ncols b p)} (i : Fin n) (j) (h : (v j).isNaN) :
    (fam.glm.logLike data v).isNaN := by
  refine isNaN_logLike _ v i ?_
  refine fam.term_nan (data.y i) ?_
  have hd : (data.x.dotV v i).isNaN := 
    isNaN_vdotBy j (Or.inr h)
  unfold Dataset.linearPredictorStd
  cases data.linearOffset with
  | none => exact hd
  | some o => exact isNaN_add.mpr (Or.inl hd)

end

section
variable {env : Env (Fl fmt)} {fam : Family} {data : Dataset (Fl fmt) n p b}
  {options : FitOptions (Fl fmt) (ncols b p)}

theorem getReg_noL1_fl (hl1 : gt options.l1 0 = false) :
    (getReg options = .null) ∨ ∃ l2, getReg options = .ridge l2 := by
  unfold getReg
  simp only [hl1, Bool.false_and, Bool.false_eq_true, if_false]
  split
  · exact Or.inr ⟨_, rfl⟩
  · exact Or.inl rfl

theorem Reg.Same.noL1_fl {k : ℕ} {r r' : Reg (Fl fmt) k} (h : Reg.Same r r')
    (hr : r' = .null ∨ ∃ l2, r' = .ridge l2) (v : Vec (Fl fmt) k) :
    r.prepare v = r ∧ r.irlsLike = r'.likelihood ∧ ∀ tol, r.terminateOk tol = true := by
  rcases hr with rfl | ⟨l2, rfl⟩ <;> cases h <;> exact ⟨rfl, rfl, fun _ => rfl⟩

theorem same_penalized (hl1 : gt options.l1 0 = false) {v w : Vec (Fl fmt) (ncols b p)}
    (h : ∀ j, same (v j) (w j)) : same (penalized fam data options v) (penalized fam data options w) := by
  refine same_add (same_logLike h) ?_
  rcases getReg_noL1_fl hl1 with hr | ⟨l2, hr⟩ <;> rw [hr]
  · exact same_refl _
  · exact same_mul (same_refl _) (same_vsum fun j => same_mul (same_refl _) (same_mul (h j) (h j)))

/-- An improvement of the penalized likelihood is one between points without not-a-number. -/
theorem coef_of_gt (hl1 : gt options.l1 0 = false) {v w : Vec (Fl fmt) (ncols b p)}
    (h : gt (penalized fam data options v) (penalized fam data options w) = true) (j) :
    ¬ (w j).isNaN := by
  intro hj
  have hw : ¬ (penalized fam data options w).isNaN := (gt_iff.mp h).2.1
  cases n with
  | succ n => exact hw (isNaN_add.mpr (Or.inl (nan_logLike 0 j hj)))
  | zero =>
    have hlike : ∀ u, fam.glm.logLike data u = 0 := fun u => vsum_empty _
    rcases getReg_noL1_fl hl1 with hr | ⟨l2, hr⟩
    · unfold penalized at h
      rw [hr, hlike, hlike] at h
      have := (gt_iff.mp h).2.2
      exact absurd this (lt_irrefl _)
    · unfold penalized at hw
      rw [hr] at hw
      exact hw (isNaN_add.mpr (Or.inr (Or.inl (isNaN_mul.mpr (Or.inr (Or.inl (isNaN_vsum j
        (isNaN_mul.mpr (Or.inr (Or.inl (isNaN_mul.mpr (Or.inl hj))))))))))))

/-- The point of the line search with step zero is the current point. -/
theorem interp_zero_same {k : ℕ} {g v : Vec (Fl fmt) k} {j : Fin k} (hg : Stored (g j))
    (h : ¬ (Irls.interp g v 0 j).isNaN) : same (Irls.interp g v 0 j) (g j) := by
  have h1 : ¬ (1 - 0 : Fl fmt).isNaN := by
    rw [isNaN_sub]; simp
  have e1 : (1 - 0 : Fl fmt).val = 1 := by
    rw [val_sub h1]
    change fmt.rnd (1 - 0) = 1
    rw [sub_zero, fmt.rnd_one]
  have ha : ¬ (v j * 0 + g j * (1 - 0)).isNaN := h
  have hb := ha
  rw [isNaN_add] at hb
  push Not at hb
  have hgn : ¬ (g j).isNaN := fun hn => hb.2.1 (isNaN_mul.mpr (Or.inl hn))
  have hgv : fmt.rnd (g j).val = (g j).val := hg.resolve_left hgn
  refine ⟨⟨fun hn => absurd hn h, fun hn => absurd hn hgn⟩, fun _ => ?_⟩
  change (v j * 0 + g j * (1 - 0)).val = _
  rw [val_add ha, val_mul hb.1, val_mul hb.2.1, e1, mul_one, hgv]
  change fmt.rnd (fmt.rnd ((v j).val * 0) + _) = _
  rw [mul_zero, fmt.rnd_zero, zero_add, hgv]

/-- Every accepted point improves the penalized likelihood and consists of values of the format. -/
theorem nextRaw_increases {initial : Vec (Fl fmt) (ncols b p)} (hl1 : gt options.l1 0 = false)
    (henv : SolvesInFormat env) {s s' : Irls (Fl fmt) (ncols b p)} {v : Vec (Fl fmt) (ncols b p)}
    {l : Fl fmt} (hi : Irls.Inv fam.glm data options initial s) (hst : ∀ j, Stored (s.guess j))
    (h : s.nextRaw env fam.glm data options.tol = .cand s' v l) :
    gt (penalized fam data options v) (penalized fam data options s.guess) = true ∧
      ∀ j, Stored (v j) := by
  obtain ⟨h1, h2, h3⟩ := hi.same.noL1_fl (getReg_noL1_fl hl1) s.guess
  have hc := s.nextRaw_case env fam.glm data options.tol
  rw [h] at hc
  generalize hr : (RawNext.cand s' v l : RawNext (Fl fmt) (ncols b p)) = r at hc
  cases hc <;> simp only [RawNext.cand.injEq, reduceCtorEq] at hr
  case admm ht => rw [h1, h3] at ht; simp at ht
  case full hsol hg =>
    obtain ⟨-, rfl, rfl⟩ := hr
    simp only [Irls.nextObj, Irls.lastObj, h1, h2, hi.last] at hg
    exact ⟨hg, henv _ _ _ (by assumption)⟩
  case scaled v' hs ht he hg m hm h0 =>
    obtain ⟨-, rfl, rfl⟩ := hr
    refine ⟨?_, stored_interp _ _ _⟩
    have h4 := C28_only_improvements _ _ _ _ hm
    have hm0 : m ≠ 0 := by
      rintro rfl
      have : eq (0 : Fl fmt) 0 = true := eq_iff.mpr ⟨id, id, rfl⟩
      exact absurd (h0.symm.trans this) (by simp)
    have h5 := h4.resolve_left hm0
    simp only [Irls.fStep, h1, hi.same.likelihood] at h5
    change gt (penalized fam data options (Irls.interp s.guess v' m))
      (penalized fam data options (Irls.interp s.guess v' 0)) = true at h5
    rwa [← same_gt (same_refl _) (same_penalized (fam := fam) (data := data) hl1
      fun j => interp_zero_same (hst j) (coef_of_gt hl1 h5 j))]

/-! ### Whole fits -/

/-- The start, then the recorded steps. -/
private noncomputable def flLikes (fam : Family) (data : Dataset (Fl fmt) n p b)
    (options : FitOptions (Fl fmt) (ncols b p)) (initial : Vec (Fl fmt) (ncols b p))
    (hist : List (IrlsStep (Fl fmt) (ncols b p))) : List (Fl fmt) :=
  penalized fam data options initial :: hist.map IrlsStep.like

theorem flLikes_cand {initial : Vec (Fl fmt) (ncols b p)} (hl1 : gt options.l1 0 = false)
    (henv : SolvesInFormat env)
    {s s' : Irls (Fl fmt) (ncols b p)} {v : Vec (Fl fmt) (ncols b p)} {l : Fl fmt}
    (hi : Irls.Inv fam.glm data options initial s) (hst : ∀ j, Stored (s.guess j))
    (hs : (flLikes fam data options initial s.history).IsChain Increases)
    (h : s.nextRaw env fam.glm data options.tol = .cand s' v l) :
    (flLikes fam data options initial (s'.history ++ [s'.candStep v l])).IsChain Increases := by
  have hlt := (nextRaw_increases hl1 henv hi hst h).1
  have hf := s.nextRaw_frame env fam.glm data options.tol
  rw [h] at hf
  obtain ⟨hf, rfl, -⟩ := hf
  have hi' := hi.frame hf
  rw [hf.history]
  unfold flLikes at hs ⊢
  rw [List.map_append, ← List.cons_append]
  refine List.IsChain.append hs (by simp) ?_
  intro x hx y hy
  simp only [List.map_cons, List.map_nil, List.head?_cons, Option.mem_def,
    Option.some.injEq] at hy
  subst hy
  have hlast : x = penalized fam data options s.guess := by
    have hg := hi.guess
    rcases List.eq_nil_or_concat s.history with hnil | ⟨l0, st, hst⟩
    · simp only [hnil, List.map_nil, List.getLast?_singleton, Option.mem_def,
        Option.some.injEq] at hx
      simp only [hnil, List.getLast?_nil, Option.map_none, Option.getD_none] at hg
      rw [← hx, hg]
    · rw [List.concat_eq_append] at hst
      rw [hst] at hx hg
      simp only [List.map_append, List.map_cons, List.map_nil, ← List.cons_append,
        List.getLast?_append, List.getLast?_singleton, Option.some_or, Option.mem_def,
        Option.some.injEq] at hx
      simp only [List.getLast?_append, List.getLast?_singleton, Option.some_or, Option.map_some,
        Option.getD_some] at hg
      rw [← hx, hg]
      exact hi.hist st (by rw [hst]; simp)
  rw [hlast]
  obtain ⟨g1, g2, g3⟩ := gt_iff.mp hlt
  simp only [Irls.candStep, hi'.same.likelihood]
  exact ⟨g2, g1, g3⟩

/-- What every state of the iteration satisfies. -/
private def FlInv (fam : Family) (data : Dataset (Fl fmt) n p b)
    (options : FitOptions (Fl fmt) (ncols b p)) (initial : Vec (Fl fmt) (ncols b p))
    (s : Irls (Fl fmt) (ncols b p)) : Prop :=
  (∀ j, Stored (s.guess j)) ∧ (flLikes fam data options initial s.history).IsChain Increases

private theorem FlInv.cand {initial : Vec (Fl fmt) (ncols b p)} (hl1 : gt options.l1 0 = false)
    (henv : SolvesInFormat env) (s s' : Irls (Fl fmt) (ncols b p)) (v : Vec (Fl fmt) (ncols b p))
    (l : Fl fmt) (hi : Irls.Inv fam.glm data options initial s)
    (hs : FlInv fam data options initial s)
    (h : s.nextRaw env fam.glm data options.tol = .cand s' v l) :
    FlInv fam data options initial (s'.candState v l) :=
  ⟨(nextRaw_increases hl1 henv hi hs.1 h).2, flLikes_cand hl1 henv hi hs.1 hs.2 h⟩

instance : Trans (Increases (fmt := fmt)) Increases Increases :=
  ⟨fun h1 h2 => ⟨h1.1, h2.2.1, h1.2.2.trans h2.2.2⟩⟩

/-- **C85**: in floating-point arithmetic, for all data and whatever the linear-algebra library
returns, the penalized log-likelihoods of a fit without L1 penalty, the start included, are numbers
that increase strictly from one recorded step to the next. -/
theorem C85_increases (hl1 : gt options.l1 0 = false) (henv : SolvesInFormat env)
    (hstart : ∀ beta, options.initGuess = some beta → ∀ j, Stored (beta j)) {f : Fit (Fl fmt) n p b}
    (h : regression env fam.glm data options = .ok f) :
    (penalized fam data options (initialGuess env fam.glm data options)
      :: f.history.map IrlsStep.like).Pairwise Increases := by
  obtain ⟨s0, s', -, hp, -, hh⟩ := regression_inv h
    (P := FlInv fam data options (initialGuess env fam.glm data options))
    ⟨stored_initialGuess henv hstart, by simp [flLikes, Irls.new]⟩ (FlInv.cand hl1 henv)
  have := List.isChain_iff_pairwise.mp hp.2
  rw [hh, List.map_map]
  exact this

/-- Likewise for the history of a fit that exceeds its iterations; it is not empty. -/
theorem C85_increases_max_iter (hl1 : gt options.l1 0 = false) (henv : SolvesInFormat env)
    (hstart : ∀ beta, options.initGuess = some beta → ∀ j, Stored (beta j)) {m : ℕ}
    {hist : List (IrlsStep (Fl fmt) (ncols b p))}
    (h : regression env fam.glm data options = .err (.maxIter m hist)) :
    hist ≠ [] ∧ (penalized fam data options (initialGuess env fam.glm data options)
      :: hist.map IrlsStep.like).Pairwise Increases := by
  obtain ⟨s0, s', v, l, hi, hp, hn, rfl⟩ := (fitLoop_inv
    (P := FlInv fam data options (initialGuess env fam.glm data options)) (FlInv.cand hl1 henv) _ none
    Irls.Inv.new ⟨stored_initialGuess henv hstart, by simp [flLikes, Irls.new]⟩).2.1 m hist
      (regression_err h)
  exact ⟨by simp, List.isChain_iff_pairwise.mp (flLikes_cand hl1 henv hi hp.1 hp.2 hn)⟩

/-! ### The reported optimum -/

theorem totalCmp_num {x y : Fl fmt} (hx : ¬ x.isNaN) (hy : ¬ y.isNaN) (h : x.val < y.val) :
    totalCmp x y = .lt ∧ totalCmp y x = .gt := by
  have px : x.place = 1 := by cases x <;> first | rfl | exact absurd trivial hx
  have py : y.place = 1 := by cases y <;> first | rfl | exact absurd trivial hy
  have h1 : totalCmp x y = .lt := by
    rw [totalCmp_key]
    refine compare_lt_iff_lt.mpr ?_
    unfold key
    rw [Prod.Lex.toLex_lt_toLex, Prod.Lex.toLex_lt_toLex]
    exact Or.inr ⟨px.trans py.symm, Or.inl h⟩
  refine ⟨h1, ?_⟩
  rw [Std.OrientedCmp.eq_swap (cmp := (totalCmp : Fl fmt → Fl fmt → Ordering)), h1]
  rfl

theorem totalCmp_place {x y : Fl fmt} (h : x.place < y.place) :
    totalCmp x y = .lt ∧ totalCmp y x = .gt := by
  have h1 : totalCmp x y = .lt := by
    rw [totalCmp_key]
    refine compare_lt_iff_lt.mpr ?_
    unfold key
    rw [Prod.Lex.toLex_lt_toLex, Prod.Lex.toLex_lt_toLex]
    exact Or.inl h
  refine ⟨h1, ?_⟩
  rw [Std.OrientedCmp.eq_swap (cmp := (totalCmp : Fl fmt → Fl fmt → Ordering)), h1]
  rfl

/-- The reported optimum is the last recorded step, or the start if none is recorded. -/
theorem C85_last_step (hl1 : gt options.l1 0 = false) (henv : SolvesInFormat env)
    (hstart : ∀ beta, options.initGuess = some beta → ∀ j, Stored (beta j)) {f : Fit (Fl fmt) n p b}
    (h : regression env fam.glm data options = .ok f) :
    (f.history = [] ∧
      f.result = data.inverseTransformBeta (initialGuess env fam.glm data options) ∧
      f.modelLike = penalized fam data options (initialGuess env fam.glm data options)) ∨
    ∃ earlier last, f.history = earlier ++ [last] ∧ f.result = last.guess ∧
      f.modelLike = last.like := by
  rcases C25_best_of_history h with ⟨h1, h2, h3, h4⟩ | ⟨pre, opt, post, h1, h2, h3, -, h5⟩
  · left
    rw [h2] at h4
    exact ⟨h1, h3, h4⟩
  · right
    cases post with
    | nil => exact ⟨pre, opt, h1, h2, h3⟩
    | cons st post =>
      exfalso
      have hinc := C85_increases hl1 henv hstart h
      rw [h1, List.map_append, List.map_cons, List.map_cons] at hinc
      have hinc := (List.pairwise_append.mp (List.pairwise_cons.mp hinc).2).2.1
      have hlt := (List.pairwise_cons.mp hinc).1 st.like (by simp)
      have := h5 st (by simp)
      rw [h3, (totalCmp_num hlt.1 hlt.2.1 hlt.2.2).2] at this
      cases this

/-- If the penalized log-likelihood is a number at the start then it is one at the result, and not
smaller. -/
theorem C85_never_worse (hl1 : gt options.l1 0 = false) (henv : SolvesInFormat env)
    (hstart : ∀ beta, options.initGuess = some beta → ∀ j, Stored (beta j)) {f : Fit (Fl fmt) n p b}
    (h : regression env fam.glm data options = .ok f)
    (h0 : ¬ (penalized fam data options (initialGuess env fam.glm data options)).isNaN) :
    ¬ f.modelLike.isNaN ∧
      (penalized fam data options (initialGuess env fam.glm data options)).val ≤ f.modelLike.val := by
  have hinc := C85_increases hl1 henv hstart h
  rcases C85_last_step hl1 henv hstart h with ⟨-, -, h2⟩ | ⟨pre, opt, h1, -, h2⟩
  · rw [h2]; exact ⟨h0, le_rfl⟩
  · have := (List.pairwise_cons.mp hinc).1 opt.like (by rw [h1]; simp)
    rw [h2]
    exact ⟨this.2.1, this.2.2.le⟩

/-- If the penalized log-likelihood is not-a-number at the start then the fit does not move: it
returns the start, or an error of the linear algebra, or does not return. -/
theorem C85_nan_start (hl1 : gt options.l1 0 = false) (henv : SolvesInFormat env)
    (hstart : ∀ beta, options.initGuess = some beta → ∀ j, Stored (beta j))
    (h0 : (penalized fam data options (initialGuess env fam.glm data options)).isNaN) :
    (∀ f, regression env fam.glm data options = .ok f → f.history = [] ∧ f.modelLike.isNaN ∧
      f.result = data.inverseTransformBeta (initialGuess env fam.glm data options)) ∧
    ∀ m hist, regression env fam.glm data options ≠ .err (.maxIter m hist) := by
  constructor
  · intro f h
    have hinc := C85_increases hl1 henv hstart h
    rcases C85_last_step hl1 henv hstart h with ⟨h1, h2, h3⟩ | ⟨pre, opt, h1, -, -⟩
    · exact ⟨h1, by rw [h3]; exact h0, h2⟩
    · exact absurd h0 ((List.pairwise_cons.mp hinc).1 opt.like (by rw [h1]; simp)).1
  · intro m hist h
    obtain ⟨hne, hinc⟩ := C85_increases_max_iter hl1 henv hstart h
    cases hist with
    | nil => exact hne rfl
    | cons st l => exact absurd h0 ((List.pairwise_cons.mp hinc).1 st.like (by simp)).1

end

/-- The reported optimum with any penalty: a recorded not-a-number with positive sign is taken for the
best; without one, a number is reported if any is recorded, and no recorded number is larger. -/
theorem C85_reported {env : Env (Fl fmt)} {g : Glm (Fl fmt)} {data : Dataset (Fl fmt) n p b}
    {options : FitOptions (Fl fmt) (ncols b p)} {f : Fit (Fl fmt) n p b}
    (h : regression env g data options = .ok f) :
    ((∃ st ∈ f.history, st.like = nan false) → f.modelLike = nan false) ∧
    ((∀ st ∈ f.history, st.like ≠ nan false) → (∃ st ∈ f.history, ¬ st.like.isNaN) →
      ¬ f.modelLike.isNaN ∧ ∀ st ∈ f.history, ¬ st.like.isNaN → st.like.val ≤ f.modelLike.val) := by
  rcases C25_best_of_history h with ⟨h1, -⟩ | ⟨pre, opt, post, h1, h2, h3, h4, h5⟩
  · rw [h1]; exact ⟨fun ⟨st, hst, _⟩ => by simp at hst, fun _ ⟨st, hst, _⟩ => by simp at hst⟩
  have hge : ∀ st ∈ f.history, totalCmp st.like f.modelLike ≠ .gt := by
    intro st hst
    rw [h1] at hst
    rcases List.mem_append.mp hst with hst | hst
    · exact h4 st hst
    · rcases List.mem_cons.mp hst with rfl | hst
      · rw [h3, totalCmp_key]
        simp
      · rw [h5 st hst]; simp
  have hmem : f.modelLike ∈ f.history.map IrlsStep.like := by rw [h3, h1]; simp
  have place_num : ∀ {x : Fl fmt}, ¬ x.isNaN → x.place = 1 := by
    intro x hx
    cases x <;> first | rfl | exact absurd trivial hx
  constructor
  · rintro ⟨st, hst, he⟩
    have := hge st hst
    rw [he] at this
    cases hm : f.modelLike with
    | nan s =>
      cases s
      · rfl
      · rw [hm] at this; exact absurd (totalCmp_place (by simp [place])).2 this
    | negZero => rw [hm] at this; exact absurd (totalCmp_place (by simp [place])).2 this
    | num v => rw [hm] at this; exact absurd (totalCmp_place (by simp [place])).2 this
  · rintro hno ⟨st, hst, hnum⟩
    have hm : ¬ f.modelLike.isNaN := by
      intro hn
      cases hm : f.modelLike with
      | nan s =>
        cases s
        · obtain ⟨st', hst', he⟩ := List.mem_map.mp hmem
          exact hno st' hst' (he.trans hm)
        · have h6 := hge st hst
          rw [hm] at h6
          refine h6 (totalCmp_place ?_).2
          rw [place_num hnum]; simp [place]
      | negZero => rw [hm] at hn; exact hn
      | num v => rw [hm] at hn; exact hn
    refine ⟨hm, fun st' hst' hn' => ?_⟩
    by_contra hlt
    exact hge st' hst' (totalCmp_num hm hn' (not_le.mp hlt)).2

end GLM

namespace GLM
open Spec Scalar Fl

/-! ### Examples -/

/-- A fit whose solver always returns the same point, better than the start, moves there. -/
theorem regression_moves {F : Type} [Scalar F] {n p : ℕ} {b : Bool} {env : Env F} {g : Glm F}
    {data : Dataset F n p b} {options : FitOptions F (ncols b p)} {v : Vec F (ncols b p)}
    (hg : getReg options = .null) (hm : 1 ≤ options.maxIter)
    (hs : ∀ A c, env.solveh (k := ncols b p) A c = .ok v)
    (he : vecEq v (initialGuess env g data options) = false) (hv : vecEq v v = true)
    (hgt : gt (g.logLike data v + (getReg options).likelihood v)
      (g.logLike data (initialGuess env g data options)
        + (getReg options).likelihood (initialGuess env g data options)) = true) :
    ∃ f, regression env g data options = .ok f ∧
      f.history = [{ guess := data.inverseTransformBeta v,
                     like := g.logLike data v + (getReg options).likelihood v }] := by
  set s0 := Irls.new g data (initialGuess env g data options) options with hs0
  have hr0 : s0.reg = .null := hg
  have hc := s0.nextRaw_case env g data options.tol
  generalize hr : s0.nextRaw env g data options.tol = r at hc
  have hsol : ∀ s : Irls F (ncols b p), s.sol env g data = .ok v := fun s => hs _ _
  have hlik : ∀ u, (getReg options).likelihood u = 0 := fun u => by rw [hg]; rfl
  cases hc with
  | done h => exact absurd h (by simp [hs0, Irls.new])
  | linalg h e hsl => rw [hsol] at hsl; cases hsl
  | admm h w hsl ht => rw [hr0] at ht; cases ht
  | equal h w hsl ht he' =>
    rw [hsol] at hsl; cases hsl
    exact absurd (he.symm.trans he') (by simp)
  | diverge h w hsl ht he' hg' =>
    rw [hsol] at hsl; cases hsl
    simp only [Irls.nextObj, Irls.lastObj, hr0] at hg'
    rw [hlik, hlik] at hgt
    exact absurd (hg'.symm.trans hgt) (by simp)
  | zero h w hsl ht he' hg' =>
    rw [hsol] at hsl; cases hsl
    simp only [Irls.nextObj, Irls.lastObj, hr0] at hg'
    rw [hlik, hlik] at hgt
    exact absurd (hg'.symm.trans hgt) (by simp)
  | scaled h w hsl ht he' hg' =>
    rw [hsol] at hsl; cases hsl
    simp only [Irls.nextObj, Irls.lastObj, hr0] at hg'
    rw [hlik, hlik] at hgt
    exact absurd (hg'.symm.trans hgt) (by simp)
  | full h w hsl ht he' hg' =>
    rw [hsol] at hsl; cases hsl
    set s1 : Irls F (ncols b p) := { s0.prep with done := s0.small g data options.tol v } with hs1
    set s2 := s1.candState v (g.logLike data v) with hs2
    have hr2 : s2.reg = .null := by
      simp only [hs2, hs1, Irls.candState, Irls.prep, hr0]; rfl
    have hh2 : s2.history = [s1.candStep v (g.logLike data v)] := rfl
    have hst : ∃ s3, s2.nextRaw env g data options.tol = .stop s3 ∧ s3.history = s2.history := by
      have hc2 := s2.nextRaw_case env g data options.tol
      have hf := s2.nextRaw_frame env g data options.tol
      generalize hr' : s2.nextRaw env g data options.tol = r' at hc2 hf
      have hgu : s2.guess = v := rfl
      cases hc2 with
      | done h => exact ⟨_, rfl, rfl⟩
      | linalg h e hsl => rw [hsol] at hsl; cases hsl
      | admm h w hsl ht => rw [hr2] at ht; cases ht
      | equal => exact ⟨_, rfl, rfl⟩
      | full h w hsl ht he' =>
        rw [hsol] at hsl; cases hsl
        rw [hgu, hv] at he'; cases he'
      | diverge h w hsl ht he' =>
        rw [hsol] at hsl; cases hsl
        rw [hgu, hv] at he'; cases he'
      | zero h w hsl ht he' =>
        rw [hsol] at hsl; cases hsl
        rw [hgu, hv] at he'; cases he'
      | scaled h w hsl ht he' =>
        rw [hsol] at hsl; cases hsl
        rw [hgu, hv] at he'; cases he'
    obtain ⟨s3, h3, h3'⟩ := hst
    have hn : s1.nIter = 0 := rfl
    have hl : fitLoop env g data options s0 none
        = .ok (some (s1.candStep v (g.logLike data v)), s3) := by
      rw [fitLoop_eq, hr]
      dsimp only
      rw [if_neg (by rw [hn]; omega), fitLoop_eq, h3]
      rfl
    refine ⟨_, by rw [regression_eq, ← hs0, hl], ?_⟩
    simp only [Fit.new, h3', hh2, List.map_cons, List.map_nil, Irls.candStep]
    rw [hlik]
    congr 2
    rw [hs1]
    simp only [Irls.prep, hr0]
    rfl

/-- A solver that returns `1`. -/
noncomputable def oneEnv : Env (Fl binary64) where
  eps := 0
  solveh _ _ := .ok fun _ => num ((1 : ℝ) : EReal)
  invh _ := .error .failed
  inv _ := .error .failed
  fuel := 0

/-- The numbers of the example are numbers of `f64`. -/
theorem binary64_halves : binary64.rnd ((1 : ℝ) : EReal) = ((1 : ℝ) : EReal) ∧
    binary64.rnd ((-1 : ℝ) : EReal) = ((-1 : ℝ) : EReal) ∧
    binary64.rnd ((1 / 2 : ℝ) : EReal) = ((1 / 2 : ℝ) : EReal) ∧
    binary64.rnd ((-(1 / 2) : ℝ) : EReal) = ((-(1 / 2) : ℝ) : EReal) ∧
    binary64.rnd ((-(3 / 2) : ℝ) : EReal) = ((-(3 / 2) : ℝ) : EReal) := by
  refine ⟨?_, ?_, ?_, ?_, ?_⟩
  · exact binary64.rnd_one
  · rw [binary64_rnd 0 (-2 ^ 52) (by norm_num) (by norm_num)]
    · congr 1; norm_num
    · norm_num
    · norm_num
    · refine roundEven_of_near ?_; norm_num
  · rw [binary64_rnd (-1) (2 ^ 52) (by norm_num) (by norm_num)]
    · congr 1; norm_num
    · norm_num
    · norm_num
    · refine roundEven_of_near ?_; norm_num
  · rw [binary64_rnd (-1) (-2 ^ 52) (by norm_num) (by norm_num)]
    · congr 1; norm_num
    · norm_num
    · norm_num
    · refine roundEven_of_near ?_; norm_num
  · rw [binary64_rnd 0 (-3 * 2 ^ 51) (by norm_num) (by norm_num)]
    · congr 1; norm_num
    · norm_num [abs_of_pos]
    · norm_num [abs_of_pos]
    · refine roundEven_of_near ?_; norm_num

theorem half_binary64 : (half : Fl binary64) = num ((1 / 2 : ℝ) : EReal) := by
  change num (binary64.rnd (((5 : ℕ) / 10 ^ 1 : ℝ) : EReal)) = _
  have : (((5 : ℕ) : ℝ) / 10 ^ 1) = 1 / 2 := by norm_num
  rw [this, binary64_halves.2.2.1]

/-- The log-likelihood of the linear model of the response `1` at a coefficient `a`. -/
theorem oneData_linear {a c d e : ℝ} (ha : binary64.rnd (a : EReal) = a) (h0 : a ≠ 0)
    (hc : binary64.rnd ((1 / 2 * a : ℝ) : EReal) = (c : ℝ)) (hc0 : c ≠ 0)
    (hd : binary64.rnd ((c * a : ℝ) : EReal) = (d : ℝ)) (hd0 : d ≠ 0)
    (he : binary64.rnd ((a - d : ℝ) : EReal) = (e : ℝ)) (he0 : e ≠ 0) :
    Family.linear.glm.logLike oneData (fun _ => num (a : EReal)) = num (e : EReal) := by
  have hee : binary64.rnd (e : EReal) = e := by
    have := binary64.rnd_idem ((a - d : ℝ) : EReal)
    rwa [he] at this
  have ht : Family.linear.glm.logLikeTerms oneData (fun _ => num (a : EReal)) 0 = num (e : EReal) := by
    change (1 : Fl binary64) * oneData.linearPredictorStd (fun _ => num (a : EReal)) 0
      - half * oneData.linearPredictorStd (fun _ => num (a : EReal)) 0
        * oneData.linearPredictorStd (fun _ => num (a : EReal)) 0 = _
    rw [oneData_predictor ha h0, half_binary64, one_mul_num ha h0, num_mul hc hc0, num_mul hd hd0,
      num_sub he he0 hd0]
  change 0 + 1 * (1 * Family.linear.glm.logLikeTerms oneData (fun _ => num (a : EReal)) 0) = _
  rw [ht, one_mul_num hee he0, one_mul_num hee he0, zero_add_num hee he0]

/-- A linear fit in `f64` of the response `1` from the coefficient `-1`: it records one step, from the
log-likelihood `-3/2` to `1/2`, and meets the hypotheses of `C85_increases`. -/
theorem C85_example_moves : ∃ f : Fit (Fl binary64) 1 0 true,
    regression oneEnv Family.linear.glm oneData
      { maxIter := 10, tol := 0, l2 := 0, l1 := 0,
        initGuess := some fun _ => num ((-1 : ℝ) : EReal) } = .ok f ∧
    f.history = [{ guess := fun _ => num ((1 : ℝ) : EReal), like := num ((1 / 2 : ℝ) : EReal) }] ∧
    SolvesInFormat oneEnv ∧ Stored (num ((-1 : ℝ) : EReal) : Fl binary64) ∧
    gt (0 : Fl binary64) 0 = false := by
  obtain ⟨r1, r2, r3, r4, r5⟩ := binary64_halves
  have l1 : Family.linear.glm.logLike oneData (fun _ => num ((1 : ℝ) : EReal))
      = num ((1 / 2 : ℝ) : EReal) := by
    refine oneData_linear (c := 1 / 2) (d := 1 / 2) r1 (by norm_num) ?_ (by norm_num) ?_ (by norm_num)
      ?_ (by norm_num)
    · rw [mul_one]; exact r3
    · rw [mul_one]; exact r3
    · rw [show (1 : ℝ) - 1 / 2 = 1 / 2 by norm_num]; exact r3
  have l2 : Family.linear.glm.logLike oneData (fun _ => num ((-1 : ℝ) : EReal))
      = num ((-(3 / 2) : ℝ) : EReal) := by
    refine oneData_linear (c := -(1 / 2)) (d := 1 / 2) r2 (by norm_num) ?_ (by norm_num) ?_ (by norm_num)
      ?_ (by norm_num)
    · rw [show (1 / 2 : ℝ) * -1 = -(1 / 2) by norm_num]; exact r4
    · rw [show (-(1 / 2) : ℝ) * -1 = 1 / 2 by norm_num]; exact r3
    · rw [show (-1 : ℝ) - 1 / 2 = -(3 / 2) by norm_num]; exact r5
  have hadd : ∀ {e : ℝ}, binary64.rnd (e : EReal) = e → e ≠ 0 →
      (num (e : EReal) + 0 : Fl binary64) = num (e : EReal) := by
    intro e he he0
    exact num_add (c := 0) (by rw [add_zero]; exact he) he0
  have hreg : getReg (FitOptions.mk 10 0 0 0 (some fun _ => num ((-1 : ℝ) : EReal)) :
      FitOptions (Fl binary64) (ncols true 0)) = .null := by
    unfold getReg; simp only [gt_self_false]; rfl
  have hne : vecEq (fun _ => num ((1 : ℝ) : EReal))
      (fun _ => num ((-1 : ℝ) : EReal) : Vec (Fl binary64) 1) = false := by
    unfold vecEq
    rw [Bool.eq_false_iff, ne_eq, List.all_eq_true]
    intro h
    have := h (0 : Fin 1) (List.mem_finRange _)
    rw [eq_iff] at this
    have h2 := this.2.2
    change ((1 : ℝ) : EReal) = ((-1 : ℝ) : EReal) at h2
    rw [EReal.coe_eq_coe_iff] at h2
    norm_num at h2
  have heq : vecEq (fun _ => num ((1 : ℝ) : EReal))
      (fun _ => num ((1 : ℝ) : EReal) : Vec (Fl binary64) 1) = true := by
    unfold vecEq
    rw [List.all_eq_true]
    intro j _
    exact eq_iff.mpr ⟨id, id, rfl⟩
  have key : gt (Family.linear.glm.logLike oneData (fun _ => num ((1 : ℝ) : EReal)) + 0)
      (Family.linear.glm.logLike oneData (fun _ => num ((-1 : ℝ) : EReal)) + 0) = true := by
    rw [l1, l2, hadd r3 (by norm_num), hadd r5 (by norm_num), gt_iff]
    exact ⟨id, id, EReal.coe_lt_coe_iff.mpr (by norm_num)⟩
  obtain ⟨f, hf, hh⟩ := regression_moves (env := oneEnv) (g := Family.linear.glm) (data := oneData)
    (options := { maxIter := 10, tol := 0, l2 := 0, l1 := 0,
                  initGuess := some fun _ => num ((-1 : ℝ) : EReal) })
    (v := fun _ => num ((1 : ℝ) : EReal)) hreg (by norm_num) (fun _ _ => rfl) hne heq
    (by rw [hreg]; exact key)
  refine ⟨f, hf, ?_, ?_, Or.inr r2, gt_self_false _⟩
  · rw [hh, hreg, l1]
    exact congrArg (fun x => [IrlsStep.mk (fun _ => num ((1 : ℝ) : EReal)) x]) (hadd r3 (by norm_num))
  · intro k A c v hv j
    cases hv
    exact Or.inr r1

/-- A complementary log-log fit of the response `1` in `f64` that starts at the coefficient `8`, with
tolerance one: it succeeds without a step, and the reported likelihood is not-a-number. -/
theorem C85_example_nan_start {fuel : ℕ} (hfuel : 6445 ≤ fuel) : ∃ f : Fit (Fl binary64) 1 0 true,
    regression (sixteenEnv fuel) Family.logisticCloglog.glm oneData
      { maxIter := 10, tol := 1, l2 := 0, l1 := 0,
        initGuess := some fun _ => num ((8 : ℝ) : EReal) } = .ok f ∧
    f.history = [] ∧ f.modelLike.isNaN ∧ f.result = fun _ => num ((8 : ℝ) : EReal) := by
  have r8 : binary64.rnd ((8 : ℝ) : EReal) = ((8 : ℝ) : EReal) := by
    rw [binary64_rnd 3 (2 ^ 52) (by norm_num) (by norm_num)]
    · congr 1; norm_num
    · norm_num
    · norm_num
    · refine roundEven_of_near ?_; norm_num
  have r16 : binary64.rnd ((16 : ℝ) : EReal) = ((16 : ℝ) : EReal) := by
    rw [binary64_rnd 4 (2 ^ 52) (by norm_num) (by norm_num)]
    · congr 1; norm_num
    · norm_num
    · norm_num
    · refine roundEven_of_near ?_; norm_num
  have hnan : (Family.logisticCloglog.glm.logLike oneData fun _ => num ((8 : ℝ) : EReal)).isNaN := by
    refine C83_cloglog_nan_binary64 _ 0 rfl ?_ ?_ <;> rw [oneData_predictor r8 (by norm_num)]
    · exact id
    · exact EReal.coe_le_coe_iff.mpr (show (7 : ℝ) ≤ 8 by norm_num)
  have hsolves : SolvesInFormat (sixteenEnv fuel) := by
    intro k A c v hv j
    cases hv
    exact Or.inr r16
  obtain ⟨h1, h2⟩ := C85_nan_start (env := sixteenEnv fuel) (fam := .logisticCloglog) (data := oneData)
    (options := { maxIter := 10, tol := 1, l2 := 0, l1 := 0,
                  initGuess := some fun _ => num ((8 : ℝ) : EReal) })
    (gt_self_false 0) hsolves
    (by rintro beta ⟨⟩ j; exact Or.inr r8) (isNaN_add.mpr (Or.inl hnan))
  rcases C84_fit_returns_binary64 (sixteenEnv fuel) Family.logisticCloglog.glm oneData
    { maxIter := 10, tol := 1, l2 := 0, l1 := 0, initGuess := some fun _ => num ((8 : ℝ) : EReal) }
    (by
      right
      rw [val_abs (by exact id)]
      refine le_max_of_le_left (EReal.coe_le_coe_iff.mpr ?_)
      exact zpow_le_one_of_nonpos₀ (by norm_num) (by norm_num)) hfuel with ⟨f, hf⟩ | ⟨e, he⟩
  · obtain ⟨a1, a2, a3⟩ := h1 f hf
    exact ⟨f, hf, a1, a2, a3⟩
  · exfalso
    cases e with
    | maxIter m hist => exact h2 m hist he
    | linalg =>
      obtain ⟨s0, s', -, -, hn⟩ := (fitLoop_inv (P := fun _ => True) (fun _ _ _ _ _ _ _ => trivial) _ none
        Irls.Inv.new trivial).2.2.1 (regression_err he)
      have hc := s0.nextRaw_case (sixteenEnv fuel) Family.logisticCloglog.glm oneData 1
      rw [hn] at hc
      cases hc with
      | linalg h e hs => cases hs

end GLM
