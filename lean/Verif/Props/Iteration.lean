/-
  Properties C24-C28: the fitting loop.  C24, C25, C27 and part of C28 hold for every arithmetic
  (`Scalar F` has no laws), hence also with rounding, infinities and NaN.
-/
import Verif.Lemmas.Regression
import Verif.Lemmas.Real
import Mathlib.Order.Basic
import Mathlib.Algebra.Order.Field.Basic
import Mathlib.Analysis.SpecialFunctions.Log.Base

namespace GLM
open Scalar
variable {F : Type} [Scalar F] {n p k : ℕ} {b : Bool}

/-! ### C24: the iteration budget -/

/-- C24 (success): the number of iterations is the length of the history and within the budget. -/
theorem C24_ok {env : Env F} {g : Glm F} {data : Dataset F n p b}
    {options : FitOptions F (ncols b p)} {f : Fit F n p b}
    (h : regression env g data options = .ok f) :
    f.nIter = f.history.length ∧ f.nIter ≤ options.maxIter := by
  obtain ⟨best, s, hl, rfl⟩ := regression_ok h
  obtain ⟨hi, hb, -⟩ := fitLoop_ok (initial := initialGuess env g data options)
      Irls.Inv.new (Nat.zero_le _) hl
  simp only [Fit.new, List.length_map]
  exact ⟨hi.nIter, hb⟩

/-- C24 (failure): `MaxIter` carries the budget and a history with one step more than it. -/
theorem C24_err {env : Env F} {g : Glm F} {data : Dataset F n p b}
    {options : FitOptions F (ncols b p)} {m : ℕ} {hist : List (IrlsStep F (ncols b p))}
    (h : regression env g data options = .err (.maxIter m hist)) :
    m = options.maxIter ∧ hist.length = options.maxIter + 1 := by
  obtain ⟨h1, h2, -⟩ := fitLoop_maxIter (initial := initialGuess env g data options)
      Irls.Inv.new (Nat.zero_le _) (regression_err h)
  exact ⟨h1, h1 ▸ h2⟩

/-- C24 (exactness, from a success): if a fit succeeds after `k` steps then with any budget
`M ≥ k` it succeeds with the same outcome, and with any `M < k` it fails with `MaxIter(M)`; the
error then carries the first `M + 1` steps of the successful run (on the internal scale). -/
theorem C24_budget_ok {env : Env F} {g : Glm F} {data : Dataset F n p b}
    {options : FitOptions F (ncols b p)} {f : Fit F n p b}
    (h : regression env g data options = .ok f) (M : ℕ) :
    (f.nIter ≤ M → regression env g data { options with maxIter := M } =
      .ok { f with options := { options with maxIter := M } }) ∧
    (M < f.nIter → ∃ hist, regression env g data { options with maxIter := M } =
        .err (.maxIter M hist) ∧
      hist.map (fun st => { guess := data.inverseTransformBeta st.guess, like := st.like }) =
        f.history.take (M + 1)) := by
  obtain ⟨best, s, hl, rfl⟩ := regression_ok h
  have := fitLoop_budget_ok (initial := initialGuess env g data options) M
      Irls.Inv.new (Nat.zero_le _) hl
  refine ⟨fun hM => ?_, fun hM => ?_⟩
  · rw [regression_eq]
    have h1 := this.1 hM
    change fitLoop env g data { options with maxIter := M } (Irls.new g data
      (initialGuess env g data { options with maxIter := M })
        { options with maxIter := M }) none = _ at h1
    rw [h1]
    rfl
  · have h1 := this.2 hM
    refine ⟨s.history.take (M + 1), ?_, by simp [Fit.new, List.map_take]⟩
    rw [regression_eq]
    change fitLoop env g data { options with maxIter := M } (Irls.new g data
      (initialGuess env g data { options with maxIter := M })
        { options with maxIter := M }) none = _ at h1
    rw [h1]

/-- C24 (exactness, from a failure): if a fit exceeds its budget, it exceeds every smaller one, and
the shorter history is an initial part of the longer one. -/
theorem C24_budget_err {env : Env F} {g : Glm F} {data : Dataset F n p b}
    {options : FitOptions F (ncols b p)} {m : ℕ} {hist : List (IrlsStep F (ncols b p))}
    (h : regression env g data options = .err (.maxIter m hist)) (M : ℕ)
    (hM : M ≤ options.maxIter) :
    regression env g data { options with maxIter := M } =
      .err (.maxIter M (hist.take (M + 1))) := by
  have h1 := fitLoop_budget_err (initial := initialGuess env g data options) M
      Irls.Inv.new (Nat.zero_le _) hM (regression_err h)
  change fitLoop env g data { options with maxIter := M } (Irls.new g data
      (initialGuess env g data { options with maxIter := M })
        { options with maxIter := M }) none = _ at h1
  rw [regression_eq, h1]

/-! ### C25: the reported optimum -/

theorem best_split [Std.TransCmp (totalCmp : F → F → Ordering)] (l : List (IrlsStep F k))
    (a : IrlsStep F k) :
    ∃ pre opt post, a :: l = pre ++ opt :: post ∧
      l.foldl (fun acc st => some (maxByLike acc st)) (some a) = some opt ∧
      (∀ st ∈ pre, totalCmp st.like opt.like ≠ .gt) ∧
      ∀ st ∈ post, totalCmp st.like opt.like = .lt := by
  induction l using List.reverseRecOn with
  | nil => exact ⟨[], a, [], rfl, rfl, by simp, by simp⟩
  | append_singleton l c ih =>
    obtain ⟨pre, opt, post, h1, h2, h3, h4⟩ := ih
    rw [List.foldl_append, h2]
    simp only [List.foldl_cons, List.foldl_nil, maxByLike]
    have happ : a :: (l ++ [c]) = pre ++ opt :: (post ++ [c]) := by
      rw [← List.cons_append, h1]; simp
    cases hc : totalCmp opt.like c.like
    case gt =>
      refine ⟨pre, opt, post ++ [c], happ, rfl, h3, ?_⟩
      intro st hst
      rcases List.mem_append.mp hst with h | h
      · exact h4 st h
      · rw [List.mem_singleton.mp h]
        exact Std.OrientedCmp.lt_of_gt hc
    all_goals
      refine ⟨pre ++ opt :: post, c, [], by rw [happ]; simp, rfl, ?_, by simp⟩
      have hle : (totalCmp opt.like c.like).isLE := by rw [hc]; rfl
      intro st hst
      have hst' : (totalCmp st.like opt.like).isLE := by
        rcases List.mem_append.mp hst with h | h
        · exact Ordering.ne_gt_iff_isLE.mp (h3 st h)
        · rcases List.mem_cons.mp h with rfl | h
          · rw [Std.ReflCmp.compare_self (cmp := totalCmp)]; rfl
          · rw [h4 st h]; rfl
      exact Ordering.ne_gt_iff_isLE.mpr (Std.TransCmp.isLE_trans hst' hle)

/-- C25: on success, either no step was taken and the result is the starting point with its
penalized likelihood, or the history is `pre ++ opt :: post` where `opt` is the reported optimum,
no step before it is larger and every step after it is strictly smaller in `total_cmp` order.
The only assumption on the arithmetic is that `total_cmp` is a total order. -/
theorem C25_best_of_history [Std.TransCmp (totalCmp : F → F → Ordering)] {env : Env F} {g : Glm F}
    {data : Dataset F n p b} {options : FitOptions F (ncols b p)} {f : Fit F n p b}
    (h : regression env g data options = .ok f) :
    (f.history = [] ∧ f.resultStd = initialGuess env g data options ∧
      f.result = data.inverseTransformBeta (initialGuess env g data options) ∧
      f.modelLike = g.logLike data f.resultStd + (getReg options).likelihood f.resultStd) ∨
    ∃ pre opt post, f.history = pre ++ opt :: post ∧
      f.result = opt.guess ∧ f.modelLike = opt.like ∧
      (∀ st ∈ pre, totalCmp st.like f.modelLike ≠ .gt) ∧
      (∀ st ∈ post, totalCmp st.like f.modelLike = .lt) := by
  obtain ⟨best, s, hl, rfl⟩ := regression_ok h
  obtain ⟨hi, -, rest, h1, h2⟩ := fitLoop_ok (initial := initialGuess env g data options)
      Irls.Inv.new (Nat.zero_le _) hl
  simp only [Irls.new, List.nil_append] at h1
  subst h1
  cases hh : s.history with
  | nil =>
    left
    have hg := hi.guess
    simp only [hh, List.getLast?_nil, Option.map_none, Option.getD_none] at hg
    rw [hh] at h2
    simp only [List.foldl_nil] at h2
    subst h2
    simp [Fit.new, Irls.makeLastStep, hh, hg, hi.last, hi.same.likelihood]
  | cons a l =>
    right
    obtain ⟨pre, opt, post, e1, e2, e3, e4⟩ := best_split l a
    rw [hh, List.foldl_cons] at h2
    have hb : best = some opt := by rw [h2, ← e2]; rfl
    subst hb
    refine ⟨pre.map fun st => { guess := data.inverseTransformBeta st.guess, like := st.like },
      { guess := data.inverseTransformBeta opt.guess, like := opt.like },
      post.map fun st => { guess := data.inverseTransformBeta st.guess, like := st.like },
      by simp only [Fit.new, hh, e1, List.map_append, List.map_cons], rfl, rfl, ?_, ?_⟩
    · intro st hst
      obtain ⟨st', hst', rfl⟩ := List.mem_map.mp hst
      exact e3 st' hst'
    · intro st hst
      obtain ⟨st', hst', rfl⟩ := List.mem_map.mp hst
      exact e4 st' hst'

/-- The assumption of C25 holds in exact arithmetic. -/
theorem totalCmp_real (x y : ℝ) : totalCmp x y = compare x y := by
  simp only [Scalar.totalCmp, compare, compareOfLessAndEq]

instance instTransCmpReal : Std.TransCmp (totalCmp : ℝ → ℝ → Ordering) := by
  have : (totalCmp : ℝ → ℝ → Ordering) = compare := by
    funext x y; exact totalCmp_real x y
  rw [this]
  infer_instance

/-- The key by which the Rust standard library's `f64::total_cmp` orders bit patterns:
`left ^= (((left >> 63) as u64) >> 1) as i64`, compared as `i64`. -/
def f64TotalKey (bits : BitVec 64) : ℤ := (bits ^^^ ((bits.sshiftRight 63) >>> 1)).toInt

/-- The assumption of C25 holds for IEEE-754 `f64::total_cmp`, NaN included. -/
theorem transCmp_f64 :
    Std.TransCmp (fun a c : BitVec 64 => compare (f64TotalKey a) (f64TotalKey c)) where
  eq_swap := by intro a c; exact Std.OrientedCmp.eq_swap
  isLE_trans := by intro a c e; exact Std.TransCmp.isLE_trans

/-! ### C28: the line search only returns improvements -/

/-- C28 (any arithmetic): whatever the line search returns is zero or an improvement. -/
theorem C28_only_improvements (fuel : ℕ) (f : F → F) (tol m : F)
    (h : stepScale fuel f tol = some m) : m = 0 ∨ gt (f m) (f 0) = true := by
  have hl : ∀ (fuel : ℕ) (t x m : F), stepScaleLoop f (f 0) t fuel x = some (some m) →
      gt (f m) (f 0) = true := by
    intro fuel t
    induction fuel with
    | zero => simp [stepScaleLoop]
    | succ k ih =>
      intro x m h
      simp only [stepScaleLoop] at h
      split at h
      · split at h
        · rename_i hg
          simp only [Option.some.injEq] at h
          rw [← h]; exact hg
        · exact ih _ _ h
      · simp at h
  simp only [stepScale] at h
  split at h
  · simp at h
  · rename_i x hx
    simp only [Option.some.injEq] at h
    exact Or.inr (h ▸ hl _ _ _ _ hx)
  · split at h
    · rename_i hg
      simp only [Option.some.injEq] at h
      exact Or.inr (h ▸ hg)
    · left; simpa using h.symm

/-! ### C26: monotone likelihood without L1 -/

theorem getReg_noL1 {options : FitOptions ℝ (ncols b p)} (hl1 : options.l1 ≤ 0) :
    (getReg options = .null) ∨ ∃ l2, getReg options = .ridge l2 := by
  have h1 : gt options.l1 0 = false := by
    rw [Bool.eq_false_iff, ne_eq, gt_real]; exact not_lt.mpr hl1
  unfold getReg
  simp only [h1, Bool.false_and, Bool.false_eq_true, if_false]
  split
  · exact Or.inr ⟨_, rfl⟩
  · exact Or.inl rfl

/-- Without L1 the regularizer has no state. -/
theorem Reg.Same.noL1 {r r' : Reg ℝ k} (h : Reg.Same r r')
    (hr : r' = .null ∨ ∃ l2, r' = .ridge l2) (v : Vec ℝ k) :
    r.prepare v = r ∧ r.irlsLike = r'.likelihood ∧ ∀ tol, r.terminateOk tol = true := by
  rcases hr with rfl | ⟨l2, rfl⟩ <;> cases h <;> exact ⟨rfl, rfl, fun _ => rfl⟩

/-- Every candidate strictly improves the penalized likelihood. -/
theorem nextRaw_improves {env : Env ℝ} {g : Glm ℝ} {data : Dataset ℝ n p b}
    {options : FitOptions ℝ (ncols b p)} {initial : Vec ℝ (ncols b p)} (hl1 : options.l1 ≤ 0)
    {s s' : Irls ℝ (ncols b p)} {v : Vec ℝ (ncols b p)} {l : ℝ}
    (hi : Irls.Inv g data options initial s)
    (h : s.nextRaw env g data options.tol = .cand s' v l) :
    g.logLike data s.guess + (getReg options).likelihood s.guess <
      g.logLike data v + (getReg options).likelihood v := by
  obtain ⟨h1, h2, h3⟩ := hi.same.noL1 (getReg_noL1 hl1) s.guess
  have hc := s.nextRaw_case env g data options.tol
  rw [h] at hc
  generalize hr : (RawNext.cand s' v l : RawNext ℝ (ncols b p)) = r at hc
  cases hc <;> simp only [RawNext.cand.injEq, reduceCtorEq] at hr
  case admm ht => rw [h1, h3] at ht; simp at ht
  case full hg =>
    obtain ⟨-, rfl, rfl⟩ := hr
    rw [gt_real] at hg
    simp only [Irls.nextObj, Irls.lastObj, h1, h2, hi.last] at hg
    exact hg
  case scaled v' hs ht he hg m hm h0 =>
    obtain ⟨-, rfl, rfl⟩ := hr
    have := C28_only_improvements _ _ _ _ hm
    have hm0 : m ≠ 0 := by
      rw [Bool.eq_false_iff, ne_eq, eq_real] at h0; exact h0
    have := this.resolve_left hm0
    rw [gt_real] at this
    simp only [Irls.fStep, h1, hi.same.likelihood, mul_zero, zero_add, sub_zero, mul_one] at this
    exact this

/-- The penalized likelihoods visited by a run: the start, then the history. -/
noncomputable def likes (g : Glm ℝ) (data : Dataset ℝ n p b) (options : FitOptions ℝ (ncols b p))
    (initial : Vec ℝ (ncols b p)) (hist : List (IrlsStep ℝ (ncols b p))) : List ℝ :=
  (g.logLike data initial + (getReg options).likelihood initial) :: hist.map IrlsStep.like

theorem likes_cand {env : Env ℝ} {g : Glm ℝ} {data : Dataset ℝ n p b}
    {options : FitOptions ℝ (ncols b p)} {initial : Vec ℝ (ncols b p)} (hl1 : options.l1 ≤ 0)
    {s s' : Irls ℝ (ncols b p)} {v : Vec ℝ (ncols b p)} {l : ℝ}
    (hi : Irls.Inv g data options initial s)
    (hs : (likes g data options initial s.history).IsChain (· < ·))
    (h : s.nextRaw env g data options.tol = .cand s' v l) :
    (likes g data options initial (s'.history ++ [s'.candStep v l])).IsChain (· < ·) := by
  have hlt := nextRaw_improves hl1 hi h
  have hf := s.nextRaw_frame env g data options.tol
  rw [h] at hf
  obtain ⟨hf, rfl, -⟩ := hf
  have hi' := hi.frame hf
  rw [hf.history]
  unfold likes at hs ⊢
  rw [List.map_append, ← List.cons_append]
  refine List.IsChain.append hs (by simp) ?_
  intro x hx y hy
  simp only [List.map_cons, List.map_nil, List.head?_cons, Option.mem_def,
    Option.some.injEq] at hy
  subst hy
  have hlast : x = g.logLike data s.guess + (getReg options).likelihood s.guess := by
    have hg := hi.guess
    rcases List.eq_nil_or_concat s.history with hnil | ⟨l0, st, hst⟩
    · simp only [hnil, List.map_nil, List.getLast?_singleton, Option.mem_def,
        Option.some.injEq] at hx
      simp only [hnil, List.getLast?_nil, Option.map_none, Option.getD_none] at hg
      rw [← hx, hg]
    · rw [List.concat_eq_append] at hst
      rw [hst] at hx hg
      simp only [List.map_append, List.map_cons, List.map_nil, ← List.cons_append,
        List.getLast?_append, List.getLast?_singleton, Option.some_or, Option.mem_def,
        Option.some.injEq] at hx
      simp only [List.getLast?_append, List.getLast?_singleton, Option.some_or, Option.map_some,
        Option.getD_some] at hg
      rw [← hx, hg]
      exact hi.hist st (by rw [hst]; simp)
  rw [hlast]
  simp only [Irls.candStep, hi'.same.likelihood]
  exact hlt

theorem fitLoop_likes {env : Env ℝ} {g : Glm ℝ} {data : Dataset ℝ n p b}
    {options : FitOptions ℝ (ncols b p)} {initial : Vec ℝ (ncols b p)} (hl1 : options.l1 ≤ 0)
    (s : Irls ℝ (ncols b p)) (best : Option (IrlsStep ℝ (ncols b p)))
    (hi : Irls.Inv g data options initial s)
    (hs : (likes g data options initial s.history).IsChain (· < ·)) :
    (∀ best' s', fitLoop env g data options s best = .ok (best', s') →
      (likes g data options initial s'.history).IsChain (· < ·)) ∧
    (∀ m hist, fitLoop env g data options s best = .err (.maxIter m hist) →
      (likes g data options initial hist).IsChain (· < ·)) := by
  revert hi hs
  refine fitLoop_ind env g data options (motive := fun s best =>
    Irls.Inv g data options initial s →
    (likes g data options initial s.history).IsChain (· < ·) →
    (∀ best' s', fitLoop env g data options s best = .ok (best', s') →
      (likes g data options initial s'.history).IsChain (· < ·)) ∧
    (∀ m hist, fitLoop env g data options s best = .err (.maxIter m hist) →
      (likes g data options initial hist).IsChain (· < ·))) ?_ s best
  intro s best ih hi hs
  rw [fitLoop_eq]
  have hf := s.nextRaw_frame env g data options.tol
  cases hr : s.nextRaw env g data options.tol with
  | stop s' =>
    rw [hr] at hf
    refine ⟨fun best' s'' h => ?_, fun m hist h => by simp at h⟩
    simp only [Outcome.ok.injEq, Prod.mk.injEq] at h
    rw [← h.2, hf.history]; exact hs
  | linalg s' => exact ⟨fun _ _ h => by simp at h, fun _ _ h => by simp at h⟩
  | diverge s' => exact ⟨fun _ _ h => by simp at h, fun _ _ h => by simp at h⟩
  | cand s' v l =>
    have hch := likes_cand hl1 hi hs hr
    rw [hr] at hf
    obtain ⟨hf, rfl, -⟩ := hf
    dsimp only
    split
    · refine ⟨fun _ _ h => by simp at h, fun m hist h => ?_⟩
      simp only [Outcome.err.injEq, FitError.maxIter.injEq] at h
      rw [← h.2]; exact hch
    · exact ih s' v _ hr (by omega) ((hi.frame hf).cand v) hch

/-- C26: without L1 regularization the penalized likelihood strictly increases from the starting
point along the whole history, so the result is the last step (or the starting point if there is
none) and is strictly better than everything before it. -/
theorem C26_monotone {env : Env ℝ} {g : Glm ℝ} {data : Dataset ℝ n p b}
    {options : FitOptions ℝ (ncols b p)} {f : Fit ℝ n p b} (hl1 : options.l1 ≤ 0)
    (h : regression env g data options = .ok f) :
    let start := initialGuess env g data options
    let startLike := g.logLike data start + (getReg options).likelihood start
    (startLike :: f.history.map IrlsStep.like).Pairwise (· < ·) ∧
    (f.history ≠ [] → f.history.getLast? = some { guess := f.result, like := f.modelLike }) ∧
    startLike ≤ f.modelLike := by
  intro start startLike
  have hch : (startLike :: f.history.map IrlsStep.like).Pairwise (· < ·) := by
    obtain ⟨best, s, hl, rfl⟩ := regression_ok h
    have := (fitLoop_likes (initial := start) hl1 _ none Irls.Inv.new (by
      simp [likes, Irls.new]) : _ ∧ _).1 best s hl
    rw [List.isChain_iff_pairwise] at this
    simpa [Fit.new, likes, List.map_map, Function.comp_def] using this
  refine ⟨hch, ?_, ?_⟩
  · intro hne
    rcases C25_best_of_history h with ⟨h0, -⟩ | ⟨pre, opt, post, h1, h2, h3, -, h5⟩
    · exact absurd h0 hne
    · rcases List.eq_nil_or_concat post with rfl | ⟨l, st, rfl⟩
      · rw [h1]
        simp only [List.getLast?_append, List.getLast?_singleton, Option.some_or, h2, h3]
      · exfalso
        have hlt := h5 st (by simp)
        rw [totalCmp_real, compare_lt_iff_lt, h3] at hlt
        rw [h1] at hch
        simp only [List.map_append, List.map_cons, List.concat_eq_append, List.map_nil] at hch
        have hch := (List.pairwise_cons.mp hch).2
        have hch := (List.pairwise_append.mp hch).2.1
        have := (List.pairwise_cons.mp hch).1 st.like (by simp)
        linarith
  · rcases C25_best_of_history h with ⟨-, h1, -, h3⟩ | ⟨pre, opt, post, h1, h2, h3, -⟩
    · rw [h3, h1]
    · have := (List.pairwise_cons.mp hch).1 opt.like (by rw [h1]; simp)
      rw [h3]; exact this.le

/-! ### C27: recorded likelihoods -/

/-- C27: every recorded step is the external form of an internal guess and carries the data
log-likelihood plus the penalty at that guess; so does the reported optimum. -/
theorem C27_recorded_likelihoods {env : Env F} {g : Glm F} {data : Dataset F n p b}
    {options : FitOptions F (ncols b p)} {f : Fit F n p b}
    (h : regression env g data options = .ok f) :
    (∀ st ∈ f.history, ∃ guess, st.guess = data.inverseTransformBeta guess ∧
      st.like = g.logLike data guess + (getReg options).likelihood guess) ∧
    f.result = data.inverseTransformBeta f.resultStd ∧
    f.modelLike = g.logLike data f.resultStd + (getReg options).likelihood f.resultStd := by
  have hc := regression_coherent h
  obtain ⟨best, s, hl, rfl⟩ := regression_ok h
  obtain ⟨hi, -⟩ := fitLoop_ok (initial := initialGuess env g data options)
      Irls.Inv.new (Nat.zero_le _) hl
  refine ⟨?_, hc.2.2.2.result, hc.2.2.2.like⟩
  intro st hst
  obtain ⟨st', hst', rfl⟩ := List.mem_map.mp hst
  exact ⟨st'.guess, rfl, hi.hist st' hst'⟩

/-- C27 for the history carried by a `MaxIter` error (whose guesses are on the internal scale). -/
theorem C27_error_history {env : Env F} {g : Glm F} {data : Dataset F n p b}
    {options : FitOptions F (ncols b p)} {m : ℕ} {hist : List (IrlsStep F (ncols b p))}
    (h : regression env g data options = .err (.maxIter m hist)) :
    ∀ st ∈ hist, st.like = g.logLike data st.guess + (getReg options).likelihood st.guess :=
  (fitLoop_maxIter (initial := initialGuess env g data options)
      Irls.Inv.new (Nat.zero_le _) (regression_err h)).2.2.2

/-! ### C28: the line search -/

/-- The golden-section constant of the crate. -/
theorem goldenScale_real : (goldenScale : ℝ) = 618033988749894 / 10 ^ 15 := rfl

theorem golden_pos : (0 : ℝ) < goldenScale := by rw [goldenScale_real]; norm_num
theorem golden_lt_one : (goldenScale : ℝ) < 1 := by rw [goldenScale_real]; norm_num

/-- The loop of the line search, characterised: with enough fuel it returns the first improving
power of the constant, or reports that none was found before the step got below the tolerance. -/
theorem stepScaleLoop_spec (f : ℝ → ℝ) (f0 tol : ℝ) (N fuel : ℕ) (x : ℝ)
    (hN : x * goldenScale ^ N ≤ tol) (hfuel : N < fuel) :
    (∃ j, (∀ i ≤ j, tol < x * goldenScale ^ i) ∧
        (∀ i < j, f (x * goldenScale ^ (i + 1)) ≤ f0) ∧ f0 < f (x * goldenScale ^ (j + 1)) ∧
        stepScaleLoop f f0 tol fuel x = some (some (x * goldenScale ^ (j + 1)))) ∨
    ((∀ j, (∀ i ≤ j, tol < x * goldenScale ^ i) → f (x * goldenScale ^ (j + 1)) ≤ f0) ∧
        stepScaleLoop f f0 tol fuel x = some none) := by
  induction fuel generalizing N x with
  | zero => omega
  | succ fuel ih =>
    simp only [stepScaleLoop, gt_real]
    by_cases hx : x > tol
    · simp only [hx, if_true]
      by_cases hg : f (x * goldenScale) > f0
      · left
        refine ⟨0, ?_, by omega, by simpa using hg, by simp [hg]⟩
        intro i hi
        obtain rfl : i = 0 := by omega
        simpa using hx
      · simp only [hg, if_false]
        obtain ⟨N, rfl⟩ : ∃ N', N = N' + 1 := by
          cases N with
          | zero => simp at hN; linarith
          | succ N => exact ⟨N, rfl⟩
        have hpow : ∀ i, x * goldenScale * goldenScale ^ i = x * goldenScale ^ (i + 1) :=
          fun i => by ring
        rcases ih N (x * goldenScale) (by rw [hpow]; exact hN) (by omega) with
          ⟨j, h1, h2, h3, h4⟩ | ⟨h1, h2⟩
        · left
          refine ⟨j + 1, ?_, ?_, ?_, ?_⟩
          · intro i hi
            cases i with
            | zero => simpa using hx
            | succ i => rw [← hpow]; exact h1 i (by omega)
          · intro i hi
            cases i with
            | zero => simpa using hg
            | succ i => have := h2 i (by omega); rwa [hpow] at this
          · rwa [hpow] at h3
          · rw [h4, hpow]
        · right
          refine ⟨?_, h2⟩
          intro j hj
          cases j with
          | zero => simpa using hg
          | succ j =>
            have := h1 j (fun i hi => by rw [hpow]; exact hj (i + 1) (by omega))
            rwa [hpow] at this
    · right
      refine ⟨fun j hj => ?_, by simp [hx]⟩
      have := hj 0 (Nat.zero_le j)
      simp only [pow_zero, mul_one] at this
      exact absurd this hx

/-- C28 (termination and result): with a non-zero tolerance the line search ends within
`⌈log |tol| / log 0.618…⌉ + 1` rounds, and returns the first `0.618…^j` that improves the objective
among those reached before the step is below the tolerance; failing that, a backwards step if that
improves; failing that, zero. -/
theorem C28_line_search (f : ℝ → ℝ) (tol : ℝ) (htol : tol ≠ 0) (fuel : ℕ)
    (hfuel : ⌈Real.log |tol| / Real.log goldenScale⌉₊ < fuel) :
    ∃ m, stepScale fuel f tol = some m ∧
      ((∃ j, m = goldenScale ^ (j + 1) ∧ |tol| < goldenScale ^ j ∧ f 0 < f m ∧
          ∀ i < j, f (goldenScale ^ (i + 1)) ≤ f 0) ∨
        ((∀ j, |tol| < goldenScale ^ j → f (goldenScale ^ (j + 1)) ≤ f 0) ∧
          ((m = -goldenScale ∧ f 0 < f m) ∨ (m = 0 ∧ f (-goldenScale) ≤ f 0)))) := by
  set N := ⌈Real.log |tol| / Real.log goldenScale⌉₊ with hNdef
  have habs : 0 < |tol| := abs_pos.mpr htol
  have hlog : Real.log (goldenScale : ℝ) < 0 := Real.log_neg golden_pos golden_lt_one
  have hN : (1 : ℝ) * goldenScale ^ N ≤ |tol| := by
    rw [one_mul, ← Real.log_le_log_iff (pow_pos golden_pos _) habs, Real.log_pow]
    have := Nat.le_ceil (Real.log |tol| / Real.log goldenScale)
    rw [← hNdef, div_le_iff_of_neg hlog] at this
    exact this
  have hanti : ∀ {i j : ℕ}, i ≤ j → (goldenScale : ℝ) ^ j ≤ goldenScale ^ i := fun h =>
    pow_le_pow_of_le_one golden_pos.le golden_lt_one.le h
  rcases stepScaleLoop_spec f (f 0) |tol| N fuel 1 hN hfuel with ⟨j, h1, h2, h3, h4⟩ | ⟨h1, h2⟩
  · simp only [one_mul] at h1 h2 h3 h4
    refine ⟨goldenScale ^ (j + 1), ?_, Or.inl ⟨j, rfl, h1 j le_rfl, h3, h2⟩⟩
    simp only [stepScale, abs_real, h4]
  · simp only [one_mul] at h1
    have h1' : ∀ j, |tol| < goldenScale ^ j → f (goldenScale ^ (j + 1)) ≤ f 0 := fun j hj =>
      h1 j fun i hi => lt_of_lt_of_le hj (hanti hi)
    by_cases hg : f (-goldenScale) > f 0
    · refine ⟨-goldenScale, ?_, Or.inr ⟨h1', Or.inl ⟨rfl, hg⟩⟩⟩
      simp only [stepScale, abs_real, h2, gt_real, hg, if_true]
    · refine ⟨0, ?_, Or.inr ⟨h1', Or.inr ⟨rfl, not_lt.mp hg⟩⟩⟩
      simp only [stepScale, abs_real, h2, gt_real, hg, if_false]

/-- C28 (zero tolerance): if the tolerance is zero and no step improves, the line search never
ends, whatever the fuel. -/
theorem C28_zero_tolerance_diverges (f : ℝ → ℝ) (h : ∀ x, f x ≤ f 0) (fuel : ℕ) :
    stepScale fuel f 0 = none := by
  have hl : ∀ (fuel : ℕ) (x : ℝ), 0 < x → stepScaleLoop f (f 0) 0 fuel x = none := by
    intro fuel
    induction fuel with
    | zero => simp [stepScaleLoop]
    | succ k ih =>
      intro x hx
      have hpos : 0 < x * goldenScale := mul_pos hx golden_pos
      simp only [stepScaleLoop, gt_real, hx, if_true, not_lt.mpr (h _), if_false]
      exact ih _ hpos
  simp only [stepScale, abs_real, abs_zero, hl fuel 1 one_pos]

/-- C28 (whole fit): in exact arithmetic a fit with positive tolerance always returns (a fit or an
error): it neither runs forever in the line search nor panics. -/
theorem C28_fit_returns (env : Env ℝ) (g : Glm ℝ) (data : Dataset ℝ n p b)
    (options : FitOptions ℝ (ncols b p)) (htol : 0 < options.tol)
    (hfuel : ⌈Real.log options.tol / Real.log goldenScale⌉₊ < env.fuel) :
    (∃ f, regression env g data options = .ok f) ∨
      ∃ e, regression env g data options = .err e := by
  have hl : ∀ s best, (∃ r, fitLoop env g data options s best = .ok r) ∨
      ∃ e, fitLoop env g data options s best = .err e := by
    refine fitLoop_ind env g data options ?_
    intro s best ih
    rw [fitLoop_eq]
    have hc := s.nextRaw_case env g data options.tol
    cases hr : s.nextRaw env g data options.tol with
    | stop s' => exact Or.inl ⟨_, rfl⟩
    | linalg s' => exact Or.inr ⟨_, rfl⟩
    | cand s' v l =>
      dsimp only
      split
      · exact Or.inr ⟨_, rfl⟩
      · exact ih s' v l hr (by omega)
    | diverge s' =>
      exfalso
      rw [hr] at hc
      generalize hrr : (RawNext.diverge s' : RawNext ℝ (ncols b p)) = r at hc
      cases hc <;> simp at hrr
      rename_i v hs ht he hg hm
      -- there is at least one parameter, else the new guess would equal the old one
      have hk : 0 < ncols b p := by
        by_contra h0
        have h0 : ncols b p = 0 := by omega
        have : vecEq v s.guess = true := by
          unfold vecEq
          rw [List.all_eq_true]
          intro j
          exact absurd j.isLt (by omega)
        rw [this] at he; simp at he
      have hfac : 1 ≤ Real.sqrt (∑ j, (1 + s.guess j * s.guess j)) := by
        rw [Real.one_le_sqrt, Finset.sum_add_distrib]
        have h1 : (1 : ℝ) ≤ ∑ _j : Fin (ncols b p), (1 : ℝ) := by
          simp only [Finset.sum_const, Finset.card_univ, Fintype.card_fin, nsmul_eq_mul, mul_one]
          exact_mod_cast hk
        have h2 : 0 ≤ ∑ j, s.guess j * s.guess j :=
          Finset.sum_nonneg fun j _ => mul_self_nonneg _
        linarith
      set t := Real.sqrt (∑ j, (1 + s.guess j * s.guess j)) * options.tol with ht'
      have htt : options.tol ≤ t := le_mul_of_one_le_left htol.le hfac
      have htpos : 0 < t := lt_of_lt_of_le htol htt
      have hlog : Real.log (goldenScale : ℝ) < 0 := Real.log_neg golden_pos golden_lt_one
      have hN : ⌈Real.log |t| / Real.log goldenScale⌉₊ < env.fuel := by
        refine lt_of_le_of_lt (Nat.ceil_mono ?_) hfuel
        rw [abs_of_pos htpos]
        exact div_le_div_of_nonpos_of_le hlog.le (Real.log_le_log htol htt)
      obtain ⟨m, hm', -⟩ := C28_line_search
        (Irls.fStep g data (s.reg.prepare s.guess) s.guess v) t htpos.ne' env.fuel hN
      have : s.scale env g data options.tol v = some m := by
        rw [← hm']
        simp only [Irls.scale, vsum_real, sqrt_real, ht']
      rw [this] at hm
      simp at hm
  rw [regression_eq]
  rcases hl (Irls.new g data (initialGuess env g data options) options) none with ⟨⟨r, s⟩, h⟩ | ⟨e, h⟩
  · rw [h]; exact Or.inl ⟨_, rfl⟩
  · rw [h]; exact Or.inr ⟨_, rfl⟩

/-! ### A concrete run

One observation `y = 1`, one feature `x = 1`, no intercept, Linear family, starting at `0`: the first
step goes to `1` and the fit stops there. -/

/-- A solver that is exact on 1x1 systems. -/
noncomputable def exEnv : Env ℝ where
  eps := 0
  solveh m v := .ok fun j => v j / m j j
  invh m := .ok fun i j => 1 / m i j
  inv m := .ok fun i j => 1 / m i j
  fuel := 10

/-- The data of the example. -/
def exData : Dataset ℝ 1 1 false where
  y := fun _ => 1
  x := fun _ _ => 1
  linearOffset := none
  weights := none
  freqs := none
  standardizer := none

/-- The options of the example. -/
def exOptions (m : ℕ) : FitOptions ℝ (ncols false 1) where
  maxIter := m
  tol := 1
  l2 := 0
  l1 := 0
  initGuess := some fun _ => 0

theorem exLogLike (v : Vec ℝ (ncols false 1)) :
    (Family.linear.glm : Glm ℝ).logLike exData v = v 0 - 1 / 2 * v 0 * v 0 := by
  simp only [Glm.logLike, vsum_real, Dataset.applyTotalWeights, Dataset.applyFreqWeights,
    Dataset.applyVarWeights, exData, Glm.logLikeTerms, Dataset.linearPredictorStd, Family.glm,
    linearGlm, linkId, Transform.canonical, defaultLogLikeNatural, linearLogPartition, half_real,
    Mat.dotV, Finset.univ_unique, Finset.sum_singleton]
  simp

theorem exReg (m : ℕ) : getReg (exOptions m) = .null := by
  simp [getReg, exOptions]

theorem exRun (m : ℕ) :
    (1 ≤ m → ∃ f, regression exEnv Family.linear.glm exData (exOptions m) = .ok f ∧
      f.nIter = 1 ∧ f.result = (fun _ => 1) ∧ f.modelLike = 1 / 2) ∧
    (m = 0 → ∃ st, regression exEnv Family.linear.glm exData (exOptions m) =
      .err (.maxIter 0 [st])) := by
  have hinit : initialGuess exEnv Family.linear.glm exData (exOptions m) = fun _ => 0 := rfl
  set s := Irls.new Family.linear.glm exData (fun _ => 0) (exOptions m) with hs
  have hsol : s.sol exEnv Family.linear.glm exData = .ok fun _ => 1 := by
    simp only [hs, Irls.sol, Irls.new, exReg, Reg.prepare, Reg.irlsMat, Reg.irlsVec, exEnv]
    congr 1
    funext j
    simp [Irls.irlsMatVec, Glm.mean, exData, vsub, Dataset.xConj, Dataset.weightCols,
      Mat.tr, Mat.dotM, Mat.dotV, Family.glm, linearGlm, linkId, Transform.canonical]
  have hgt : gt (s.nextObj Family.linear.glm exData fun _ => 1) s.lastObj = true := by
    simp only [Irls.nextObj, Irls.lastObj, hs, Irls.new, exReg, Reg.prepare, Reg.irlsLike,
      exLogLike, gt_real]
    norm_num
  have hne : vecEq (fun _ => 1 : Vec ℝ (ncols false 1)) s.guess = false := by
    rw [Bool.eq_false_iff]
    simp [vecEq, hs, Irls.new, List.finRange]
  have hsm : s.small Family.linear.glm exData (exOptions m).tol (fun _ => 1) = true := by
    simp only [Irls.small, smallDelta, smallDeltaVec, Irls.nextObj, Irls.lastObj, hs, Irls.new,
      exReg, Reg.prepare, Reg.irlsLike, exLogLike, Bool.and_eq_true, le_real, vsub,
      vsum_real, ofNat_real]
    simp only [exOptions]
    norm_num
  have ht : (s.reg.prepare s.guess).terminateOk (exOptions m).tol = true := by
    simp [hs, Irls.new, exReg, Reg.prepare, Reg.terminateOk]
  have hnext := Irls.nextRaw_full (tol := (exOptions m).tol) rfl hsol ht hne hgt
  rw [hsm] at hnext
  have hloop := fitLoop_eq exEnv Family.linear.glm exData (exOptions m) s none
  rw [hnext] at hloop
  dsimp only at hloop
  rw [regression_eq, hinit, ← hs, hloop]
  refine ⟨fun h => ?_, fun h => ?_⟩
  · rw [if_neg (by simp [Irls.prep, hs, Irls.new, exOptions]; omega), fitLoop_eq,
      Irls.nextRaw_done rfl]
    refine ⟨_, rfl, rfl, rfl, ?_⟩
    simp only [Fit.new, Option.getD_some, maxByLike, Irls.candStep, Irls.prep, hs, Irls.new, exReg,
      Reg.prepare, Reg.likelihood, exLogLike]
    norm_num
  · subst h
    rw [if_pos (by simp [Irls.prep, hs, Irls.new, exOptions])]
    exact ⟨_, rfl⟩

/-- The hypotheses of C24-C27 are met: the run succeeds with budget 3 and fails with budget 0. -/
example : ∃ f, regression exEnv Family.linear.glm exData (exOptions 3) = .ok f ∧ f.nIter = 1 ∧
    f.result = (fun _ => 1) ∧ (exOptions 3).l1 ≤ 0 := by
  obtain ⟨f, h1, h2, h3, -⟩ := (exRun 3).1 (by norm_num)
  exact ⟨f, h1, h2, h3, le_rfl⟩

example : ∃ m hist, regression exEnv Family.linear.glm exData (exOptions 0) =
    .err (.maxIter m hist) := by
  obtain ⟨st, h⟩ := (exRun 0).2 rfl
  exact ⟨_, _, h⟩

/-- A line search that does not improve with zero tolerance. -/
example (fuel : ℕ) : stepScale fuel (fun x : ℝ => -x ^ 2) 0 = none :=
  C28_zero_tolerance_diverges _ (fun x => by simp [sq_nonneg]) fuel

end GLM
