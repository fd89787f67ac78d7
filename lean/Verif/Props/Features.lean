/-
  C74: the order of the features does not matter.
-/
import Verif.Lemmas.RelabelFit
import Verif.Lemmas.Witness

namespace GLM
open Spec Matrix Scalar
variable {n p k k' : ℕ} {b : Bool}

/-- Exact linear algebra does not depend on the numbering of the unknowns. -/
theorem exactEnv_orderFree (τ : Fin k' ≃ Fin k) (eps : ℝ) (fuel : ℕ) :
    OrderFree τ (exactEnv eps fuel) := by
  have hinv : ∀ m : Mat ℝ k k,
      (Matrix.of fun i j => m (τ i) (τ j))⁻¹ = (Matrix.of m)⁻¹.submatrix τ τ :=
    fun m => Matrix.inv_submatrix_equiv (Matrix.of m) τ τ
  have hu : ∀ m : Mat ℝ k k,
      IsUnit (Matrix.of fun i j => m (τ i) (τ j)).det ↔ IsUnit (Matrix.of m).det :=
    fun m => by rw [← Matrix.det_submatrix_equiv_self τ (Matrix.of m)]; rfl
  refine ⟨fun m v => ?_, fun m => ?_⟩
  · simp only [exactEnv, hinv]
    by_cases h : IsUnit (Matrix.of m).det
    · rw [if_pos h, if_pos ((hu m).mpr h)]
      refine congrArg Except.ok ?_
      funext i
      simp only [Matrix.mulVec, dotProduct, Matrix.submatrix_apply]
      exact Equiv.sum_comp τ fun j => (Matrix.of m)⁻¹ (τ i) j * v j
    · rw [if_neg h, if_neg (mt (hu m).mp h)]; rfl
  · simp only [exactEnv, hinv]
    by_cases h : IsUnit (Matrix.of m).det
    · rw [if_pos h, if_pos ((hu m).mpr h)]; rfl
    · rw [if_neg h, if_neg (mt (hu m).mp h)]; rfl

/-- Any linear algebra, when the numbering is not changed. -/
theorem orderFree_refl (env : Env ℝ) : OrderFree (Equiv.refl (Fin k)) env := by
  refine ⟨fun m v => ?_, fun m => ?_⟩
  · change env.solveh m v = (env.solveh m v).map id
    cases env.solveh m v <;> rfl
  · change env.inv m = (env.inv m).map id
    cases env.inv m <;> rfl

section
variable (σ : Equiv.Perm (Fin p))

theorem coefOrder_zero : coefOrder σ true (0 : Fin (p + 1)) = (0 : Fin (p + 1)) := rfl
theorem coefOrder_succ (j : Fin p) :
    coefOrder σ true (j.succ : Fin (p + 1)) = ((σ j).succ : Fin (p + 1)) := rfl
theorem coefOrder_false (j : Fin p) : coefOrder σ false j = σ j := rfl

/-- The built data set with its features reordered. -/
def reorderDesign (d : Dataset ℝ n p b) : Dataset ℝ n p b :=
  { d with
    x := fun i j => d.x i (coefOrder σ b j)
    standardizer := d.standardizer.map fun s =>
      { shifts := fun j => s.shifts (σ j), scales := fun j => s.scales (σ j) } }

theorem permuteFeatures_fromDataset (raw : Dataset ℝ n p false) (b : Bool) :
    Standardizer.fromDataset (permuteFeatures σ raw) b
      = (Standardizer.fromDataset raw b).map fun s =>
        { shifts := fun j => s.shifts (σ j), scales := fun j => s.scales (σ j) } := by
  have hw : (permuteFeatures σ raw).applyTotalWeights = raw.applyTotalWeights := rfl
  have hn : (permuteFeatures σ raw).nEff = raw.nEff := rfl
  unfold Standardizer.fromDataset
  rw [hw, hn]
  dsimp only
  by_cases h1 : n ≤ 1
  · rw [if_pos h1, if_pos h1]
    cases b <;> by_cases h0 : n = 0 <;> simp [h0, vfill] <;> rfl
  · have h0 : n ≠ 0 := by omega
    rw [if_neg h1, if_neg h1, if_neg h0, if_neg h0]
    cases gt raw.nEff 1
    · rfl
    · cases b <;> rfl

theorem permuteFeatures_finalize (raw : Dataset ℝ n p false) (std b : Bool) :
    (permuteFeatures σ raw).finalize std b = (raw.finalize std b).map (reorderDesign σ) := by
  have hp : ∀ x : Mat ℝ n p, Dataset.padded b (fun i j => x i (σ j))
      = fun i j => Dataset.padded b x i (coefOrder σ b j) := by
    intro x
    cases b
    · rfl
    · funext i j
      refine Fin.cases ?_ (fun j => ?_) j <;> rfl
  unfold Dataset.finalize
  cases std
  · simp only [Bool.false_eq_true, if_false, Option.map_some, reorderDesign, Option.map_none]
    exact congrArg some (by rw [← hp]; rfl)
  · simp only [if_true, permuteFeatures_fromDataset, Option.map_map]
    congr 1
    funext s
    simp only [Function.comp, reorderDesign, Option.map_some]
    rw [← hp]
    rfl

theorem reorderDesign_relabels (d : Dataset ℝ n p b) :
    RelabelsExt (coefOrder σ b) d (reorderDesign σ d) where
  y := rfl
  x _ _ := rfl
  offset := rfl
  weights := rfl
  freqs := rfl
  inv γ := by
    obtain ⟨y, x, off, w, fr, st⟩ := d
    cases b <;> cases st with
    | none => rfl
    | some s =>
      first
      | rfl
      | funext j
        refine Fin.cases ?_ (fun j => rfl) j
        exact congrArg (γ (0 : Fin (p + 1)) - ·) (vsum_reorder σ fun j => s.shifts j
          * (γ (j.succ : Fin (p + 1)) / s.scales j))
  beta γ := by
    obtain ⟨y, x, off, w, fr, st⟩ := d
    cases b <;> cases st with
    | none => rfl
    | some s =>
      first
      | rfl
      | funext j
        refine Fin.cases ?_ (fun j => rfl) j
        exact congrArg (γ (0 : Fin (p + 1)) + ·) (vsum_reorder σ fun j => s.shifts j
          * γ (j.succ : Fin (p + 1)))
  fisher m := by
    obtain ⟨y, x, off, w, fr, st⟩ := d
    cases b <;> cases st with
    | none => rfl
    | some s =>
      first
      | rfl
      | funext i j
        refine Fin.cases ?_ (fun i => ?_) i <;> refine Fin.cases ?_ (fun j => ?_) j <;> rfl
  score v := by
    obtain ⟨y, x, off, w, fr, st⟩ := d
    cases b <;> cases st with
    | none => rfl
    | some s =>
      first
      | rfl
      | funext j
        refine Fin.cases ?_ (fun j => ?_) j <;> rfl
  xExt i j := by
    obtain ⟨y, x, off, w, fr, st⟩ := d
    cases b <;> cases st with
    | none => first | rfl | exact Fin.cases rfl (fun j => rfl) j
    | some s => first | rfl | exact Fin.cases rfl (fun j => rfl) j

theorem getReg_reorder (o : FitOptions ℝ (ncols b p)) :
    getReg (b := b) (reorderStart (coefOrder σ b) o) = (getReg (b := b) o).reorder (coefOrder σ b) := by
  have hz : ∀ a : ℝ, (zeroFirstMaybe (b := b) (p := p) (vfill a))
      = fun j => zeroFirstMaybe (b := b) (p := p) (vfill a) (coefOrder σ b j) := by
    intro a
    cases b
    · rfl
    · funext j
      refine Fin.cases ?_ (fun j => ?_) j <;> rfl
  have h1 : (reorderStart (coefOrder σ b) o).l1 = o.l1 := rfl
  have h2 : (reorderStart (coefOrder σ b) o).l2 = o.l2 := rfl
  simp only [getReg, h1, h2]
  cases gt o.l1 0 <;> cases gt o.l2 0 <;>
    simp only [Bool.and_true, Bool.and_false, Bool.false_eq_true, if_true, if_false, Reg.reorder,
      Bool.and_self] <;> simp only [← hz] <;> rfl

theorem reorder_initialGuess {env : Env ℝ} (he : OrderFree (coefOrder σ b) env) (g : Glm ℝ) (d : Dataset ℝ n p b)
    (o : FitOptions ℝ (ncols b p)) :
    initialGuess env g (reorderDesign σ d) (reorderStart (coefOrder σ b) o)
      = fun j => initialGuess env g d o (coefOrder σ b j) := by
  have h := reorderDesign_relabels σ d
  have hi : (reorderStart (coefOrder σ b) o).initGuess
    = o.initGuess.map fun β j => β (coefOrder σ b j) := rfl
  unfold initialGuess
  rw [hi]
  cases o.initGuess with
  | none => exact h.initGuess he g
  | some β => exact h.beta β

theorem reorder_core {env : Env ℝ} (he : OrderFree (coefOrder σ b) env) (g : Glm ℝ) (d : Dataset ℝ n p b)
    (o : FitOptions ℝ (ncols b p)) :
    regressionCore env g (reorderDesign σ d) (reorderStart (coefOrder σ b) o)
      = (regressionCore env g d o).mapBoth (FitError.reorder (coefOrder σ b))
        fun r => (reorderStep (coefOrder σ b) r.1, r.2.reorder (coefOrder σ b)) :=
  (reorderDesign_relabels σ d).toRelabels.regressionCore he g rfl rfl (getReg_reorder σ o)
    (reorder_initialGuess σ he g d o)

theorem reorder_null (env : Env ℝ) (f f' : Fit ℝ n p b) (hd : f'.data = reorderDesign σ f.data)
    (hg : f'.g = f.g) (ho : f'.options.maxIter = f.options.maxIter) :
    f'.nullModelFit env
      = (f.nullModelFit env).map fun r => (r.1, fun j => r.2 (coefOrder σ b j)) := by
  have hz : ∀ a : ℝ, (b = false → a = 0) → (Fit.firstParam a : Outcome Empty (Vec ℝ (ncols b p)))
      = (Fit.firstParam a).map fun v j => v (coefOrder σ b j) := by
    intro a ha
    cases b
    · cases p with
      | zero => rfl
      | succ p =>
        rw [ha rfl]
        have hc : ∀ j : Fin (p + 1), (Fin.cons 0 vzeros : Vec ℝ (p + 1)) j = 0 := by
          intro j
          refine Fin.cases ?_ (fun j => ?_) j <;> rfl
        refine congrArg Outcome.ok ?_
        funext j
        exact (hc _).trans (hc _).symm
    · refine congrArg Outcome.ok ?_
      funext j
      refine Fin.cases ?_ (fun j => ?_) j <;> rfl
  have hws : (reorderDesign σ f.data).weightedSum = f.data.weightedSum :=
    (reorderDesign_relabels σ f.data).weightedSum
  have hsw : (reorderDesign σ f.data).sumWeights = f.data.sumWeights :=
    (reorderDesign_relabels σ f.data).sumWeights
  have hy : (reorderDesign σ f.data).y = f.data.y := rfl
  have hoff : (reorderDesign σ f.data).linearOffset = f.data.linearOffset := rfl
  have hnd : ∀ off, f'.nullDataset off = f.nullDataset off := by
    intro off
    unfold Fit.nullDataset
    rw [hd]
    rfl
  unfold Fit.nullModelFit Fit.nullIntercept
  rw [hd, hg, hws, hsw, hy, hoff, ho]
  cases f.data.linearOffset with
  | none =>
    dsimp only
    conv_lhs => rw [hz _ (fun hb => if_neg (by simp [hb]))]
    cases (Fit.firstParam _ : Outcome Empty (Vec ℝ (ncols b p))) <;> rfl
  | some off =>
    dsimp only
    rw [hnd]
    cases b with
    | false => rfl
    | true =>
      simp only [if_true]
      cases regression env f.g (f.nullDataset off)
          { FitOptions.default env with maxIter := f.options.maxIter } with
      | ok nf =>
        dsimp only
        conv_lhs => rw [hz _ (by simp)]
        rfl
      | err e => rfl
      | panic => rfl
      | diverge => rfl

theorem related_map {E E' α β α' β' : Type} {re : E → E' → Prop} {r : α → β → Prop}
    {r' : α' → β' → Prop} {o : Outcome E α} {o' : Outcome E' β} {f : α → α'} {f' : β → β'}
    (h : Related re r o o') (hf : ∀ x y, r x y → r' (f x) (f' y)) :
    Related re r' (o.map f) (o'.map f') := by
  cases h with
  | ok h => exact .ok (hf _ _ h)
  | err h => exact .err h
  | panic => exact .panic
  | diverge => exact .diverge

theorem seqOutcome_related {E E' α β : Type} {re : E → E' → Prop} {r : α → β → Prop} :
    {k : ℕ} → {u : Fin k → Outcome E α} → {v : Fin k → Outcome E' β} →
    (∀ i, Related re r (u i) (v i)) →
    Related re (fun x y => ∀ i, r (x i) (y i)) (seqOutcome u) (seqOutcome v)
  | 0, _, _, _ => .ok fun i => i.elim0
  | k + 1, u, v, h => by
    have ih := seqOutcome_related (fun i : Fin k => h i.succ)
    have h0 := h 0
    unfold seqOutcome
    generalize u 0 = a at h0
    generalize v 0 = c at h0
    cases h0 with
    | ok h0 =>
      exact related_map ih fun x y hxy i => Fin.cases h0 hxy i
    | err h0 => exact .err h0
    | panic => exact .panic
    | diverge => exact .diverge

/-- Reordering the features of the data set of a fit. -/
structure Reordered (f f' : Fit ℝ n p b) : Prop where
  same : SameFit (coefOrder σ b) f f'
  data : f'.data = reorderDesign σ f.data
  options : f'.options = reorderStart (coefOrder σ b) f.options
  g : f'.g = f.g
  std : f'.resultStd = fun j => f.resultStd (coefOrder σ b j)

namespace Reordered
variable {σ} {f f' : Fit ℝ n p b} (h : Reordered σ f f')
include h

theorem null (env : Env ℝ) : f'.nullModelFit env
    = (f.nullModelFit env).map fun r => (r.1, fun j => r.2 (coefOrder σ b j)) :=
  reorder_null σ env f f' h.data h.g (by rw [h.options]; rfl)

theorem xOrig (i : Fin n) (j : Fin p) : f'.data.xOrig i j = f.data.xOrig i (σ j) := by
  rw [h.data]
  generalize f.data = d
  obtain ⟨y, x, off, w, fr, st⟩ := d
  cases st <;> cases b <;> rfl

theorem lrTest (env : Env ℝ) : f'.lrTest env = f.lrTest env := by
  unfold Fit.lrTest Fit.nullLike
  rw [h.null, h.same.modelLike]
  cases f.nullModelFit env <;> rfl

theorem predict {m : ℕ} (x : Mat ℝ m p) (off : Option (Vec ℝ m)) :
    f'.predict (permuteCols σ x) off = f.predict x off := by
  have hp : Mat.dotV (Dataset.padded b (permuteCols σ x)) f'.result
      = Mat.dotV (Dataset.padded b x) f.result := by
    funext i
    rw [h.same.result]
    have hx : ∀ j, Dataset.padded b (permuteCols σ x) i j
        = Dataset.padded b x i (coefOrder σ b j) := by
      intro j
      cases b
      · rfl
      · refine Fin.cases ?_ (fun j => ?_) j <;> rfl
    simp only [Mat.dotV, vdotBy_real, hx]
    exact Equiv.sum_comp (coefOrder σ b) fun j => Dataset.padded b x i j * f.result j
  simp only [Fit.predict, hp, h.g]

theorem residPart : f'.residPart = fun i j => f.residPart i (σ j) := by
  have hfc : ∀ j, f'.featureCoef j = f.featureCoef (σ j) := by
    intro j
    have := h.same.result
    cases b
    · exact congrFun this _
    · exact congrFun this _
  have hwt : f'.data.applyTotalWeights = f.data.applyTotalWeights := by
    rw [h.data]; exact (reorderDesign_relabels σ f.data).toRelabels.totalW
  funext i j
  unfold Fit.residPart
  simp only [hfc, h.same.residWork, hwt]
  cases b <;> simp only [h.xOrig, if_true, Bool.false_eq_true, if_false]

theorem waldTest (env : Env ℝ) : f'.waldTest env = f.waldTest env := by
  unfold Fit.waldTest
  rw [h.null]
  cases f.nullModelFit env with
  | ok r =>
    simp only [Outcome.map, Outcome.bind]
    rw [h.same.waldTestAgainst]
  | err e => simp only [Outcome.map, Outcome.bind]
  | panic => simp only [Outcome.map, Outcome.bind]
  | diverge => simp only [Outcome.map, Outcome.bind]

theorem scoreTest {env : Env ℝ} (he : OrderFree (coefOrder σ b) env) : f'.scoreTest env = f.scoreTest env := by
  unfold Fit.scoreTest
  rw [h.null]
  cases f.nullModelFit env with
  | ok r =>
    simp only [Outcome.map, Outcome.bind]
    rw [h.same.scoreTestAgainst env he]
  | err e => rfl
  | panic => rfl
  | diverge => rfl

theorem looData (i : Fin n) : f'.looData i = (f.looData i).map (reorderDesign σ) := by
  have hstd : f'.data.standardizer.isSome = f.data.standardizer.isSome := by
    rw [h.data]
    unfold reorderDesign
    dsimp only
    rw [Option.isSome_map]
  have hx : f'.data.xOrig = fun i j => f.data.xOrig i (σ j) := by
    funext i j; exact h.xOrig i j
  unfold Fit.looData
  dsimp only
  rw [hstd, ← permuteFeatures_finalize, hx, h.data]
  rfl

theorem looFit {env : Env ℝ} (he : OrderFree (coefOrder σ b) env) (A : Mat ℝ n (ncols b p)) (i : Fin n) :
    Related (SameError (coefOrder σ b)) (fun v v' => v' = fun j => v (coefOrder σ b j))
      (f.looFit env A i) (f'.looFit env (fun i j => A i (coefOrder σ b j)) i) := by
  unfold Fit.looFit
  rw [h.looData, h.options, h.g]
  cases f.looData i with
  | none => exact .panic
  | some dI =>
    dsimp only [Option.map_some]
    have hcore := reorder_core σ he f.g dI { f.options with initGuess := some (A i) }
    have hopt : ({ reorderStart (coefOrder σ b) f.options with
        initGuess := some fun j => A i (coefOrder σ b j) } : FitOptions ℝ (ncols b p))
        = reorderStart (coefOrder σ b) { f.options with initGuess := some (A i) } := rfl
    rw [hopt]
    unfold regression
    rw [hcore]
    cases regressionCore env f.g dI { f.options with initGuess := some (A i) } with
    | ok r => exact .ok ((reorderDesign_relabels σ dI).inv _)
    | err e => exact .err (FitError.reorder_same _ e)
    | panic => exact .panic
    | diverge => exact .diverge

theorem looExact {env : Env ℝ} (he : OrderFree (coefOrder σ b) env) :
    Related (SameError (coefOrder σ b)) (fun m m' => m' = fun i j => m i (coefOrder σ b j))
      (f.looExact env) (f'.looExact env) := by
  unfold Fit.looExact
  rw [h.same.inflCoef env he, h.same.result]
  cases f.inflCoef env with
  | error e => exact .err .linalg
  | ok A =>
    have hseq := seqOutcome_related (h.looFit he fun i => vsub f.result (A i))
    have hfun : ∀ {u v : Outcome (FitError ℝ (ncols b p)) (Mat ℝ n (ncols b p))},
        Related (SameError (coefOrder σ b))
          (fun x y => ∀ i, y i = fun j => x i (coefOrder σ b j)) u v →
        Related (SameError (coefOrder σ b)) (fun x y => y = fun i j => x i (coefOrder σ b j)) u v := by
      intro u v h
      cases h with
      | ok h => exact .ok (funext h)
      | err h => exact .err h
      | panic => exact .panic
      | diverge => exact .diverge
    exact hfun hseq

/-- The statistics of a fit do not depend on the order of the features. -/
theorem sameUpToFeatureOrder : SameUpToFeatureOrder σ f f' where
  toSameFit := h.same
  predict x off := h.predict x off
  residPart := h.residPart
  lrTest := h.lrTest
  rSq env := by simp only [Fit.rSq, h.lrTest, h.same.deviance]
  waldTest := h.waldTest
  scoreTest _ he := h.scoreTest he
  pvalueLrTest ds env := by
    have htn : f'.testNdf = f.testNdf := rfl
    unfold Fit.pvalueLrTest
    rw [h.lrTest, htn]
  looExact _ he := h.looExact he

end Reordered

end

/-- C74: for every family, penalty, tolerance, budget, weights and offset, with and without
standardization and intercept: the order in which the features are given does not matter.  The
reordered data build when the original data do, the fits succeed or fail alike after the same steps,
and successful fits agree in everything except that what belongs to a coefficient moves with it. -/
theorem C74_feature_order (σ : Equiv.Perm (Fin p)) {raw : Dataset ℝ n p false} {std : Bool}
    {d : Dataset ℝ n p b} (hd : raw.finalize std b = some d) :
    ∃ d', (permuteFeatures σ raw).finalize std b = some d' ∧
      ∀ (env : Env ℝ), OrderFree (coefOrder σ b) env → ∀ (g : Glm ℝ) (o : FitOptions ℝ (ncols b p)),
        Related (SameError (coefOrder σ b)) (SameUpToFeatureOrder σ) (regression env g d o)
          (regression env g d' (reorderStart (coefOrder σ b) o)) := by
  refine ⟨reorderDesign σ d, by rw [permuteFeatures_finalize, hd]; rfl, fun env he g o => ?_⟩
  unfold regression
  rw [reorder_core σ he]
  cases regressionCore env g d o with
  | panic => exact .panic
  | diverge => exact .diverge
  | err e => exact .err (FitError.reorder_same _ e)
  | ok r =>
    exact .ok (Reordered.sameUpToFeatureOrder
      ⟨(reorderDesign_relabels σ d).sameFit g r.1 r.2, rfl, rfl, rfl, rfl⟩)

/-- Data that cannot be built cannot be built in another order. -/
theorem C74_build (σ : Equiv.Perm (Fin p)) (raw : Dataset ℝ n p false) (std b : Bool) :
    ((permuteFeatures σ raw).finalize std b).isSome = (raw.finalize std b).isSome := by
  rw [permuteFeatures_finalize]
  cases raw.finalize std b <;> rfl

/-- The linear algebra the theorem asks for exists. -/
example (σ : Equiv.Perm (Fin p)) : OrderFree (coefOrder σ b) (exactEnv (1 / 1000) 5) := exactEnv_orderFree _ _ _

example : ∃ d : Dataset ℝ 3 1 true, (exRaw ![0, 1, 4]).finalize true true = some d :=
  exRaw_finalize _ _ _

/-- Exchanging two features exchanges their coefficients and leaves the intercept. -/
example (β : Vec ℝ 3) : (fun j => β (coefOrder (Equiv.swap (0 : Fin 2) 1) true j))
    = ![β 0, β 2, β 1] := by
  funext j
  fin_cases j <;> rfl

end GLM
