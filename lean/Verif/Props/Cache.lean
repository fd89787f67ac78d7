/-
  C44: the caches of a fit are invisible.
-/
import Verif.Model.Cache

namespace GLM
variable {F : Type} [Scalar F] {n p : ℕ} {b : Bool}

/-! ### What the accessors mean -/

/-- A fallible value as the outcome of an accessor. -/
def Spec.fallible {α : Type} (r : Except LinalgError α) : Outcome (AccessError F) α :=
  match r with
  | .ok a => .ok a
  | .error _ => .err .linalg

/-- The value of each accessor, computed without any cache. -/
def Spec.valueOf (ds : Dists F) (env : Env F) (f : Fit F n p b) {α : Type} :
    Fit.Accessor F n p b α → Outcome (AccessError F) α
  | .aic => .ok f.aic
  | .cooks => Spec.fallible (f.cooks env)
  | .covariance => Spec.fallible (f.covariance env)
  | .deviance => .ok f.deviance
  | .dispersion => .ok f.dispersion
  | .hat => Spec.fallible (f.hat env)
  | .inflCoef => Spec.fallible (f.inflCoef env)
  | .leverage => Spec.fallible (f.leverage env)
  | .looExact => (f.looExact env).mapErr .ofFit
  | .lrTest => (f.lrTest env).mapErr fun e => e.elim
  | .nullLike => (f.nullLike env).mapErr fun e => e.elim
  | .residDev => .ok f.residDev
  | .residDevStd => Spec.fallible (f.residDevStd env)
  | .residPear => .ok f.residPear
  | .residPearStd => Spec.fallible (f.residPearStd env)
  | .residStudent => Spec.fallible (f.residStudent env)
  | .scoreTest => (f.scoreTest env).mapErr fun _ => .linalg
  | .waldTest => (f.waldTest env).mapErr fun e => e.elim
  | .waldZ => Spec.fallible (f.waldZ env)
  | .rSq => (f.rSq env).mapErr fun e => e.elim
  | .pvalueLrTest => (f.pvalueLrTest ds env).mapErr fun e => e.elim
  | .pvalueWald => (f.pvalueWald ds env).mapErr fun _ => .linalg
  | .pvalueExact => (f.pvalueExact ds env).mapErr fun e => .ofFit e.2
  | .residQuantile dist => (f.residQuantile ds dist).mapErr fun e => e.elim

/-! ### Invariant -/

/-- The value that belongs in each cell. -/
def cellValue (env : Env F) (f : Fit F n p b) :
    (c : Cell) → Outcome (AccessError F) (c.type F n (ncols b p))
  | .phi => .ok f.dispersion
  | .devTerms => .ok f.devianceTerms
  | .residPear => .ok f.residPear
  | .covariance => Spec.fallible (f.covariance env)
  | .fisherInv => Spec.fallible (f.fisherInv env)
  | .fisherStdInv => Spec.fallible (f.fisherStdInv env)
  | .hat => Spec.fallible (f.hat env)
  | .nullModel => (f.nullModelFit env).mapErr fun e => e.elim

/-- Every filled cell holds the value that belongs there. -/
def Valid (env : Env F) (f : Fit F n p b) (c : Cache F n (ncols b p)) : Prop :=
  ∀ cell v, c cell = some v → cellValue env f cell = .ok v

/-- From every valid state the computation returns `o`, leaves a valid state, never empties a cell
and fills only cells in `S`. -/
def Returns (env : Env F) (f : Fit F n p b) {α : Type} (S : Set Cell)
    (m : CacheM F n (ncols b p) α) (o : Outcome (AccessError F) α) : Prop :=
  ∀ c, Valid env f c → (m c).1 = o ∧ Valid env f (m c).2
    ∧ (∀ cell v, c cell = some v → (m c).2 cell = some v)
    ∧ ∀ cell, cell ∉ S → c cell = none → (m c).2 cell = none

variable {env : Env F} {f : Fit F n p b} {α β : Type} {S : Set Cell}

theorem Returns.pure (a : α) : Returns env f S (pure a) (.ok a) :=
  fun _ hc => ⟨rfl, hc, fun _ _ h => h, fun _ _ h => h⟩

theorem Returns.lift (o : Outcome (AccessError F) α) : Returns env f S (CacheM.lift o) o :=
  fun _ hc => ⟨rfl, hc, fun _ _ h => h, fun _ _ h => h⟩

theorem Returns.try? (r : Except LinalgError α) :
    Returns env f S (CacheM.try? r) (Spec.fallible r) := by
  cases r <;> exact Returns.lift _

theorem Returns.bind {m : CacheM F n (ncols b p) α} {o : Outcome (AccessError F) α}
    {k : α → CacheM F n (ncols b p) β} {o' : α → Outcome (AccessError F) β}
    (hm : Returns env f S m o) (hk : ∀ a, Returns env f S (k a) (o' a)) :
    Returns env f S (m >>= k) (o.bind o') := by
  intro c hc
  obtain ⟨h1, h2, h3, h4⟩ := hm c hc
  obtain ⟨r1, r2, hmc⟩ : ∃ r1 r2, m c = (r1, r2) := ⟨_, _, rfl⟩
  rw [hmc] at h1 h2 h3 h4
  dsimp only at h1 h2 h3 h4
  subst h1
  cases r1 with
  | ok a =>
    have hb : (m >>= k) c = k a r2 := by simp only [Bind.bind, hmc]
    rw [hb]
    obtain ⟨k1, k2, k3, k4⟩ := hk a r2 h2
    exact ⟨k1, k2, fun cell v h => k3 cell v (h3 cell v h),
      fun cell hS h => k4 cell hS (h4 cell hS h)⟩
  | err e =>
    have hb : (m >>= k) c = (.err e, r2) := by simp only [Bind.bind, hmc]
    rw [hb]
    exact ⟨rfl, h2, h3, h4⟩
  | panic =>
    have hb : (m >>= k) c = (.panic, r2) := by simp only [Bind.bind, hmc]
    rw [hb]
    exact ⟨rfl, h2, h3, h4⟩
  | diverge =>
    have hb : (m >>= k) c = (.diverge, r2) := by simp only [Bind.bind, hmc]
    rw [hb]
    exact ⟨rfl, h2, h3, h4⟩

theorem Returns.mono {T : Set Cell} {m : CacheM F n (ncols b p) α} {o : Outcome (AccessError F) α}
    (hm : Returns env f S m o) (h : S ⊆ T) : Returns env f T m o := by
  intro c hc
  obtain ⟨h1, h2, h3, h4⟩ := hm c hc
  exact ⟨h1, h2, h3, fun cell hT => h4 cell fun hS => hT (h hS)⟩

/-- A cell whose initializer does not fill the cell itself. -/
theorem Returns.getOrInit {cell : Cell} {init : CacheM F n (ncols b p) (cell.type F n (ncols b p))}
    (hm : Returns env f S init (cellValue env f cell)) (hS : cell ∉ S) :
    Returns env f (insert cell S) (CacheM.getOrInit cell init) (cellValue env f cell) := by
  intro c hc
  unfold CacheM.getOrInit
  cases hcell : c cell with
  | some v =>
    exact ⟨(hc cell v hcell).symm, hc, fun _ _ h => h, fun _ _ h => h⟩
  | none =>
    obtain ⟨h1, h2, h3, h4⟩ := hm c hc
    have h5 := h4 cell hS hcell
    generalize init c = r at *
    obtain ⟨r1, r2⟩ := r
    dsimp only at h1 h2 h3 h4 h5
    have h6 : ∀ cell', cell' ∉ insert cell S → c cell' = none → r2 cell' = none :=
      fun cell' h => h4 cell' fun h' => h (Set.mem_insert_of_mem _ h')
    cases r1 with
    | ok v =>
      dsimp only
      rw [h5]
      dsimp only
      refine ⟨h1, fun cell' v' h => ?_, fun cell' v' h => ?_, fun cell' hn h => ?_⟩
      · by_cases he : cell' = cell
        · subst he
          rw [Function.update_self] at h
          rw [← h1, Option.some.inj h]
        · rw [Function.update_of_ne he] at h
          exact h2 cell' v' h
      · by_cases he : cell' = cell
        · subst he
          rw [hcell] at h
          cases h
        · exact (Function.update_of_ne he _ _).trans (h3 cell' v' h)
      · have he : cell' ≠ cell := fun he => hn (he ▸ Set.mem_insert _ _)
        exact (Function.update_of_ne he _ _).trans (h6 cell' hn h)
    | err e => exact ⟨h1, h2, h3, h6⟩
    | panic => exact ⟨h1, h2, h3, h6⟩
    | diverge => exact ⟨h1, h2, h3, h6⟩

theorem Returns.congr {m : CacheM F n (ncols b p) α} {o o' : Outcome (AccessError F) α}
    (hm : Returns env f S m o) (h : o = o') : Returns env f S m o' := h ▸ hm

theorem Returns.cell {T : Set Cell} {cell : Cell}
    {init : CacheM F n (ncols b p) (cell.type F n (ncols b p))} {o : Outcome (AccessError F) _}
    (hm : Returns env f S init o) (ho : o = cellValue env f cell) (hS : cell ∉ S)
    (hT : insert cell S ⊆ T) : Returns env f T (CacheM.getOrInit cell init) (cellValue env f cell) :=
  ((hm.congr ho).getOrInit hS).mono hT

/-! ### The accessors -/
open Fit

theorem ret_devTerms {T : Set Cell} (hT : Cell.devTerms ∈ T) :
    Returns env f T (Cached.devianceTerms f) (.ok f.devianceTerms) :=
  Returns.cell (S := ∅) (cell := .devTerms) (Returns.pure _) rfl (Set.notMem_empty _)
    (Set.insert_subset hT (Set.empty_subset _))

theorem ret_deviance {T : Set Cell} (hT : Cell.devTerms ∈ T) :
    Returns env f T (Cached.deviance f) (.ok f.deviance) :=
  ((ret_devTerms hT).bind fun _ => Returns.pure _).congr rfl

theorem ret_dispersion {T : Set Cell} (h1 : Cell.devTerms ∈ T) (h2 : Cell.phi ∈ T) :
    Returns env f T (Cached.dispersion f) (.ok f.dispersion) := by
  refine Returns.cell (S := {.devTerms}) (cell := .phi) (o := .ok f.dispersion) ?_ rfl (by simp)
    (by intro c; simp only [Set.mem_insert_iff, Set.mem_singleton_iff]; rintro (rfl | rfl) <;> assumption)
  unfold Fit.dispersion
  cases f.g.dispersed with
  | free => exact ((ret_deviance (T := {.devTerms}) (f := f) (env := env) rfl).bind fun _ => Returns.pure _).congr rfl
  | none => exact Returns.pure _

theorem ret_fisherInv {T : Set Cell} (hT : Cell.fisherInv ∈ T) :
    Returns env f T (Cached.fisherInv env f) (Spec.fallible (f.fisherInv env)) :=
  Returns.cell (S := ∅) (cell := .fisherInv) (Returns.try? _) rfl (Set.notMem_empty _)
    (Set.insert_subset hT (Set.empty_subset _))

theorem ret_fisherStdInv {T : Set Cell} (hT : Cell.fisherStdInv ∈ T) :
    Returns env f T (Cached.fisherStdInv env f) (Spec.fallible (f.fisherStdInv env)) :=
  Returns.cell (S := ∅) (cell := .fisherStdInv) (Returns.try? _) rfl (Set.notMem_empty _)
    (Set.insert_subset hT (Set.empty_subset _))

theorem ret_covariance : Returns env f Set.univ (Cached.covariance env f)
    (Spec.fallible (f.covariance env)) := by
  refine Returns.cell (S := {.devTerms, .phi, .fisherInv}) (cell := .covariance)
    ((ret_dispersion (by simp) (by simp)).bind fun phi =>
      (ret_fisherInv (by simp)).bind fun _ => Returns.pure _) ?_ (by simp) (Set.subset_univ _)
  simp only [Outcome.bind, cellValue, Fit.covariance]
  cases f.fisherInv env <;> rfl

theorem ret_hat {T : Set Cell} (h1 : Cell.fisherStdInv ∈ T) (h2 : Cell.hat ∈ T) :
    Returns env f T (Cached.hat env f) (Spec.fallible (f.hat env)) := by
  refine Returns.cell (S := {.fisherStdInv}) (cell := .hat)
    ((ret_fisherStdInv (by simp)).bind fun _ => Returns.pure _) ?_ (by simp)
    (by intro c; simp only [Set.mem_insert_iff, Set.mem_singleton_iff]; rintro (rfl | rfl) <;> assumption)
  simp only [Outcome.bind, cellValue, Fit.hat]
  cases f.fisherStdInv env <;> rfl

theorem ret_leverage : Returns env f Set.univ (Cached.leverage env f)
    (Spec.fallible (f.leverage env)) := by
  refine ((ret_hat (Set.mem_univ _) (Set.mem_univ _)).bind fun _ => Returns.pure _).congr ?_
  unfold Fit.leverage
  cases f.hat env <;> rfl

theorem ret_residPear : Returns env f Set.univ (Cached.residPear f) (.ok f.residPear) :=
  Returns.cell (S := ∅) (cell := .residPear) (Returns.pure _) rfl (Set.notMem_empty _)
    (Set.subset_univ _)

theorem ret_nullModel : Returns env f Set.univ (Cached.nullModelFit env f)
    ((f.nullModelFit env).mapErr fun e => e.elim) :=
  Returns.cell (S := ∅) (cell := .nullModel) (Returns.lift _) rfl (Set.notMem_empty _)
    (Set.subset_univ _)

theorem ret_dispersion' : Returns env f Set.univ (Cached.dispersion f) (.ok f.dispersion) :=
  ret_dispersion trivial trivial

theorem ret_deviance' : Returns env f Set.univ (Cached.deviance f) (.ok f.deviance) :=
  ret_deviance trivial

theorem ret_devTerms' : Returns env f Set.univ (Cached.devianceTerms f) (.ok f.devianceTerms) :=
  ret_devTerms trivial

theorem ret_inflCoef : Returns env f Set.univ (Cached.inflCoef env f)
    (Spec.fallible (f.inflCoef env)) := by
  refine (ret_leverage.bind fun _ => (ret_fisherInv (Set.mem_univ _)).bind fun _ => Returns.pure _).congr ?_
  unfold Fit.inflCoef
  cases f.leverage env <;> cases f.fisherInv env <;> rfl

theorem ret_devTermsLoo : Returns env f Set.univ (Cached.devianceTermsLoo env f)
    (Spec.fallible (f.devianceTermsLoo env)) := by
  refine (ret_devTerms'.bind fun _ => ret_residPear.bind fun _ =>
    ret_leverage.bind fun _ => Returns.pure _).congr ?_
  unfold Fit.devianceTermsLoo
  cases f.leverage env <;> rfl

theorem ret_dispersionLoo : Returns env f Set.univ (Cached.dispersionLoo env f)
    (Spec.fallible (f.dispersionLoo env)) := by
  unfold Cached.dispersionLoo Fit.dispersionLoo
  cases f.g.dispersed with
  | none => exact Returns.pure _
  | free =>
    dsimp only
    cases hw : f.data.weights with
    | none =>
      cases hf : f.data.freqs with
      | none =>
        refine (ret_residPear.bind fun _ => ret_leverage.bind fun _ => ret_devTerms'.bind fun _ =>
          ret_deviance'.bind fun _ => Returns.pure _).congr ?_
        cases f.leverage env <;> rfl
      | some fr =>
        refine (ret_residPear.bind fun _ => ret_leverage.bind fun _ => ret_devTerms'.bind fun _ =>
          ret_deviance'.bind fun _ => Returns.pure _).congr ?_
        cases f.leverage env <;> rfl
    | some w =>
      refine (ret_residPear.bind fun _ => ret_leverage.bind fun _ => ret_devTerms'.bind fun _ =>
          ret_deviance'.bind fun _ => Returns.pure _).congr ?_
      cases f.leverage env <;> rfl

theorem ret_residStudent : Returns env f Set.univ (Cached.residStudent env f)
    (Spec.fallible (f.residStudent env)) := by
  unfold Cached.residStudent Fit.residStudent
  cases f.g.dispersed with
  | none =>
    refine (ret_devTermsLoo.bind fun _ =>
      (Returns.pure (env := env) (f := f) _).bind fun _ => Returns.pure _).congr ?_
    cases f.devianceTermsLoo env <;> rfl
  | free =>
    refine (ret_devTermsLoo.bind fun _ => ret_dispersionLoo.bind fun _ =>
      (Returns.pure (env := env) (f := f) _).bind fun _ => Returns.pure _).congr ?_
    cases f.devianceTermsLoo env <;> cases f.dispersionLoo env <;> rfl

theorem ret_lrTest : Returns env f Set.univ (Cached.lrTest env f)
    ((f.lrTest env).mapErr fun e => e.elim) := by
  refine ((ret_nullModel.bind fun _ => Returns.pure _).bind fun _ => Returns.pure _).congr ?_
  unfold Fit.lrTest Fit.nullLike
  cases f.nullModelFit env <;> rfl

theorem ret_waldZ : Returns env f Set.univ (Cached.waldZ env f) (Spec.fallible (f.waldZ env)) := by
  refine (ret_covariance.bind fun _ => Returns.pure _).congr ?_
  unfold Fit.waldZ
  cases f.covariance env <;> rfl

/-- Every accessor returns its value and keeps the invariant. -/
theorem ret_access (ds : Dists F) (a : Accessor F n p b α) :
    Returns env f Set.univ (f.access ds env a) (Spec.valueOf ds env f a) := by
  cases a with
  | aic => exact (ret_deviance'.bind fun _ => Returns.pure _).congr rfl
  | cooks =>
    refine (ret_leverage.bind fun _ => ret_residPear.bind fun _ => ret_dispersion'.bind fun _ =>
      Returns.pure _).congr ?_
    simp only [Spec.valueOf, Fit.cooks]
    cases f.leverage env <;> rfl
  | covariance => exact ret_covariance
  | deviance => exact ret_deviance'
  | dispersion => exact ret_dispersion'
  | hat => exact ret_hat trivial trivial
  | inflCoef => exact ret_inflCoef
  | leverage => exact ret_leverage
  | looExact =>
    refine (ret_inflCoef.bind fun _ => Returns.lift _).congr ?_
    simp only [Spec.valueOf, Fit.looExact]
    cases f.inflCoef env <;> rfl
  | lrTest => exact ret_lrTest
  | nullLike =>
    refine (ret_nullModel.bind fun _ => Returns.pure _).congr ?_
    simp only [Spec.valueOf, Fit.nullLike]
    cases f.nullModelFit env <;> rfl
  | residDev => exact (ret_devTerms'.bind fun _ => Returns.pure _).congr rfl
  | residDevStd =>
    refine ((ret_devTerms'.bind fun _ => Returns.pure _).bind fun _ => ret_dispersion'.bind fun _ =>
      ret_leverage.bind fun _ => Returns.pure _).congr ?_
    simp only [Spec.valueOf, Fit.residDevStd]
    cases f.leverage env <;> rfl
  | residPear => exact ret_residPear
  | residPearStd =>
    refine (ret_residPear.bind fun _ => ret_dispersion'.bind fun _ =>
      ret_leverage.bind fun _ => Returns.pure _).congr ?_
    simp only [Spec.valueOf, Fit.residPearStd]
    cases f.leverage env <;> rfl
  | residStudent => exact ret_residStudent
  | scoreTest =>
    refine (ret_nullModel.bind fun _ => Returns.try? _).congr ?_
    simp only [Spec.valueOf, Fit.scoreTest]
    cases f.nullModelFit env with
    | ok nm => 
      simp only [Outcome.mapErr, Outcome.bind]
      cases f.scoreTestAgainst env nm.2 <;> rfl
    | err e => exact e.elim
    | panic => rfl
    | diverge => rfl
  | waldTest =>
    refine (ret_nullModel.bind fun _ => Returns.pure _).congr ?_
    simp only [Spec.valueOf, Fit.waldTest]
    cases f.nullModelFit env <;> rfl
  | waldZ => exact ret_waldZ
  | rSq =>
    refine (ret_lrTest.bind fun _ => ret_deviance'.bind fun _ => Returns.pure _).congr ?_
    simp only [Spec.valueOf, Fit.rSq]
    cases f.lrTest env <;> rfl
  | pvalueLrTest =>
    change Returns env f Set.univ (Cached.pvalueLrTest ds env f)
      ((f.pvalueLrTest ds env).mapErr fun e => e.elim)
    unfold Cached.pvalueLrTest Fit.pvalueLrTest
    by_cases h0 : f.testNdf = 0
    · simp only [h0, if_true]
      refine (ret_lrTest.bind fun _ => Returns.pure _).congr ?_
      cases f.lrTest env <;> rfl
    · simp only [h0, if_false]
      refine (ret_lrTest.bind fun _ => (Returns.lift _).bind fun _ => Returns.pure _).congr ?_
      cases f.lrTest env <;> cases ds.chi2 (Scalar.ofNat f.testNdf) <;> rfl
  | pvalueWald =>
    change Returns env f Set.univ (Cached.pvalueWald ds env f)
      ((f.pvalueWald ds env).mapErr fun _ => .linalg)
    unfold Cached.pvalueWald Fit.pvalueWald
    cases f.g.dispersed with
    | none =>
      refine (ret_waldZ.bind fun _ => Returns.pure _).congr ?_
      cases f.waldZ env <;> rfl
    | free =>
      refine (ret_waldZ.bind fun _ => (Returns.lift _).bind fun _ => Returns.pure _).congr ?_
      cases f.waldZ env <;> cases ds.studentT f.ndf <;> rfl
  | pvalueExact =>
    exact (ret_deviance'.bind fun _ => ret_dispersion'.bind fun _ => Returns.lift _).congr rfl
  | residQuantile dist => exact (ret_dispersion'.bind fun _ => Returns.lift _).congr rfl

theorem valid_cellsAfter (ds : Dists F) (calls : List (Σ α : Type, Accessor F n p b α)) :
    Valid env f (f.cellsAfter ds env calls) := by
  unfold Fit.cellsAfter
  have h0 : Valid env f (Cache.empty : Cache F n (ncols b p)) := by
    intro cell v h
    cases h
  generalize (Cache.empty : Cache F n (ncols b p)) = c at *
  induction calls generalizing c with
  | nil => exact h0
  | cons a as ih => exact ih _ (ret_access ds a.2 c h0).2.1

/-- **C44**: after any sequence of accessor calls, failing or not, each accessor returns exactly what
it computes without any cache.  For every arithmetic and every linear algebra. -/
theorem C44_transparent (ds : Dists F) (env : Env F) (f : Fit F n p b)
    (calls : List (Σ α : Type, Accessor F n p b α)) (a : Accessor F n p b α) :
    (f.access ds env a (f.cellsAfter ds env calls)).1 = Spec.valueOf ds env f a :=
  (ret_access ds a _ (valid_cellsAfter ds calls)).1

/-- **C44**: each accessor returns after any sequence of calls what it returns on a fresh fit. -/
theorem C44_history (ds : Dists F) (env : Env F) (f : Fit F n p b)
    (calls : List (Σ α : Type, Accessor F n p b α)) (a : Accessor F n p b α) :
    (f.access ds env a (f.cellsAfter ds env calls)).1 = (f.access ds env a Cache.empty).1 :=
  (C44_transparent ds env f calls a).trans (C44_transparent ds env f [] a).symm

/-- **C44**: what is stored once stays. -/
theorem C44_stable (ds : Dists F) (env : Env F) (f : Fit F n p b)
    (calls more : List (Σ α : Type, Accessor F n p b α)) (cell : Cell)
    (v : cell.type F n (ncols b p)) (h : f.cellsAfter ds env calls cell = some v) :
    f.cellsAfter ds env (calls ++ more) cell = some v := by
  have hv := valid_cellsAfter (env := env) (f := f) ds calls
  unfold Fit.cellsAfter at *
  rw [List.foldl_append]
  generalize List.foldl _ Cache.empty calls = c at *
  induction more generalizing c with
  | nil => exact h
  | cons a as ih =>
    obtain ⟨-, h2, h3, -⟩ := ret_access ds a.2 c hv
    exact ih _ (h3 cell v h) h2

/-- **C44**: errors are not stored: whatever was called, a filled cell holds a value that was
computed successfully. -/
theorem C44_no_stored_errors (ds : Dists F) (env : Env F) (f : Fit F n p b)
    (calls : List (Σ α : Type, Accessor F n p b α)) :
    (∀ v, f.cellsAfter ds env calls .hat = some v → f.hat env = .ok v)
      ∧ (∀ v, f.cellsAfter ds env calls .covariance = some v → f.covariance env = .ok v)
      ∧ ∀ v, f.cellsAfter ds env calls .nullModel = some v → f.nullModelFit env = .ok v := by
  have hv := valid_cellsAfter (env := env) (f := f) ds calls
  refine ⟨fun v h => ?_, fun v h => ?_, fun v h => ?_⟩
  · have := hv .hat v h
    simp only [cellValue] at this
    cases hh : f.hat env with
    | ok a => rw [hh] at this; cases this; rfl
    | error e => rw [hh] at this; cases this
  · have := hv .covariance v h
    simp only [cellValue] at this
    cases hh : f.covariance env with
    | ok a => rw [hh] at this; cases this; rfl
    | error e => rw [hh] at this; cases this
  · have := hv .nullModel v h
    simp only [cellValue] at this
    cases hh : f.nullModelFit env with
    | ok a => rw [hh] at this; cases this; rfl
    | err e => exact e.elim
    | panic => rw [hh] at this; cases this
    | diverge => rw [hh] at this; cases this

/-- The cells are really used: after `dispersion()` of a family with free dispersion, the deviance
terms and the dispersion are stored. -/
example (ds : Dists F) (env : Env F) (f : Fit F n p b) (h : f.g.dispersed = .free) :
    f.cellsAfter ds env [⟨_, .dispersion⟩] .phi = some f.dispersion
      ∧ f.cellsAfter ds env [⟨_, .dispersion⟩] .devTerms = some f.devianceTerms := by
  simp only [Fit.cellsAfter, List.foldl_cons, List.foldl_nil, Fit.access, Cached.dispersion, h,
    Fit.dispersion]
  exact ⟨rfl, rfl⟩

omit [Scalar F] in
theorem getOrInit_fills {k : ℕ} {cell : Cell} {init : CacheM F n k (cell.type F n k)}
    {c : Cache F n k} {v : cell.type F n k} (h : (CacheM.getOrInit cell init c).1 = .ok v) :
    (CacheM.getOrInit cell init c).2 cell = some v := by
  unfold CacheM.getOrInit at *
  cases hc : c cell with
  | some w => rw [hc] at h; cases h; exact hc
  | none =>
    rw [hc] at h
    generalize init c = q at *
    obtain ⟨q1, q2⟩ := q
    cases q1 with
    | ok w =>
      cases hq : q2 cell with
      | none =>
        simp only [hq] at h ⊢
        cases h
        exact Function.update_self ..
      | some u => simp only [hq] at h; cases h
    | err e => cases h
    | panic => cases h
    | diverge => cases h

/-- **C44** needs the fit unchanged between the calls: `result` is a public field, and `covariance()`
is computed from it, but after it was called once, assigning another value `r` to the field does not
change what it returns. -/
theorem C44_mutation (ds : Dists F) (env : Env F) (f : Fit F n p b) (r : Vec F (ncols b p))
    (C : Mat F (ncols b p) (ncols b p)) (h : f.covariance env = .ok C) :
    (({f with result := r} : Fit F n p b).access ds env .covariance
      (f.cellsAfter ds env [⟨_, .covariance⟩])).1 = .ok C := by
  have h1 : f.cellsAfter ds env [⟨_, .covariance⟩] .covariance = some C := by
    obtain ⟨h1, -⟩ := ret_access (env := env) (f := f) ds .covariance Cache.empty
      (valid_cellsAfter ds [])
    simp only [Spec.valueOf, h] at h1
    exact getOrInit_fills h1
  simp only [Fit.access, Cached.covariance, CacheM.getOrInit, h1]

end GLM
