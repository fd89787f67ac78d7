/-
  C107: symmetries of the data are symmetries of the fit.
-/
import Verif.Props.Signs
import Verif.Props.Order
import Verif.Props.Selection

namespace GLM
open Spec
variable {n p : ℕ} {b : Bool} {env : Env ℝ} {g : Glm ℝ} {raw : Dataset ℝ n p false} {std : Bool}
  {d : Dataset ℝ n p b} {o : FitOptions ℝ (ncols b p)} {f : Fit ℝ n p b}

theorem Spec.Related.of_ok {E E' α β : Type} {re : E → E' → Prop} {r : α → β → Prop} {u : Outcome E α}
    {v : Outcome E' β} {x : α} (h : Related re r u v) (hu : u = .ok x) : ∃ y, v = .ok y ∧ r x y := by
  subst hu
  cases h with
  | ok h => exact ⟨_, rfl, h⟩

theorem map_fixed {α : Type} {φ : α → α} {l : List α} (h : l.map φ = l) : ∀ x ∈ l, φ x = x :=
  List.map_inj_left.mp (h.trans (List.map_id l).symm)

theorem slope_unitCoef (a c : Fin p → ℝ) (β : Vec ℝ (ncols b p)) (j : Fin p) :
    slope (unitCoef a c β) j = slope β j / a j := by cases b <;> rfl

theorem slope_order (σ : Equiv.Perm (Fin p)) (β : Vec ℝ (ncols b p)) (j : Fin p) :
    slope (fun k => β (coefOrder σ b k)) j = slope β (σ j) := by cases b <;> rfl

theorem slope_flip (s : Fin p → ℝ) (β : Vec ℝ (ncols b p)) (j : Fin p) :
    slope (flipV (coefSigns s b) β) j = s j * slope β j := by cases b <;> rfl

/-! ### Identical features -/

/-- **C107** (reordering).  If reordering the features leaves the data and the start as they are, it
leaves the fit as it is: coefficients, history, covariance, and everything else. -/
theorem C107_reordering {σ : Equiv.Perm (Fin p)} (hd : raw.finalize std b = some d)
    (hσ : permuteFeatures σ raw = raw) (ho : ∀ β, o.initGuess = some β → ∀ j, β (coefOrder σ b j) = β j)
    (he : OrderFree (coefOrder σ b) env) (hf : regression env g d o = .ok f) :
    SameUpToFeatureOrder σ f f := by
  obtain ⟨d', hd', h⟩ := C74_feature_order σ hd
  rw [hσ, hd] at hd'
  cases hd'
  have hs : reorderStart (coefOrder σ b) o = o := by
    obtain ⟨m, t, l2, l1, i⟩ := o
    cases i with
    | none => rfl
    | some β => exact congrArg (fun γ => FitOptions.mk m t l2 l1 (some γ)) (funext (ho β rfl))
  obtain ⟨f', hf', hr⟩ := (h env he g o).of_ok hf
  rw [hs, hf] at hf'
  cases hf'
  exact hr

/-- **C107** (identical features).  Two features with the same values get the same coefficient in every
fit, for every family, penalty and start that treats them alike; at every step of the history; and the
same standard error and z statistic. -/
theorem C107_identical {j k : Fin p} (hd : raw.finalize std b = some d) (hx : ∀ i, raw.x i j = raw.x i k)
    (ho : ∀ β, o.initGuess = some β → slope β j = slope β k)
    (he : OrderFree (coefOrder (Equiv.swap j k) b) env) (hf : regression env g d o = .ok f) :
    slope f.result j = slope f.result k ∧ (∀ st ∈ f.history, slope st.guess j = slope st.guess k) ∧
    (∀ z, f.waldZ env = .ok z → slope z j = slope z k) ∧
    (∀ cov, f.covariance env = .ok cov → slope (fun l => cov l l) j = slope (fun l => cov l l) k) := by
  have h := C107_reordering (σ := Equiv.swap j k) hd ?_ ?_ he hf
  · have hj : ∀ β : Vec ℝ (ncols b p), slope β k
        = slope (fun l => β (coefOrder (Equiv.swap j k) b l)) j := fun β => by
      rw [slope_order, Equiv.swap_apply_left]
    refine ⟨?_, fun st hst => ?_, fun z hz => ?_, fun cov hcov => ?_⟩
    · rw [hj, ← h.result]
    · have e : (reorderStep (coefOrder (Equiv.swap j k) b) st) = st :=
        map_fixed h.history.symm st hst
      rw [hj st.guess]
      exact congrArg (fun t : IrlsStep ℝ _ => slope t.guess j) e.symm
    · have e := h.waldZ env he
      rw [hz] at e
      have e' : z = fun l => z (coefOrder (Equiv.swap j k) b l) := Except.ok.inj e
      rw [hj z, ← e']
    · have e := h.covariance env he
      rw [hcov] at e
      have e' : cov = fun i l => cov (coefOrder (Equiv.swap j k) b i) (coefOrder (Equiv.swap j k) b l) :=
        Except.ok.inj e
      rw [hj]
      exact congrArg (fun m : Mat ℝ _ _ => slope (fun l => m l l) j) e'
  · obtain ⟨y, x, off, w, fr, sd⟩ := raw
    refine congrArg (fun x' : Mat ℝ n p => (Dataset.mk y x' off w fr sd : Dataset ℝ n p false)) ?_
    funext i l
    change x i (Equiv.swap j k l) = x i l
    rcases eq_or_ne l j with rfl | hj
    · rw [Equiv.swap_apply_left]; exact (hx i).symm
    rcases eq_or_ne l k with rfl | hk
    · rw [Equiv.swap_apply_right]; exact hx i
    · rw [Equiv.swap_apply_of_ne_of_ne hj hk]
  · intro β hβ
    have e := ho β hβ
    have key : ∀ l, slope (fun m => β (coefOrder (Equiv.swap j k) b m)) l = slope β l := by
      intro l
      rw [slope_order]
      rcases eq_or_ne l j with rfl | hj
      · rw [Equiv.swap_apply_left]; exact e.symm
      rcases eq_or_ne l k with rfl | hk
      · rw [Equiv.swap_apply_right]; exact e
      · rw [Equiv.swap_apply_of_ne_of_ne hj hk]
    cases b with
    | false => exact key
    | true => exact fun l => Fin.cases rfl key l

/-- **C107** (proportional features).  With standardization, if feature `k` is feature `j` in other units
(`x_k = a x_j + c`, `a` of either sign), the coefficients are those of one effect in two units: the two
features contribute equally. -/
theorem C107_proportional {j k : Fin p} {a c : ℝ} (hd : raw.finalize true b = some d)
    (hjk : j ≠ k) (ha : a ≠ 0) (hc : b = false → c = 0) (hx : ∀ i, raw.x i k = a * raw.x i j + c)
    (hw : 0 < ∑ i, totalWt raw i) (hv : ∀ l, Varies raw l) (ho : o.initGuess = none)
    (he : OrderFree (coefOrder (Equiv.swap j k) b) env)
    (hs : SignFree (coefSigns (direction (Function.update 1 k a⁻¹)) b) env)
    (hf : regression env g d o = .ok f) : slope f.result j = a * slope f.result k := by
  obtain ⟨d', hd', h⟩ := C102_recoding (a := Function.update 1 k a⁻¹) (c := Function.update 0 k (-(c / a)))
    (by
      intro l
      by_cases hl : l = k
      · subst hl; rw [Function.update_self]; exact inv_ne_zero ha
      · rw [Function.update_of_ne hl]; exact one_ne_zero)
    (by
      intro hb l
      by_cases hl : l = k
      · subst hl; rw [Function.update_self, hc hb]; simp
      · rw [Function.update_of_ne hl]; rfl)
    hw hv hd
  obtain ⟨f', hf', hr⟩ := (h env hs g o).of_ok hf
  have h1 := (C107_identical (j := j) (k := k) hd' (fun i => by
    change Function.update (1 : Fin p → ℝ) k a⁻¹ j * raw.x i j
        + Function.update (0 : Fin p → ℝ) k (-(c / a)) j
      = Function.update (1 : Fin p → ℝ) k a⁻¹ k * raw.x i k
        + Function.update (0 : Fin p → ℝ) k (-(c / a)) k
    rw [Function.update_of_ne hjk, Function.update_of_ne hjk, Function.update_self, Function.update_self, hx]
    simp only [Pi.one_apply, Pi.zero_apply]
    field_simp
    ring) (by rw [ho]; intro β hβ; cases hβ) he hf').1
  rw [hr.result, slope_unitCoef, slope_unitCoef, Function.update_of_ne hjk, Function.update_self] at h1
  rw [Pi.one_apply, div_one, div_inv_eq_mul] at h1
  rw [h1, mul_comm]

/-! ### Balanced features -/

/-- **C107** (balanced groups, standardized).  If exchanging observations (`σ`) has the same effect on
the data as recoding the features (`x_j ↦ a_j x_j + c_j`), a feature that is really recoded has no effect.
Example: two arms with the same responses, the indicator `x` of the arm recoded as `1 - x`. -/
theorem C107_balanced {σ : Equiv.Perm (Fin n)} {a c : Fin p → ℝ} (hd : raw.finalize true b = some d)
    (hsym : permuteRows σ raw = changeUnits a c raw) (ha : ∀ j, a j ≠ 0) (hc : b = false → ∀ j, c j = 0)
    (hw : 0 < ∑ i, totalWt raw i) (hv : ∀ j, Varies raw j)
    (ho : o.initGuess = none) (he : SignFree (coefSigns (direction a) b) env)
    (hf : regression env g d o = .ok f) {j : Fin p} (hj : a j ≠ 1) : slope f.result j = 0 := by
  obtain ⟨d1, hd1, h1⟩ := C69_row_order σ hd
  obtain ⟨d2, hd2, h2⟩ := C102_recoding ha hc hw hv hd
  rw [hsym, hd2] at hd1
  cases hd1
  obtain ⟨f1, hf1, r1⟩ := (h1 env g o).of_ok hf
  obtain ⟨f2, hf2, r2⟩ := (h2 env he g o).of_ok hf
  have ho' : ({ o with initGuess := o.initGuess.map fun β => unitCoef a c β } : FitOptions ℝ (ncols b p)) = o := by
    obtain ⟨m, t, l2, l1, i⟩ := o
    cases ho
    rfl
  rw [ho', hf1] at hf2
  cases hf2
  have := congrArg (fun β => slope β j) (r1.result.symm.trans r2.result)
  simp only [slope_unitCoef] at this
  rw [eq_div_iff (ha j)] at this
  have h0 : slope f.result j * (a j - 1) = 0 := by linarith
  exact (mul_eq_zero.mp h0).resolve_right (sub_ne_zero.mpr hj)

/-- **C107** (balanced groups, with or without standardization): the same for features that change their
sign. -/
theorem C107_balanced_signs {σ : Equiv.Perm (Fin n)} {s : Fin p → ℝ} (hd : raw.finalize std b = some d)
    (hs : IsSigns s) (hsym : permuteRows σ raw = flipFeatures s raw) (ho : o.initGuess = none)
    (he : SignFree (coefSigns s b) env) (hf : regression env g d o = .ok f) {j : Fin p} (hj : s j = -1) :
    slope f.result j = 0 := by
  obtain ⟨d1, hd1, h1⟩ := C69_row_order σ hd
  obtain ⟨d2, hd2, h2⟩ := C102_direction hs hd
  rw [hsym, hd2] at hd1
  cases hd1
  obtain ⟨f1, hf1, r1⟩ := (h1 env g o).of_ok hf
  obtain ⟨f2, hf2, r2⟩ := (h2 env he g o).of_ok hf
  have ho' : flipStart (coefSigns s b) o = o := by
    obtain ⟨m, t, l2, l1, i⟩ := o
    cases ho
    rfl
  rw [ho', hf1] at hf2
  cases hf2
  have := congrArg (fun β => slope β j) (r1.result.symm.trans r2.result)
  simp only [slope_flip, hj] at this
  linarith

/-! ### Useless features -/

theorem slope_design {j : Fin p} {c : ℝ} (hd : raw.finalize std b = some d) (hx : ∀ i, raw.x i j = c)
    (hc : c = 0 ∨ std = true ∧ b = true ∧ 0 < ∑ i, totalWt raw i) (i : Fin n) : slope (d.x i) j = 0 := by
  unfold Dataset.finalize at hd
  cases std with
  | false =>
    have h0 : c = 0 := hc.resolve_right fun h => absurd h.1 (by simp)
    cases hd
    cases b
    · exact (hx i).trans h0
    · exact (hx i).trans h0
  | true =>
    rw [if_pos rfl, Option.map_eq_some_iff] at hd
    obtain ⟨t, ht, rfl⟩ := hd
    have hsh : c - t.shifts j = 0 := by
      rcases hc with rfl | ⟨-, rfl, hw⟩
      · unfold Standardizer.fromDataset at ht
        dsimp only at ht
        rw [Option.map_eq_some_iff] at ht
        obtain ⟨v, -, rfl⟩ := ht
        have hz : (vsum fun i => raw.applyTotalWeights (vfill 1) i * raw.x i j) = (0 : ℝ) := by
          rw [vsum_real]
          exact Finset.sum_eq_zero fun i _ => by rw [hx, mul_zero]
        cases b
        · simp [vzeros]
        · dsimp only
          rw [if_pos rfl]
          split
          · simp [vzeros]
          · dsimp only
            rw [hz, zero_div, sub_zero]
      · rw [(fromDataset_eq hw ht).1 j, if_pos rfl, wMean]
        simp only [hx, ← Finset.sum_mul]
        rw [mul_comm, mul_div_assoc, div_self hw.ne', mul_one, sub_self]
    have : (raw.x i j - t.shifts j) / t.scales j = 0 := by rw [hx, hsh, zero_div]
    cases b
    · exact this
    · exact this

theorem slope_inverseTransformBeta (d : Dataset ℝ n p b) (β : Vec ℝ (ncols b p)) {j : Fin p}
    (h : slope β j = 0) : slope (d.inverseTransformBeta β) j = 0 := by
  obtain ⟨y, x, off, w, fr, sd⟩ := d
  cases b <;> cases sd
  · exact h
  · exact (congrArg (· / _) h).trans (zero_div _)
  · exact h
  · exact (congrArg (· / _) h).trans (zero_div _)

theorem slope_transformBeta (d : Dataset ℝ n p b) (β : Vec ℝ (ncols b p)) {j : Fin p}
    (h : slope β j = 0) : slope (d.transformBeta β) j = 0 := by
  obtain ⟨y, x, off, w, fr, sd⟩ := d
  cases b <;> cases sd
  · exact h
  · exact (congrArg (· * _) h).trans (zero_mul _)
  · exact h
  · exact (congrArg (· * _) h).trans (zero_mul _)

/-- The reversal of feature `j` alone. -/
def reverseOne (j : Fin p) : Fin p → ℝ := Function.update 1 j (-1)

theorem reverseOne_isSigns (j : Fin p) : IsSigns (reverseOne j) := by
  intro l
  rcases eq_or_ne l j with rfl | hl
  · exact Or.inr (Function.update_self ..)
  · exact Or.inl (Function.update_of_ne hl ..)

theorem flipV_reverseOne (j : Fin p) {β : Vec ℝ (ncols b p)} :
    flipV (coefSigns (reverseOne j) b) β = β ↔ slope β j = 0 := by
  constructor
  · intro h
    have := congrArg (fun γ => slope γ j) h
    simp only [slope_flip, reverseOne, Function.update_self] at this
    linarith
  · intro h
    have key : ∀ l, slope (flipV (coefSigns (reverseOne j) b) β) l = slope β l := by
      intro l
      rw [slope_flip]
      rcases eq_or_ne l j with rfl | hl
      · rw [h, mul_zero]
      · rw [reverseOne, Function.update_of_ne hl, Pi.one_apply, one_mul]
    funext l
    cases b with
    | false => exact key l
    | true => exact Fin.cases (one_mul _) key l

/-- **C107** (useless features).  A feature that is zero everywhere, or constant when there are an intercept
and standardization, gets coefficient zero in every fit, and at every step of it, unless the caller's start
says otherwise. -/
theorem C107_useless {j : Fin p} {c : ℝ} (hd : raw.finalize std b = some d) (hx : ∀ i, raw.x i j = c)
    (hc : c = 0 ∨ std = true ∧ b = true ∧ 0 < ∑ i, totalWt raw i)
    (ho : ∀ β, o.initGuess = some β → slope β j = 0)
    (he : SignFree (coefSigns (reverseOne j) b) env) (hf : regression env g d o = .ok f) :
    slope f.result j = 0 ∧ ∀ st ∈ f.history, slope st.guess j = 0 := by
  have hs : IsSigns (coefSigns (reverseOne j) b) := coefSigns_isSigns (reverseOne_isSigns j) b
  have hfl : Flips (coefSigns (reverseOne j) b) d d :=
    ⟨hs, rfl, fun i l => by
      have := (flipV_reverseOne (b := b) j).mpr (slope_design hd hx hc i)
      exact (congrFun this l).symm, rfl, rfl, rfl⟩
  have hcore := hfl.regressionCore (o := o) (o' := flipStart (coefSigns (reverseOne j) b) o) he g rfl rfl
    (getReg_flip _ o) (by
      have hi : (flipStart (coefSigns (reverseOne j) b) o).initGuess
        = o.initGuess.map (flipV (coefSigns (reverseOne j) b)) := rfl
      unfold initialGuess
      rw [hi]
      cases hβ : o.initGuess with
      | none => exact hfl.initGuess he g
      | some β =>
        have h0 := ho β hβ
        change d.transformBeta (flipV _ β) = flipV _ (d.transformBeta β)
        rw [(flipV_reverseOne j).mpr h0, (flipV_reverseOne j).mpr (slope_transformBeta d β h0)])
  have ho' : flipStart (coefSigns (reverseOne j) b) o = o := by
    obtain ⟨m, t, l2, l1, i⟩ := o
    cases i with
    | none => rfl
    | some β =>
      exact congrArg (fun γ => FitOptions.mk m t l2 l1 (some γ)) ((flipV_reverseOne j).mpr (ho β rfl))
  rw [ho'] at hcore
  unfold regression at hf
  cases hr : regressionCore env g d o with
  | ok r =>
    rw [hr] at hf hcore
    cases hf
    have e : r = (flipStep _ r.1, r.2.flip _) := Outcome.ok.inj hcore
    refine ⟨slope_inverseTransformBeta _ _ ((flipV_reverseOne j).mp ?_), ?_⟩
    · exact (congrArg (fun q => q.1.guess) e).symm
    · intro st hst
      obtain ⟨t, ht, rfl⟩ := List.mem_map.mp hst
      refine slope_inverseTransformBeta _ _ ((flipV_reverseOne j).mp ?_)
      have e2 : r.2.history = r.2.history.map (flipStep (coefSigns (reverseOne j) b)) :=
        congrArg (fun q => q.2.history) e
      exact congrArg IrlsStep.guess (map_fixed e2.symm t ht)
  | err e => rw [hr] at hf; cases hf
  | panic => rw [hr] at hf; cases hf
  | diverge => rw [hr] at hf; cases hf

/-! ### Cases that meet the hypotheses -/

/-- `C107_reordering`, `C107_identical` and `C107_useless`: features 0 and 1 are identical, feature 2 is
constant. -/
theorem C107_example_identical : ∃ (d : Dataset ℝ 3 4 true) (f : Fit ℝ 3 4 true),
    exSelect.finalize true true = some d ∧
    regression (exactEnv 0 0) Family.linear.glm d (exOpts 0 3 none 1) = .ok f ∧
    slope f.result 0 = slope f.result 1 ∧ slope f.result 2 = 0 := by
  have hn : Scalar.gt exSelect.nEff 1 = true := by
    rw [gt_real]
    simp [Dataset.nEff, Dataset.freqSum, Dataset.applyFreqWeights, vmul, exSelect, Fin.sum_univ_three]
    norm_num
  obtain ⟨d, hd⟩ : ∃ d, exSelect.finalize true true = some d :=
    ⟨_, by simp only [Dataset.finalize, Standardizer.fromDataset, if_true, hn]; rfl⟩
  obtain ⟨f, h, -⟩ := exists_ridge_fit (fun i => (exSelect_totalWt i).le)
    ⟨0, exSelect_totalWt 0⟩ (by norm_num : (0 : ℝ) < 3) hd
  exact ⟨d, f, hd, h,
    (C107_identical (j := 0) (k := 1) hd (fun i => rfl) (fun β hβ => by cases hβ) (exactEnv_orderFree _ _ _) h).1,
    (C107_useless (c := 7) hd (fun i => rfl)
      (Or.inr ⟨rfl, rfl, Finset.sum_pos (fun i _ => exSelect_totalWt i) ⟨0, Finset.mem_univ _⟩⟩)
      (fun β hβ => by cases hβ)
      (exactEnv_signFree (coefSigns_isSigns (reverseOne_isSigns _) true) _ _) h).1⟩

/-- `C107_balanced`: the responses are symmetric about the middle of the range of the feature. -/
theorem C107_example_balanced : ∃ (d : Dataset ℝ 3 1 true) (f : Fit ℝ 3 1 true),
    (exRaw ![1, 5, 1]).finalize true true = some d ∧
    regression (exactEnv 0 0) Family.linear.glm d (exOpts 0 3 none 1) = .ok f ∧
    slope f.result 0 = 0 := by
  obtain ⟨d, hd⟩ := exRaw_finalize ![1, 5, 1] true true
  obtain ⟨f, h, -⟩ := exists_ridge_fit (fun i => (exRaw_totalWt_pos _ i).le)
    ⟨0, exRaw_totalWt_pos _ 0⟩ (by norm_num : (0 : ℝ) < 3) hd
  refine ⟨d, f, hd, h, ?_⟩
  refine C107_balanced (σ := Equiv.swap 0 2) (a := fun _ => -1) (c := fun _ => 2) hd ?_
    (fun _ => by norm_num) (by simp) (Finset.sum_pos (fun i _ => exRaw_totalWt_pos _ i) ⟨0, Finset.mem_univ _⟩)
    (exRaw_varies _) rfl (exactEnv_signFree (coefSigns_isSigns (direction_isSigns _) true) _ _) h
    (by norm_num)
  unfold permuteRows changeUnits exRaw
  congr 1
  · funext i; fin_cases i <;> simp [Equiv.swap_apply_def]
  · funext i j; fin_cases i <;> simp [Equiv.swap_apply_def, newUnits]; norm_num
  · refine congrArg some ?_
    funext i; fin_cases i <;> simp [Equiv.swap_apply_def]

/-- `C107_balanced_signs`: a feature with the values -1, 0 and 1, without standardization. -/
theorem C107_example_signs : ∃ (raw : Dataset ℝ 3 1 false) (d : Dataset ℝ 3 1 true) (f : Fit ℝ 3 1 true),
    (∀ i, raw.x i 0 = ![-1, 0, 1] i) ∧ raw.finalize false true = some d ∧
    regression (exactEnv 0 0) Family.linear.glm d (exOpts 0 3 none 1) = .ok f ∧
    slope f.result 0 = 0 := by
  let raw : Dataset ℝ 3 1 false := { exRaw ![1, 5, 1] with x := fun i _ => ![-1, 0, 1] i }
  obtain ⟨d, hd⟩ : ∃ d, raw.finalize false true = some d := ⟨_, rfl⟩
  have hp : ∀ i, 0 < totalWt raw i := exRaw_totalWt_pos ![1, 5, 1]
  obtain ⟨f, h, -⟩ := exists_ridge_fit (fun i => (hp i).le) ⟨0, hp 0⟩ (by norm_num : (0 : ℝ) < 3) hd
  refine ⟨raw, d, f, fun i => rfl, hd, h, ?_⟩
  have hs : IsSigns fun _ : Fin 1 => (-1 : ℝ) := fun _ => Or.inr rfl
  refine C107_balanced_signs (σ := Equiv.swap 0 2) (s := fun _ => -1) hd hs ?_ rfl
    (exactEnv_signFree (coefSigns_isSigns hs true) _ _) h rfl
  simp only [raw]
  unfold permuteRows flipFeatures exRaw
  congr 1
  · funext i; fin_cases i <;> simp [Equiv.swap_apply_def]
  · funext i j; fin_cases i <;> simp [Equiv.swap_apply_def, flipCols]
  · refine congrArg some ?_
    funext i; fin_cases i <;> simp [Equiv.swap_apply_def]

/-- Three observations of a temperature in two units. -/
noncomputable def exTemps : Dataset ℝ 3 2 false where
  y := ![1, 5, 2]
  x := fun i => ![![0, 10, 20] i, ![32, 50, 68] i]
  linearOffset := none
  weights := none
  freqs := none
  standardizer := none

theorem exTemps_totalWt (i : Fin 3) : totalWt exTemps i = 1 := by
  simp [totalWt, freq, varWt, exTemps]

/-- `C107_proportional`: degrees Celsius and degrees Fahrenheit. -/
theorem C107_example_proportional : ∃ (d : Dataset ℝ 3 2 true) (f : Fit ℝ 3 2 true),
    exTemps.finalize true true = some d ∧
    regression (exactEnv 0 0) Family.linear.glm d (exOpts 0 3 none 1) = .ok f ∧
    slope f.result 0 = 9 / 5 * slope f.result 1 := by
  have hn : Scalar.gt exTemps.nEff 1 = true := by
    rw [gt_real]
    simp [Dataset.nEff, Dataset.nObs, exTemps]
  have hp : ∀ i, 0 < totalWt exTemps i := fun i => by rw [exTemps_totalWt]; exact one_pos
  obtain ⟨d, hd⟩ : ∃ d, exTemps.finalize true true = some d :=
    ⟨_, by simp only [Dataset.finalize, Standardizer.fromDataset, if_true, hn]; rfl⟩
  obtain ⟨f, h, -⟩ := exists_ridge_fit (fun i => (hp i).le) ⟨0, hp 0⟩ (by norm_num : (0 : ℝ) < 3) hd
  refine ⟨d, f, hd, h, C107_proportional (c := 32) hd (by decide) (by norm_num) (by simp) ?_
    (Finset.sum_pos (fun i _ => hp i) ⟨0, Finset.mem_univ _⟩) ?_ rfl (exactEnv_orderFree _ _ _)
    (exactEnv_signFree (coefSigns_isSigns (direction_isSigns _) true) _ _) h⟩
  · intro i; fin_cases i <;> simp [exTemps] <;> norm_num
  · intro j
    simp only [Varies, wMean, exTemps_totalWt, Fin.sum_univ_three]
    fin_cases j <;> simp [exTemps] <;> norm_num

end GLM
