/-
  C74 for the drop-one statistics: `dev_without_covariate` and `pvalue_exact`.
-/
import Verif.Props.InterceptColumn
import Verif.Lemmas.Seq
import Mathlib.Logic.Equiv.Fin.Basic

namespace GLM
open Spec Matrix Scalar
variable {n p : ℕ} {b : Bool}

/-- The deviance of a reduced fit does not depend on the numbering of its parameters. -/
theorem reducedDeviance_related {p' : ℕ} {b' : Bool} {τ : Fin (ncols b' p') ≃ Fin (ncols b p)}
    {d : Dataset ℝ n p b} {d' : Dataset ℝ n p' b'} (h : RelabelsExt τ d d') {env : Env ℝ}
    (he : OrderFree τ env) (g : Glm ℝ) {k k' : ℕ} {o : FitOptions ℝ k} {o' : FitOptions ℝ k'}
    (ht : o'.tol = o.tol) (hm : o'.maxIter = o.maxIter) (h1 : o'.l1 = o.l1) (h2 : o'.l2 = o.l2)
    (β : Vec ℝ (ncols b p))
    (hr : getReg (b := b') (reorderStart τ (Fit.reducedOptions o β))
      = (getReg (b := b) (Fit.reducedOptions o β)).reorder τ) :
    Related (fun _ _ => True) (· = ·) (Fit.reducedDeviance env g d (Fit.reducedOptions o β))
      (Fit.reducedDeviance env g d' (Fit.reducedOptions o' fun j => β (τ j))) := by
  have ho : (Fit.reducedOptions o' fun j => β (τ j)) = reorderStart τ (Fit.reducedOptions o β) := by
    simp only [Fit.reducedOptions, reorderStart, ht, hm, h1, h2, Option.map_some]
  unfold Fit.reducedDeviance
  rw [ho]
  unfold regression
  rw [h.toRelabels.regressionCore he g (o := Fit.reducedOptions o β)
    (o' := reorderStart τ (Fit.reducedOptions o β)) rfl rfl hr (h.beta β)]
  cases regressionCore env g d (Fit.reducedOptions o β) with
  | panic => exact .panic
  | diverge => exact .diverge
  | err e => exact .err trivial
  | ok r => exact .ok (h.sameFit g r.1 r.2).deviance.symm

/-- Without a standardizer the two scales are the same. -/
theorem relabelsExt_bare {p' : ℕ} {b' : Bool} {τ : Fin (ncols b' p') ≃ Fin (ncols b p)}
    {d : Dataset ℝ n p b} {d' : Dataset ℝ n p' b'} (h : Relabels τ d d') (hs : d.standardizer = none)
    (hs' : d'.standardizer = none) : RelabelsExt τ d d' := by
  have hx : ∀ {p : ℕ} {b : Bool} (d : Dataset ℝ n p b), d.standardizer = none → d.xExt = d.x := by
    intro p b d hd
    funext i j
    cases b with
    | false => simp only [Dataset.xExt, Dataset.xOrig, hd]; rfl
    | true =>
      refine Fin.cases rfl (fun j => ?_) j
      simp only [Dataset.xExt, Dataset.xOrig, hd, Fin.cons_succ]; rfl
  have h1 : ∀ {p : ℕ} {b : Bool} (d : Dataset ℝ n p b), d.standardizer = none →
      ∀ γ, d.inverseTransformBeta γ = γ := by
    intro p b d hd γ; cases b <;> simp only [Dataset.inverseTransformBeta, hd]
  have h2 : ∀ {p : ℕ} {b : Bool} (d : Dataset ℝ n p b), d.standardizer = none →
      ∀ γ, d.transformBeta γ = γ := by
    intro p b d hd γ; cases b <;> simp only [Dataset.transformBeta, hd]
  have h3 : ∀ {p : ℕ} {b : Bool} (d : Dataset ℝ n p b), d.standardizer = none →
      ∀ γ, d.inverseTransformFisher γ = γ := by
    intro p b d hd γ; cases b <;> simp only [Dataset.inverseTransformFisher, hd]
  have h4 : ∀ {p : ℕ} {b : Bool} (d : Dataset ℝ n p b), d.standardizer = none →
      ∀ γ, d.inverseTransformScore γ = γ := by
    intro p b d hd γ; cases b <;> simp only [Dataset.inverseTransformScore, hd]
  exact
    { toRelabels := h
      inv := fun γ => by rw [h1 _ hs', h1 _ hs]
      beta := fun γ => by rw [h2 _ hs', h2 _ hs]
      fisher := fun γ => by rw [h3 _ hs', h3 _ hs]
      score := fun γ => by rw [h4 _ hs', h4 _ hs]
      xExt := fun i j => by rw [hx _ hs', hx _ hs, h.x] }

/-- What remains of a reordering when one entry is left out on both sides. -/
def dropOrder {m : ℕ} (σ : Equiv.Perm (Fin (m + 1))) (j : Fin (m + 1)) : Equiv.Perm (Fin m) :=
  (finSuccAboveEquiv j).trans
    ((σ.subtypeEquiv fun a => by simp).trans (finSuccAboveEquiv (σ j)).symm)

theorem dropOrder_spec {m : ℕ} (σ : Equiv.Perm (Fin (m + 1))) (j : Fin (m + 1)) (k : Fin m) :
    (σ j).succAbove (dropOrder σ j k) = σ (j.succAbove k) := by
  have h : finSuccAboveEquiv (σ j) (dropOrder σ j k)
      = σ.subtypeEquiv (q := fun x => x ≠ σ j) (fun a => by simp) (finSuccAboveEquiv j k) :=
    Equiv.apply_symm_apply _ _
  exact congrArg Subtype.val h

theorem getReg_first (τ : Equiv.Perm (Fin (p + 1))) (h0 : τ 0 = 0)
    (o : FitOptions ℝ (ncols true p)) :
    getReg (b := true) (p := p) (reorderStart (k := p + 1) (k' := p + 1) τ o)
      = (getReg (b := true) (p := p) o).reorder τ := by
  have hz : ∀ a : ℝ, (zeroFirstMaybe (b := true) (p := p) (vfill a))
      = fun j => zeroFirstMaybe (b := true) (p := p) (vfill a) (τ j) := by
    intro a
    funext j
    refine Fin.cases ?_ (fun j => ?_) j
    · rw [h0]
    · obtain ⟨i, hi⟩ : ∃ i : Fin p, τ j.succ = i.succ := by
        refine Fin.exists_succ_eq.mpr ?_ |>.imp fun i hi => hi.symm
        intro h
        rw [← h0] at h
        exact Fin.succ_ne_zero j (τ.injective h)
      rw [hi]
      rfl
  have h1 : (reorderStart (k := p + 1) (k' := p + 1) τ o).l1 = o.l1 := rfl
  have h2 : (reorderStart (k := p + 1) (k' := p + 1) τ o).l2 = o.l2 := rfl
  simp only [getReg, h1, h2]
  cases gt o.l1 0 <;> cases gt o.l2 0 <;>
    simp only [Bool.and_true, Bool.and_false, Bool.false_eq_true, if_true, if_false, Reg.reorder,
      Bool.and_self] <;> simp only [← hz] <;> rfl

namespace Reordered
variable {σ : Equiv.Perm (Fin p)} {f f' : Fit ℝ n p b}

/-- The deviance without one of the parameters goes along with the parameter. -/
theorem devWithoutCovariate (h : Reordered σ f f') {env : Env ℝ}
    (he : ∀ {k k' : ℕ} (τ : Fin k' ≃ Fin k), OrderFree τ env)
    (hp : b = true ∨ f.options.l1 ≤ 0 ∧ f.options.l2 ≤ 0) (j : Fin (ncols b p)) :
    Related (fun _ _ => True) (· = ·) (f.devWithoutCovariate env (coefOrder σ b j))
      (f'.devWithoutCovariate env j) := by
  have hg := h.g
  have hres := h.same.result
  have hy : f'.data.y = f.data.y := by rw [h.data]; rfl
  have hoff : f'.data.linearOffset = f.data.linearOffset := by rw [h.data]; rfl
  have hw : f'.data.weights = f.data.weights := by rw [h.data]; rfl
  have hfr : f'.data.freqs = f.data.freqs := by rw [h.data]; rfl
  have hx : ∀ i j, f'.data.x i j = f.data.x i (coefOrder σ b j) := by
    intro i j; rw [h.data]; rfl
  have hxe : ∀ i j, f'.data.xExt i j = f.data.xExt i (coefOrder σ b j) := by
    intro i j; rw [h.data]; exact (reorderDesign_relabels σ f.data).xExt i j
  have ht : f'.options.tol = f.options.tol := by rw [h.options]; rfl
  have hm : f'.options.maxIter = f.options.maxIter := by rw [h.options]; rfl
  have h1 : f'.options.l1 = f.options.l1 := by rw [h.options]; rfl
  have h2 : f'.options.l2 = f.options.l2 := by rw [h.options]; rfl
  cases b with
  | true =>
    have hint : Related (fun _ _ => True) (· = ·) (f.devWithoutIntercept env)
        (f'.devWithoutIntercept env) := by
      unfold Fit.devWithoutIntercept
      rw [hg, hres]
      refine reducedDeviance_related (τ := coefOrder σ false) (relabelsExt_bare ?_ rfl rfl) (he _) f.g
        ht hm h1 h2 (fun j => f.result (j.succ : Fin (p + 1))) (getReg_reorder σ _)
      exact { y := hy, offset := hoff, weights := hw, freqs := hfr
              x := fun i j => hxe i (j.succ : Fin (p + 1)) }
    cases p with
    | zero => exact hint
    | succ p =>
      refine Fin.cases hint (fun j => ?_) j
      change Related (fun _ _ => True) (· = ·) (f.devWithoutFeature env (σ j))
        (f'.devWithoutFeature env j)
      have hstd : f'.resultStd = fun j => f.resultStd (coefOrder σ true j) := h.std
      set τ : Equiv.Perm (Fin (p + 1)) :=
        dropOrder (coefOrder σ true : Equiv.Perm (Fin (p + 2))) (j.succ : Fin (p + 2)) with hτ
      have hspec : ∀ k : Fin (p + 1), ((σ j).succ : Fin (p + 2)).succAbove (τ k)
          = coefOrder σ true ((j.succ : Fin (p + 2)).succAbove k) :=
        fun k => dropOrder_spec (coefOrder σ true : Equiv.Perm (Fin (p + 2))) (j.succ : Fin (p + 2)) k
      have h0 : τ 0 = 0 := by
        have h := hspec 0
        rw [Fin.succ_succAbove_zero] at h
        rw [← Fin.succ_succAbove_zero (σ j)] at h
        exact Fin.succAbove_right_injective h
      unfold Fit.devWithoutFeature
      rw [hg, hstd]
      dsimp only
      have hβ : (fun k : Fin (p + 1) => f.resultStd
            (coefOrder σ true ((j.succ : Fin (p + 2)).succAbove k)))
          = fun k => (fun k : Fin (p + 1) => f.resultStd (((σ j).succ : Fin (p + 2)).succAbove k)) (τ k) :=
        funext fun k => congrArg f.resultStd (hspec k).symm
      rw [hβ]
      refine reducedDeviance_related (b := true) (b' := true) (p := p) (p' := p) (τ := τ)
        (relabelsExt_bare ?_ rfl rfl) (he _) f.g ht hm h1 h2
        (fun k : Fin (p + 1) => f.resultStd (((σ j).succ : Fin (p + 2)).succAbove k))
        (getReg_first τ h0 _)
      exact { y := hy, offset := hoff, weights := hw, freqs := hfr
              x := fun i k => by
                change f'.data.x i ((j.succ : Fin (p + 2)).succAbove k)
                  = f.data.x i (((σ j).succ : Fin (p + 2)).succAbove (τ k))
                rw [hx, hspec] }
  | false =>
    obtain ⟨hl1, hl2⟩ : f.options.l1 ≤ 0 ∧ f.options.l2 ≤ 0 := by simpa using hp
    match p, σ, f, f', h, hg, hres, hy, hoff, hw, hfr, hx, hxe, ht, hm, h1, h2, hp, j with
    | 0, _, _, _, _, _, _, _, _, _, _, _, _, _, _, _, _, _, j => exact j.elim0
    | 1, σ, f, f', h, hg, hres, hy, hoff, hw, hfr, hx, hxe, ht, hm, h1, h2, hp, j =>
      change Related (fun _ _ => True) (· = ·) (f.devWithoutOnlyColumn env)
        (f'.devWithoutOnlyColumn env)
      have : f'.devWithoutOnlyColumn env = f.devWithoutOnlyColumn env := by
        unfold Fit.devWithoutOnlyColumn
        rw [h1, h2, hg, hy, hoff, hw, hfr]
        simp only [Fit.reducedOptions, ht, hm, h1, h2]
      rw [this]
      cases f.devWithoutOnlyColumn env with
      | ok v => exact .ok rfl
      | err e => exact .err trivial
      | panic => exact .panic
      | diverge => exact .diverge
    | p + 2, σ, f, f', h, hg, hres, hy, hoff, hw, hfr, hx, hxe, ht, hm, h1, h2, hp, j =>
      change Related (fun _ _ => True) (· = ·) (f.devWithoutColumn env (σ j))
        (f'.devWithoutColumn env j)
      have hstd : f'.resultStd = fun j => f.resultStd (σ j) := h.std
      have hspec := dropOrder_spec σ j
      unfold Fit.devWithoutColumn
      rw [hg, hstd]
      dsimp only
      have hβ : (fun k : Fin (p + 1) => f.resultStd (σ (j.succAbove k)))
          = fun k => (fun k : Fin (p + 1) => f.resultStd ((σ j).succAbove k)) (dropOrder σ j k) :=
        funext fun k => congrArg f.resultStd (hspec k).symm
      rw [hβ]
      refine reducedDeviance_related (b := true) (b' := true) (p := p) (p' := p)
        (τ := dropOrder σ j) (relabelsExt_bare ?_ rfl rfl) (he _) f.g ht hm h1 h2
        (fun k : Fin (p + 1) => f.resultStd ((σ j).succAbove k)) ?_
      · exact { y := hy, offset := hoff, weights := hw, freqs := hfr
                x := fun i k => by
                  change f'.data.x i (j.succAbove k) = f.data.x i ((σ j).succAbove (dropOrder σ j k))
                  rw [hx, hspec]; rfl }
      · rw [getReg_null (b := true) (p := p) (o := Fit.reducedOptions _ _) hl1 hl2]
        exact getReg_null (b := true) (p := p) (o := reorderStart _ (Fit.reducedOptions _ _)) hl1 hl2

theorem pvalueExactAt (h : Reordered σ f f') (ds : Dists ℝ) {env : Env ℝ}
    (he : ∀ {k k' : ℕ} (τ : Fin k' ≃ Fin k), OrderFree τ env)
    (hp : b = true ∨ f.options.l1 ≤ 0 ∧ f.options.l2 ≤ 0) (j : Fin (ncols b p)) :
    Related (fun _ _ => True) (· = ·) (f.pvalueExactAt ds env (coefOrder σ b j))
      (f'.pvalueExactAt ds env j) := by
  have hd := h.devWithoutCovariate he hp j
  unfold Fit.pvalueExactAt
  rw [h.same.deviance, h.same.dispersion, h.same.ndf, h.g]
  generalize f.devWithoutCovariate env (coefOrder σ b j) = u at hd
  generalize f'.devWithoutCovariate env j = v at hd
  cases hd with
  | panic => exact .panic
  | diverge => exact .diverge
  | err _ => exact .err trivial
  | @ok x y hxy =>
    subst hxy
    simp only [Outcome.bind]
    cases f.g.dispersed with
    | none => cases ds.chi2 1 <;> first | exact .panic | exact .ok rfl
    | free => cases ds.fisherSnedecor 1 f.ndf <;> first | exact .panic | exact .ok rfl

end Reordered

/-- The exact p-values move with the coefficients as well, for a model with an intercept or without a
penalty.  (Without an intercept, `dev_without_covariate` exempts the first remaining feature from the
penalty, so there the order matters.) -/
theorem C74_pvalue_exact (σ : Equiv.Perm (Fin p)) {raw : Dataset ℝ n p false} {std : Bool}
    {d : Dataset ℝ n p b} (hd : raw.finalize std b = some d) {env : Env ℝ}
    (he : ∀ {k k' : ℕ} (τ : Fin k' ≃ Fin k), OrderFree τ env) (g : Glm ℝ)
    {o : FitOptions ℝ (ncols b p)} (hp : b = true ∨ o.l1 ≤ 0 ∧ o.l2 ≤ 0) {f : Fit ℝ n p b}
    (hf : regression env g d o = .ok f) :
    ∃ d' f', (permuteFeatures σ raw).finalize std b = some d' ∧
      regression env g d' (reorderStart (coefOrder σ b) o) = .ok f' ∧
      ∀ ds : Dists ℝ,
        (∀ j, Related (fun _ _ => True) (· = ·) (f.pvalueExactAt ds env (coefOrder σ b j))
          (f'.pvalueExactAt ds env j)) ∧
        ∀ v, f.pvalueExact ds env = .ok v →
          f'.pvalueExact ds env = .ok fun j => v (coefOrder σ b j) := by
  unfold regression at hf
  cases hc : regressionCore env g d o with
  | panic => rw [hc] at hf; cases hf
  | diverge => rw [hc] at hf; cases hf
  | err e => rw [hc] at hf; cases hf
  | ok r =>
    rw [hc] at hf
    cases hf
    have hR : Reordered σ (Fit.new g d o r.1 r.2) (Fit.new g (reorderDesign σ d)
        (reorderStart (coefOrder σ b) o) (reorderStep (coefOrder σ b) r.1)
        (r.2.reorder (coefOrder σ b))) :=
      ⟨(reorderDesign_relabels σ d).sameFit g r.1 r.2, rfl, rfl, rfl, rfl⟩
    refine ⟨reorderDesign σ d, _, by rw [permuteFeatures_finalize, hd]; rfl, ?_, fun ds => ⟨fun j =>
      hR.pvalueExactAt ds he hp j, fun v hv => ?_⟩⟩
    · unfold regression
      rw [reorder_core σ (he _), hc]
      rfl
    · unfold Fit.pvalueExact at hv ⊢
      rw [seqOutcome_ok] at hv ⊢
      intro j
      have h := hR.pvalueExactAt ds he hp j
      rw [hv] at h
      generalize (Fit.pvalueExactAt ds env _ j) = u at h
      cases h with
      | ok h => rw [h]

example {k k' : ℕ} (τ : Fin k' ≃ Fin k) :
    OrderFree τ (exactEnv (1 / 1000) 5) := exactEnv_orderFree _ _ _

end GLM
