/-
  Floating-point values up to the sign of zero and of not-a-number: the log-likelihoods do not
  depend on these signs, and `total_cmp` is a total order.
-/
import Verif.Lemmas.Ieee
import Mathlib.Data.Prod.Lex

namespace GLM
open Scalar

variable {fmt : FloatFormat} {n p : ℕ} {b : Bool}

namespace Fl

/-- Equal up to the sign of zero and of not-a-number. -/
def same (x y : Fl fmt) : Prop := (x.isNaN ↔ y.isNaN) ∧ (¬ x.isNaN → x.val = y.val)

theorem same_refl (x : Fl fmt) : same x x := ⟨Iff.rfl, fun _ => rfl⟩

theorem same_symm {x y : Fl fmt} (h : same x y) : same y x :=
  ⟨h.1.symm, fun hy => (h.2 (fun hx => hy (h.1.mp hx))).symm⟩

variable {x y x' y' : Fl fmt}

theorem same_neg (h : same x x') : same (-x) (-x') := by
  refine ⟨by rw [isNaN_neg, isNaN_neg]; exact h.1, fun hn => ?_⟩
  rw [isNaN_neg] at hn
  rw [val_neg, val_neg, h.2 hn]

/-- A binary operation whose invalid cases and values depend on the values only. -/
theorem same_op {op : Fl fmt → Fl fmt → Fl fmt} {bad : EReal → EReal → Prop} {r : EReal → EReal → EReal}
    (h1 : ∀ x y, (op x y).isNaN ↔ x.isNaN ∨ y.isNaN ∨ bad x.val y.val)
    (h2 : ∀ x y, ¬ (op x y).isNaN → (op x y).val = r x.val y.val)
    (hx : same x x') (hy : same y y') : same (op x y) (op x' y') := by
  have hi : (op x y).isNaN ↔ (op x' y').isNaN := by
    rw [h1, h1]
    by_cases a : x.isNaN
    · exact ⟨fun _ => Or.inl (hx.1.mp a), fun _ => Or.inl a⟩
    by_cases c : y.isNaN
    · exact ⟨fun _ => Or.inr (Or.inl (hy.1.mp c)), fun _ => Or.inr (Or.inl c)⟩
    rw [hx.2 a, hy.2 c, hx.1, hy.1]
  refine ⟨hi, fun hn => ?_⟩
  have hn' : ¬ (op x' y').isNaN := fun h => hn (hi.mpr h)
  rw [h2 _ _ hn, h2 _ _ hn']
  rw [h1] at hn
  push Not at hn
  rw [hx.2 hn.1, hy.2 hn.2.1]

theorem same_add (hx : same x x') (hy : same y y') : same (x + y) (x' + y') :=
  same_op (bad := fun u v => (u = ⊤ ∧ v = ⊥) ∨ (u = ⊥ ∧ v = ⊤)) (r := fun u v => fmt.rnd (u + v))
    (fun _ _ => isNaN_add) (fun _ _ => val_add) hx hy

theorem same_sub (hx : same x x') (hy : same y y') : same (x - y) (x' - y') :=
  same_op (bad := fun u v => (u = ⊤ ∧ v = ⊤) ∨ (u = ⊥ ∧ v = ⊥)) (r := fun u v => fmt.rnd (u - v))
    (fun _ _ => isNaN_sub) (fun _ _ => val_sub) hx hy

theorem same_mul (hx : same x x') (hy : same y y') : same (x * y) (x' * y') :=
  same_op (bad := fun u v => (u = 0 ∧ (v = ⊤ ∨ v = ⊥)) ∨ ((u = ⊤ ∨ u = ⊥) ∧ v = 0))
    (r := fun u v => fmt.rnd (u * v)) (fun _ _ => isNaN_mul) (fun _ _ => val_mul) hx hy

/-- A function whose invalid cases and values depend on the value only. -/
theorem same_fun {op : Fl fmt → Fl fmt} {bad : EReal → Prop} {r : EReal → EReal}
    (h1 : ∀ x, (op x).isNaN ↔ x.isNaN ∨ bad x.val)
    (h2 : ∀ x, ¬ (op x).isNaN → (op x).val = r x.val) (hx : same x x') : same (op x) (op x') := by
  have hi : (op x).isNaN ↔ (op x').isNaN := by
    rw [h1, h1]
    by_cases a : x.isNaN
    · exact ⟨fun _ => Or.inl (hx.1.mp a), fun _ => Or.inl a⟩
    rw [hx.2 a, hx.1]
  refine ⟨hi, fun hn => ?_⟩
  have hn' : ¬ (op x').isNaN := fun h => hn (hi.mpr h)
  rw [h2 _ hn, h2 _ hn']
  rw [h1] at hn
  push Not at hn
  rw [hx.2 hn.1]

theorem same_exp (hx : same x x') : same (Scalar.exp x) (Scalar.exp x') :=
  same_fun (bad := fun _ => False) (r := fmt.exp) (fun _ => by rw [isNaN_exp, or_false])
    (fun _ h => val_exp (by rwa [isNaN_exp] at h)) hx

theorem same_expm1 (hx : same x x') : same (Scalar.expm1 x) (Scalar.expm1 x') :=
  same_fun (bad := fun _ => False) (r := fmt.expm1) (fun _ => by rw [isNaN_expm1, or_false])
    (fun _ h => val_expm1 (by rwa [isNaN_expm1] at h)) hx

theorem same_ln (hx : same x x') : same (Scalar.ln x) (Scalar.ln x') :=
  same_fun (bad := fun v => v < 0) (r := fmt.ln) (fun _ => isNaN_ln) (fun _ => val_ln) hx

theorem same_ln1p (hx : same x x') : same (Scalar.ln1p x) (Scalar.ln1p x') :=
  same_fun (bad := fun v => v < -1) (r := fmt.ln1p) (fun _ => isNaN_ln1p) (fun _ => val_ln1p) hx

theorem same_sqrt (hx : same x x') : same (Scalar.sqrt x) (Scalar.sqrt x') :=
  same_fun (bad := fun v => v < 0) (r := fun v => fmt.rnd (esqrt v)) (fun _ => isNaN_sqrt)
    (fun _ => val_sqrt) hx

theorem same_lt (hx : same x x') (hy : same y y') : Scalar.lt x y = Scalar.lt x' y' := by
  rw [Bool.eq_iff_iff, lt_iff, lt_iff]
  by_cases a : x.isNaN
  · exact ⟨fun h => absurd a h.1, fun h => absurd (hx.1.mp a) h.1⟩
  by_cases c : y.isNaN
  · exact ⟨fun h => absurd c h.2.1, fun h => absurd (hy.1.mp c) h.2.1⟩
  rw [hx.2 a, hy.2 c, hx.1, hy.1]

theorem same_gt (hx : same x x') (hy : same y y') : Scalar.gt x y = Scalar.gt x' y' := by
  unfold Scalar.gt
  exact same_lt hy hx

theorem same_vsum {v w : Vec (Fl fmt) n} (h : ∀ i, same (v i) (w i)) : same (vsum v) (vsum w) :=
  SumTree.eval_rel (R := same) (same_refl _) h (fun _ _ _ _ => same_add)
    (fun i _ _ ha => same_add ha (h i)) _

theorem same_fma {z z' : Fl fmt} (hx : same x x') (hy : same y y') (hz : same z z') :
    same (Scalar.fma x y z) (Scalar.fma x' y' z') := by
  have hi : (Scalar.fma x y z).isNaN ↔ (Scalar.fma x' y' z').isNaN := by
    rw [isNaN_fma, isNaN_fma]
    by_cases a : x.isNaN
    · exact ⟨fun _ => Or.inl (hx.1.mp a), fun _ => Or.inl a⟩
    by_cases c : y.isNaN
    · exact ⟨fun _ => Or.inr (Or.inl (hy.1.mp c)), fun _ => Or.inr (Or.inl c)⟩
    by_cases d : z.isNaN
    · exact ⟨fun _ => Or.inr (Or.inr (Or.inl (hz.1.mp d))), fun _ => Or.inr (Or.inr (Or.inl d))⟩
    rw [hx.2 a, hy.2 c, hz.2 d, hx.1, hy.1, hz.1]
  refine ⟨hi, fun hn => ?_⟩
  have hn' : ¬ (Scalar.fma x' y' z').isNaN := fun h => hn (hi.mpr h)
  rw [val_fma hn, val_fma hn']
  rw [isNaN_fma] at hn
  push Not at hn
  rw [hx.2 hn.1, hy.2 hn.2.1, hz.2 hn.2.2.1]

theorem same_vdotBy {site : SumSite} {u v u' v' : Vec (Fl fmt) n} (hu : ∀ i, same (u i) (u' i))
    (hv : ∀ i, same (v i) (v' i)) : same (vdotBy site u v) (vdotBy site u' v') :=
  SumTree.eval_rel (R := same) (same_refl _) (fun i => same_mul (hu i) (hv i))
    (fun _ _ _ _ => same_add) (fun i _ _ ha => same_fma (hu i) (hv i) ha) _

end Fl

open Fl

theorem logisticLogLikeNatural_eq (y t : Fl fmt) : logisticLogLikeNatural y t =
    if lt t 0 then y * t - ln1p (exp t) else (1 - y) * (-t) - ln1p (exp (-t)) := by
  unfold logisticLogLikeNatural
  cases lt t 0 <;> rfl

/-- One term of the log-likelihood of a family as a function of the predictor. -/
theorem Family.term_same (fam : Family) (y : Fl fmt) {w w' : Fl fmt} (h : same w w') :
    same (fam.glm.logLikeNatural y (fam.glm.link.natParam w))
      (fam.glm.logLikeNatural y (fam.glm.link.natParam w')) := by
  have hlog : ∀ {t t' : Fl fmt}, same t t' →
      same (logisticLogLikeNatural y t) (logisticLogLikeNatural y t') := by
    intro t t' ht
    rw [logisticLogLikeNatural_eq, logisticLogLikeNatural_eq, same_lt ht (same_refl 0)]
    split
    · exact same_sub (same_mul (same_refl _) ht) (same_ln1p (same_exp ht))
    · exact same_sub (same_mul (same_refl _) (same_neg ht)) (same_ln1p (same_exp (same_neg ht)))
  have hdef : ∀ {A : Fl fmt → Fl fmt} {t t' : Fl fmt}, same t t' → same (A t) (A t') →
      same (defaultLogLikeNatural A y t) (defaultLogLikeNatural A y t') := fun ht hA =>
    same_sub (same_mul (same_refl _) ht) hA
  have hgam : ∀ {t t' : Fl fmt}, same t t' → same (gammaLogPartition t) (gammaLogPartition t') :=
    fun ht => same_neg (same_ln (same_neg ht))
  have hinv : ∀ {t t' : Fl fmt}, same t t' →
      same (invGaussLogPartition t) (invGaussLogPartition t') :=
    fun ht => same_neg (same_sqrt (same_mul (same_refl _) ht))
  cases fam with
  | linear => exact hdef h (same_mul (same_mul (same_refl _) h) h)
  | logisticLogit => exact hlog h
  | logisticCloglog => exact hlog (same_ln (same_expm1 (same_exp h)))
  | poisson => exact hdef h (same_exp h)
  | binomial N => exact hdef h (same_mul (same_refl _) (same_ln1p (same_exp h)))
  | exponentialNegRec => exact hdef h (hgam h)
  | exponentialLog => exact hdef (same_neg (same_exp (same_neg h))) (hgam (same_neg (same_exp (same_neg h))))
  | gammaNegRec => exact hdef h (hgam h)
  | gammaLog => exact hdef (same_neg (same_exp (same_neg h))) (hgam (same_neg (same_exp (same_neg h))))
  | invGaussNegRecSq => exact hdef h (hinv h)
  | invGaussLog =>
    have h' : same (-half * exp (-two * w)) (-half * exp (-two * w') : Fl fmt) :=
      same_mul (same_refl _) (same_exp (same_mul (same_refl _) h))
    exact hdef h' (hinv h')

/-- A predictor that is not-a-number gives a term that is not-a-number. -/
theorem Family.term_nan (fam : Family) (y : Fl fmt) {w : Fl fmt} (h : w.isNaN) :
    (fam.glm.logLikeNatural y (fam.glm.link.natParam w) : Fl fmt).isNaN := by
  have hlog : ∀ {t : Fl fmt}, t.isNaN → (logisticLogLikeNatural y t).isNaN := by
    intro t ht
    rw [logisticLogLikeNatural_eq]
    split
    · exact isNaN_sub.mpr (Or.inl (isNaN_mul.mpr (Or.inr (Or.inl ht))))
    · exact isNaN_sub.mpr (Or.inl (isNaN_mul.mpr (Or.inr (Or.inl (isNaN_neg.mpr ht)))))
  have hdef : ∀ {A : Fl fmt → Fl fmt} {t : Fl fmt}, t.isNaN →
      (defaultLogLikeNatural A y t).isNaN := fun ht =>
    isNaN_sub.mpr (Or.inl (isNaN_mul.mpr (Or.inr (Or.inl ht))))
  cases fam with
  | logisticLogit => exact hlog h
  | logisticCloglog => exact hlog (isNaN_ln.mpr (Or.inl (isNaN_expm1.mpr (isNaN_exp.mpr h))))
  | exponentialLog => exact hdef (isNaN_neg.mpr (isNaN_exp.mpr (isNaN_neg.mpr h)))
  | gammaLog => exact hdef (isNaN_neg.mpr (isNaN_exp.mpr (isNaN_neg.mpr h)))
  | invGaussLog =>
    exact hdef (isNaN_mul.mpr (Or.inr (Or.inl (isNaN_exp.mpr (isNaN_mul.mpr (Or.inr (Or.inl h)))))))
  | _ => exact hdef h

namespace Fl

/-! ### The total order -/

/-- The sign bit, positive above negative. -/
noncomputable def bit (x : Fl fmt) : ℕ := if x.neg? then 0 else 1

/-- The position in the total order. -/
noncomputable def key (x : Fl fmt) : ℕ ×ₗ (EReal ×ₗ ℕ) := toLex (x.place, toLex (x.val, x.bit))

theorem totalCmp_key (x y : Fl fmt) : Scalar.totalCmp x y = compare x.key y.key := by
  have hkey : ∀ x y : Fl fmt, x.key < y.key ↔
      x.place < y.place ∨ x.place = y.place ∧ (x.val < y.val ∨ x.val = y.val ∧ x.bit < y.bit) := by
    intro x y
    unfold key
    rw [Prod.Lex.toLex_lt_toLex, Prod.Lex.toLex_lt_toLex]
  have hbit : ∀ x y : Fl fmt, x.bit < y.bit ↔ x.neg? = true ∧ y.neg? = false := by
    intro x y
    unfold bit
    cases x.neg? <;> cases y.neg? <;> simp
  change (if x.place < y.place then Ordering.lt else if y.place < x.place then .gt
    else if x.val < y.val then .lt else if y.val < x.val then .gt
    else if x.neg? = y.neg? then .eq else if x.neg? then .lt else .gt) = _
  symm
  split
  · rename_i h; exact compare_lt_iff_lt.mpr ((hkey _ _).mpr (Or.inl h))
  rename_i h1
  split
  · rename_i h; exact compare_gt_iff_gt.mpr ((hkey _ _).mpr (Or.inl h))
  rename_i h2
  have e1 : x.place = y.place := by omega
  split
  · rename_i h; exact compare_lt_iff_lt.mpr ((hkey _ _).mpr (Or.inr ⟨e1, Or.inl h⟩))
  rename_i h3
  split
  · rename_i h; exact compare_gt_iff_gt.mpr ((hkey _ _).mpr (Or.inr ⟨e1.symm, Or.inl h⟩))
  rename_i h4
  have e2 : x.val = y.val := le_antisymm (not_lt.mp h4) (not_lt.mp h3)
  split
  · rename_i h
    refine compare_eq_iff_eq.mpr ?_
    unfold key bit
    rw [e1, e2, h]
  rename_i h5
  split
  · rename_i h
    refine compare_lt_iff_lt.mpr ((hkey _ _).mpr (Or.inr ⟨e1, Or.inr ⟨e2, (hbit _ _).mpr ⟨h, ?_⟩⟩⟩))
    cases hy : y.neg?
    · rfl
    · exact absurd (h.trans hy.symm) h5
  · rename_i h
    refine compare_gt_iff_gt.mpr ((hkey _ _).mpr (Or.inr ⟨e1.symm, Or.inr ⟨e2.symm, (hbit _ _).mpr ⟨?_, by simpa using h⟩⟩⟩))
    cases hy : y.neg?
    · exact absurd ((by simpa using h : x.neg? = false).trans hy.symm) h5
    · rfl

instance instTransCmpFl : Std.TransCmp (Scalar.totalCmp : Fl fmt → Fl fmt → Ordering) where
  eq_swap := by intro a c; rw [totalCmp_key, totalCmp_key]; exact Std.OrientedCmp.eq_swap
  isLE_trans := by
    intro a c e
    rw [totalCmp_key, totalCmp_key, totalCmp_key]; exact Std.TransCmp.isLE_trans

end Fl

end GLM
