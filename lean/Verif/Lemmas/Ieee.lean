/-
  Rules of calculation for the floating-point arithmetic of `Verif.Spec.Ieee`.
-/
import Verif.Spec.Ieee
import Verif.Lemmas.Sum

namespace GLM
namespace FloatFormat
variable (fmt : FloatFormat)

theorem rnd_zero : fmt.rnd 0 = 0 := by
  have h := fmt.rnd_neg 0
  rw [neg_zero] at h
  have h1 : (0 : EReal) ≤ 1 := zero_le_one
  have hle : fmt.rnd 0 ≤ 1 := fmt.rnd_one ▸ fmt.rnd_mono h1
  have hge : (-1 : EReal) ≤ fmt.rnd 0 := by
    have := fmt.rnd_neg 1
    rw [fmt.rnd_one] at this
    rw [← this]
    exact fmt.rnd_mono (by norm_num)
  revert h hle hge
  generalize fmt.rnd 0 = r
  intro h hle hge
  induction r with
  | bot => simp at h
  | top => simp at h
  | coe r =>
    rw [← EReal.coe_neg, EReal.coe_eq_coe_iff] at h
    have : r = 0 := by linarith
    rw [this]; rfl

theorem rnd_bot : fmt.rnd ⊥ = ⊥ := by
  have := fmt.rnd_neg ⊤
  rwa [fmt.rnd_top, EReal.neg_top] at this

theorem rnd_nonneg {v : EReal} (h : 0 ≤ v) : 0 ≤ fmt.rnd v :=
  fmt.rnd_zero ▸ fmt.rnd_mono h

theorem rnd_nonpos {v : EReal} (h : v ≤ 0) : fmt.rnd v ≤ 0 := by
  rw [← fmt.rnd_zero]; exact fmt.rnd_mono h

theorem one_le_rnd {v : EReal} (h : 1 ≤ v) : 1 ≤ fmt.rnd v :=
  fmt.rnd_one ▸ fmt.rnd_mono h

theorem rnd_le_one {v : EReal} (h : v ≤ 1) : fmt.rnd v ≤ 1 := by
  rw [← fmt.rnd_one]; exact fmt.rnd_mono h

end FloatFormat

namespace Fl
open Classical
variable {fmt : FloatFormat} {x y : Fl fmt}

@[simp] theorem isNaN_nan (s : Bool) : (nan s : Fl fmt).isNaN := trivial
@[simp] theorem isNaN_negZero : ¬ (negZero : Fl fmt).isNaN := id
@[simp] theorem isNaN_num (v : EReal) : ¬ (num v : Fl fmt).isNaN := id
@[simp] theorem isNaN_invalid : (invalid : Fl fmt).isNaN := trivial
@[simp] theorem val_num (v : EReal) : (num v : Fl fmt).val = v := rfl
@[simp] theorem val_negZero : (negZero : Fl fmt).val = 0 := rfl

@[simp] theorem val_mk (s : Bool) (v : EReal) : (mk s v : Fl fmt).val = v := by
  unfold mk
  split
  · rename_i h; cases s <;> simp [h]
  · rfl

@[simp] theorem isNaN_mk (s : Bool) (v : EReal) : ¬ (mk s v : Fl fmt).isNaN := by
  unfold mk
  split
  · cases s <;> simp
  · simp

theorem neg_of_val_neg (hx : ¬ x.isNaN) (h : x.val < 0) : x.neg? = true := by
  cases x with
  | nan => simp at hx
  | negZero => rfl
  | num v => simpa [neg?] using h

theorem neg_of_val_pos (h : 0 < x.val) : x.neg? = false := by
  cases x with
  | nan => simp [val] at h
  | negZero => simp [val] at h
  | num v => simpa [neg?] using h.le

/-! ### The constants and the operators -/

@[simp] theorem zero_def : (0 : Fl fmt) = num 0 := rfl
@[simp] theorem one_def : (1 : Fl fmt) = num 1 := rfl
theorem ofNat_def (n : ℕ) : (Scalar.ofNat n : Fl fmt) = num (fmt.rnd (n : ℝ)) := rfl
theorem add_def : x + y = plus x y := rfl
theorem sub_def : x - y = plus x (opp y) := rfl
theorem mul_def : x * y = times x y := rfl
theorem div_def : x / y = over x y := rfl
theorem neg_def : -x = opp x := rfl

@[simp] theorem isNaN_opp : (opp x).isNaN ↔ x.isNaN := by
  cases x <;> simp [opp]

@[simp] theorem val_opp : (opp x).val = -x.val := by
  cases x with
  | nan => simp [opp, val]
  | negZero => simp [opp]
  | num v => exact val_mk _ _

@[simp] theorem isNaN_neg : (-x).isNaN ↔ x.isNaN := isNaN_opp
@[simp] theorem val_neg : (-x).val = -x.val := val_opp

theorem isNaN_plus : (plus x y).isNaN ↔ x.isNaN ∨ y.isNaN ∨
    (x.val = ⊤ ∧ y.val = ⊥) ∨ (x.val = ⊥ ∧ y.val = ⊤) := by
  unfold plus
  split
  · rename_i h; simp; tauto
  · split
    · rename_i h; simp; tauto
    · split <;> simp <;> tauto

theorem val_plus (h : ¬ (plus x y).isNaN) : (plus x y).val = fmt.rnd (x.val + y.val) := by
  have h' := h
  rw [isNaN_plus] at h'
  push Not at h'
  unfold plus
  rw [if_neg (by tauto), if_neg (by tauto)]
  split
  · rename_i h0; rw [h0, fmt.rnd_zero]; simp
  · simp

theorem isNaN_add : (x + y).isNaN ↔ x.isNaN ∨ y.isNaN ∨
    (x.val = ⊤ ∧ y.val = ⊥) ∨ (x.val = ⊥ ∧ y.val = ⊤) := isNaN_plus

theorem val_add (h : ¬ (x + y).isNaN) : (x + y).val = fmt.rnd (x.val + y.val) := val_plus h

theorem isNaN_fma : (Scalar.fma x y z).isNaN ↔ x.isNaN ∨ y.isNaN ∨ z.isNaN ∨
    (x.val = 0 ∧ (y.val = ⊤ ∨ y.val = ⊥)) ∨ ((x.val = ⊤ ∨ x.val = ⊥) ∧ y.val = 0) ∨
    (x.val * y.val = ⊤ ∧ z.val = ⊥) ∨ (x.val * y.val = ⊥ ∧ z.val = ⊤) := by
  change (fused x y z).isNaN ↔ _
  unfold fused
  split
  · rename_i h; simp; tauto
  · split
    · rename_i h; simp; tauto
    · split
      · rename_i h; simp; tauto
      · split <;> simp <;> tauto

theorem val_fma (h : ¬ (Scalar.fma x y z).isNaN) :
    (Scalar.fma x y z).val = fmt.rnd (x.val * y.val + z.val) := by
  have h' := h
  rw [isNaN_fma] at h'
  push Not at h'
  change (fused x y z).val = _
  unfold fused
  rw [if_neg (by tauto), if_neg (by tauto), if_neg (by tauto)]
  split
  · rename_i h0; rw [h0, fmt.rnd_zero]; simp
  · simp

theorem isNaN_sub : (x - y).isNaN ↔ x.isNaN ∨ y.isNaN ∨
    (x.val = ⊤ ∧ y.val = ⊤) ∨ (x.val = ⊥ ∧ y.val = ⊥) := by
  rw [sub_def, isNaN_plus]; simp

theorem val_sub (h : ¬ (x - y).isNaN) : (x - y).val = fmt.rnd (x.val - y.val) := by
  rw [sub_def] at h ⊢
  rw [val_plus h, val_opp]; rfl

theorem isNaN_mul : (x * y).isNaN ↔ x.isNaN ∨ y.isNaN ∨
    (x.val = 0 ∧ (y.val = ⊤ ∨ y.val = ⊥)) ∨ ((x.val = ⊤ ∨ x.val = ⊥) ∧ y.val = 0) := by
  rw [mul_def]
  unfold times
  split
  · rename_i h; simp; tauto
  · split
    · rename_i h; simp; tauto
    · simp; tauto

theorem val_mul (h : ¬ (x * y).isNaN) : (x * y).val = fmt.rnd (x.val * y.val) := by
  have h' := h
  rw [isNaN_mul] at h'
  rw [mul_def]
  unfold times
  rw [if_neg (by tauto), if_neg (by tauto), val_mk]

theorem isNaN_div : (x / y).isNaN ↔ x.isNaN ∨ y.isNaN ∨
    (x.val = 0 ∧ y.val = 0) ∨ ((x.val = ⊤ ∨ x.val = ⊥) ∧ (y.val = ⊤ ∨ y.val = ⊥)) := by
  rw [div_def]
  unfold over
  split
  · rename_i h; simp; tauto
  · split
    · rename_i h; simp; tauto
    · split <;> simp <;> tauto

theorem val_div (h : ¬ (x / y).isNaN) (hy : y.val ≠ 0) :
    (x / y).val = fmt.rnd (x.val / y.val) := by
  have h' := h
  rw [isNaN_div] at h'
  rw [div_def]
  unfold over
  rw [if_neg (by tauto), if_neg (by tauto), if_neg hy, val_mk]

theorem isNaN_exp : (Scalar.exp x).isNaN ↔ x.isNaN := by
  change (if x.isNaN then invalid else num (fmt.exp x.val) : Fl fmt).isNaN ↔ _
  split <;> simp [*]

theorem val_exp (h : ¬ x.isNaN) : (Scalar.exp x).val = fmt.exp x.val := by
  change (if x.isNaN then invalid else num (fmt.exp x.val) : Fl fmt).val = _
  rw [if_neg h]; rfl

theorem isNaN_expm1 : (Scalar.expm1 x).isNaN ↔ x.isNaN := by
  change (if x.isNaN then invalid else mk x.neg? (fmt.expm1 x.val) : Fl fmt).isNaN ↔ _
  split <;> simp [*]

theorem val_expm1 (h : ¬ x.isNaN) : (Scalar.expm1 x).val = fmt.expm1 x.val := by
  change (if x.isNaN then invalid else mk x.neg? (fmt.expm1 x.val) : Fl fmt).val = _
  rw [if_neg h, val_mk]

theorem isNaN_ln : (Scalar.ln x).isNaN ↔ x.isNaN ∨ x.val < 0 := by
  change (if x.isNaN then invalid else if x.val < 0 then invalid
    else num (fmt.ln x.val) : Fl fmt).isNaN ↔ _
  split
  · simp [*]
  · split <;> simp [*]

theorem val_ln (h : ¬ (Scalar.ln x).isNaN) : (Scalar.ln x).val = fmt.ln x.val := by
  have h' := h
  rw [isNaN_ln] at h'
  change (if x.isNaN then invalid else if x.val < 0 then invalid
    else num (fmt.ln x.val) : Fl fmt).val = _
  rw [if_neg (by tauto), if_neg (by tauto)]; rfl

theorem isNaN_ln1p : (Scalar.ln1p x).isNaN ↔ x.isNaN ∨ x.val < -1 := by
  change (if x.isNaN then invalid else if x.val < -1 then invalid
    else mk x.neg? (fmt.ln1p x.val) : Fl fmt).isNaN ↔ _
  split
  · simp [*]
  · split <;> simp [*]

theorem val_ln1p (h : ¬ (Scalar.ln1p x).isNaN) : (Scalar.ln1p x).val = fmt.ln1p x.val := by
  have h' := h
  rw [isNaN_ln1p] at h'
  change (if x.isNaN then invalid else if x.val < -1 then invalid
    else mk x.neg? (fmt.ln1p x.val) : Fl fmt).val = _
  rw [if_neg (by tauto), if_neg (by tauto), val_mk]

theorem isNaN_sqrt : (Scalar.sqrt x).isNaN ↔ x.isNaN ∨ x.val < 0 := by
  change (if x.isNaN then invalid else if x.val < 0 then invalid
    else mk x.neg? (fmt.rnd (esqrt x.val)) : Fl fmt).isNaN ↔ _
  split
  · simp [*]
  · split <;> simp [*]

theorem val_sqrt (h : ¬ (Scalar.sqrt x).isNaN) :
    (Scalar.sqrt x).val = fmt.rnd (esqrt x.val) := by
  have h' := h
  rw [isNaN_sqrt] at h'
  change (if x.isNaN then invalid else if x.val < 0 then invalid
    else mk x.neg? (fmt.rnd (esqrt x.val)) : Fl fmt).val = _
  rw [if_neg (by tauto), if_neg (by tauto), val_mk]

theorem esqrt_nonneg (v : EReal) : 0 ≤ esqrt v := by
  unfold esqrt
  split
  · exact le_top
  · exact EReal.coe_nonneg.mpr (Real.sqrt_nonneg _)

theorem one_le_esqrt {v : EReal} (h : 1 ≤ v) : 1 ≤ esqrt v := by
  unfold esqrt
  split
  · exact le_top
  · rename_i ht
    induction v with
    | bot => exact absurd h (by decide)
    | top => simp at ht
    | coe v =>
      have h1 : (1 : ℝ) ≤ v := by exact_mod_cast h
      have := Real.one_le_sqrt.mpr h1
      exact_mod_cast this

theorem isNaN_abs : (Scalar.abs x).isNaN ↔ x.isNaN := by
  cases x <;> simp [Scalar.abs]

theorem val_abs (h : ¬ x.isNaN) : (Scalar.abs x).val = max x.val (-x.val) := by
  cases x with
  | nan => simp at h
  | negZero => simp [Scalar.abs]
  | num v => simp [Scalar.abs]

theorem lt_iff : Scalar.lt x y = true ↔ ¬ x.isNaN ∧ ¬ y.isNaN ∧ x.val < y.val := by
  change decide _ = true ↔ _
  simp

theorem le_iff : Scalar.le x y = true ↔ ¬ x.isNaN ∧ ¬ y.isNaN ∧ x.val ≤ y.val := by
  change decide _ = true ↔ _
  simp

theorem eq_iff : Scalar.eq x y = true ↔ ¬ x.isNaN ∧ ¬ y.isNaN ∧ x.val = y.val := by
  change decide _ = true ↔ _
  simp

theorem gt_iff : Scalar.gt x y = true ↔ ¬ x.isNaN ∧ ¬ y.isNaN ∧ y.val < x.val := by
  unfold Scalar.gt
  rw [lt_iff]; tauto

/-! ### Signs -/

theorem nonneg_add (hx : x.nonnegOrNaN) (hy : y.nonnegOrNaN) : (x + y).nonnegOrNaN := by
  by_cases h : (x + y).isNaN
  · exact .inl h
  · right
    have h' := h
    rw [isNaN_add] at h'
    rw [val_add h]
    exact fmt.rnd_nonneg (add_nonneg (by unfold nonnegOrNaN at hx; tauto)
      (by unfold nonnegOrNaN at hy; tauto))

theorem nonneg_mul (hx : x.nonnegOrNaN) (hy : y.nonnegOrNaN) : (x * y).nonnegOrNaN := by
  by_cases h : (x * y).isNaN
  · exact .inl h
  · right
    have h' := h
    rw [isNaN_mul] at h'
    rw [val_mul h]
    exact fmt.rnd_nonneg (mul_nonneg (by unfold nonnegOrNaN at hx; tauto)
      (by unfold nonnegOrNaN at hy; tauto))

/-- A square is not negative. -/
theorem nonneg_sq : (x * x).nonnegOrNaN := by
  by_cases h : (x * x).isNaN
  · exact .inl h
  · right
    rw [val_mul h]
    refine fmt.rnd_nonneg ?_
    rw [EReal.mul_nonneg_iff]
    rcases le_total 0 x.val with h | h
    · exact .inl ⟨h, h⟩
    · exact .inr ⟨h, h⟩

theorem nonneg_vsum {n : ℕ} {v : Vec (Fl fmt) n} (h : ∀ i, (v i).nonnegOrNaN) :
    (vsum v).nonnegOrNaN :=
  SumTree.eval_induct (P := nonnegOrNaN) (.inr (by simp)) h (fun _ _ => nonneg_add)
    (fun i _ ha => nonneg_add ha (h i)) _

/-- An inner product all of whose terms have the sign of a product that is not negative. -/
theorem nonneg_vdotBy {n : ℕ} {site : SumSite} {u v : Vec (Fl fmt) n}
    (h : ∀ i, (u i).isNaN ∨ (v i).isNaN ∨ 0 ≤ (u i).val * (v i).val) :
    (vdotBy site u v).nonnegOrNaN := by
  refine SumTree.eval_induct (P := nonnegOrNaN) (.inr (by simp)) (fun i => ?_) (fun _ _ => nonneg_add)
    (fun i a ha => ?_) _
  · by_cases hn : (u i * v i).isNaN
    · exact .inl hn
    · right
      rw [val_mul hn]
      rw [isNaN_mul] at hn
      exact fmt.rnd_nonneg (by have := h i; tauto)
  · by_cases hn : (Scalar.fma (u i) (v i) a).isNaN
    · exact .inl hn
    · right
      rw [val_fma hn]
      rw [isNaN_fma] at hn
      exact fmt.rnd_nonneg (add_nonneg (by have := h i; tauto) (by unfold nonnegOrNaN at ha; tauto))

/-- An empty sum is zero in every order. -/
theorem vsum_empty (v : Vec (Fl fmt) 0) : vsum v = 0 := by
  refine SumTree.eval_induct (P := fun x : Fl fmt => x = 0) rfl (fun i => i.elim0) ?_
    (fun i => i.elim0) _
  rintro _ _ rfl rfl
  change plus (num 0) (num 0) = num 0
  simp [plus, Fl.mk, neg?]

end Fl
end GLM
