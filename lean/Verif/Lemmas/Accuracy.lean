/-
  Error bounds of the operations, of sums in any order, and of the binary formats.
-/
import Verif.Spec.Accuracy
import Verif.Lemmas.Ieee
import Verif.Lemmas.BinaryGolden

namespace GLM
open Spec

namespace Fl
variable {fmt : FloatFormat} {u tiny big : ℝ} {x y : Fl fmt}

theorem val_real (h : x.isFinite) : x.val = (real x : EReal) := (EReal.coe_toReal h.2.1 h.2.2).symm

theorem finite_of_val {r : ℝ} (h : ¬ x.isNaN) (hv : x.val = r) : x.isFinite ∧ real x = r := by
  refine ⟨⟨h, ?_, ?_⟩, ?_⟩
  · rw [hv]; exact EReal.coe_ne_top r
  · rw [hv]; exact EReal.coe_ne_bot r
  · unfold real; rw [hv]; rfl

theorem real_num (r : ℝ) : (num r : Fl fmt).isFinite ∧ real (num r : Fl fmt) = r :=
  finite_of_val (isNaN_num _) rfl

theorem real_zero : (0 : Fl fmt).isFinite ∧ real (0 : Fl fmt) = 0 := real_num 0

theorem real_one : (1 : Fl fmt).isFinite ∧ real (1 : Fl fmt) = 1 := real_num 1

theorem real_neg (h : x.isFinite) : (-x).isFinite ∧ real (-x) = -real x := by
  refine finite_of_val (by rw [isNaN_neg]; exact h.1) ?_
  rw [val_neg, val_real h, EReal.coe_neg]

theorem rnd_lt (acc : Accurate fmt u tiny big) {v : ℝ} (h : |v| < big) :
    ∃ r : ℝ, fmt.rnd v = r ∧ Near u tiny v r := by
  rcases acc.rnd_near v with h1 | ⟨-, h1⟩ | ⟨-, h1⟩
  · exact h1
  · exact absurd h1 (not_le.mpr ((le_abs_self v).trans_lt h))
  · have := neg_abs_le v
    linarith

theorem add_near (acc : Accurate fmt u tiny big) (hx : x.isFinite) (hy : y.isFinite)
    (h : |real x + real y| < big) :
    (x + y).isFinite ∧ Near u tiny (real x + real y) (real (x + y)) := by
  have hn : ¬ (x + y).isNaN := by
    rw [isNaN_add]
    rintro (h | h | ⟨h, -⟩ | ⟨h, -⟩)
    · exact hx.1 h
    · exact hy.1 h
    · exact hx.2.1 h
    · exact hx.2.2 h
  obtain ⟨r, hr, hnear⟩ := rnd_lt acc h
  have hv : (x + y).val = r := by
    rw [val_add hn, val_real hx, val_real hy, ← EReal.coe_add, hr]
  obtain ⟨h1, h2⟩ := finite_of_val hn hv
  exact ⟨h1, h2 ▸ hnear⟩

theorem mul_near (acc : Accurate fmt u tiny big) (hx : x.isFinite) (hy : y.isFinite)
    (h : |real x * real y| < big) :
    (x * y).isFinite ∧ Near u tiny (real x * real y) (real (x * y)) := by
  have hn : ¬ (x * y).isNaN := by
    rw [isNaN_mul]
    rintro (h | h | ⟨-, h | h⟩ | ⟨h | h, -⟩)
    · exact hx.1 h
    · exact hy.1 h
    · exact hy.2.1 h
    · exact hy.2.2 h
    · exact hx.2.1 h
    · exact hx.2.2 h
  obtain ⟨r, hr, hnear⟩ := rnd_lt acc h
  have hv : (x * y).val = r := by
    rw [val_mul hn, val_real hx, val_real hy, ← EReal.coe_mul, hr]
  obtain ⟨h1, h2⟩ := finite_of_val hn hv
  exact ⟨h1, h2 ▸ hnear⟩

theorem div_near (acc : Accurate fmt u tiny big) (hx : x.isFinite) (hy : y.isFinite)
    (h0 : real y ≠ 0) (h : |real x / real y| < big) :
    (x / y).isFinite ∧ Near u tiny (real x / real y) (real (x / y)) := by
  have hy0 : y.val ≠ 0 := by
    rw [val_real hy]; exact_mod_cast h0
  have hn : ¬ (x / y).isNaN := by
    rw [isNaN_div]
    rintro (h | h | ⟨-, h⟩ | ⟨h | h, -⟩)
    · exact hx.1 h
    · exact hy.1 h
    · exact hy0 h
    · exact hx.2.1 h
    · exact hx.2.2 h
  obtain ⟨r, hr, hnear⟩ := rnd_lt acc h
  have hv : (x / y).val = r := by
    rw [val_div hn hy0, val_real hx, val_real hy, ← EReal.coe_div, hr]
  obtain ⟨h1, h2⟩ := finite_of_val hn hv
  exact ⟨h1, h2 ▸ hnear⟩

theorem fma_near (acc : Accurate fmt u tiny big) {z : Fl fmt} (hx : x.isFinite) (hy : y.isFinite)
    (hz : z.isFinite) (h : |real x * real y + real z| < big) :
    (Scalar.fma x y z).isFinite ∧ Near u tiny (real x * real y + real z) (real (Scalar.fma x y z)) := by
  have hv : x.val * y.val + z.val = ((real x * real y + real z : ℝ) : EReal) := by
    rw [val_real hx, val_real hy, val_real hz, ← EReal.coe_mul, ← EReal.coe_add]
  have hxy : x.val * y.val = ((real x * real y : ℝ) : EReal) := by
    rw [val_real hx, val_real hy, ← EReal.coe_mul]
  have hn : ¬ (Scalar.fma x y z).isNaN := by
    rw [isNaN_fma]
    rintro (h | h | h | ⟨-, h | h⟩ | ⟨h | h, -⟩ | ⟨-, h⟩ | ⟨-, h⟩)
    · exact hx.1 h
    · exact hy.1 h
    · exact hz.1 h
    · exact hy.2.1 h
    · exact hy.2.2 h
    · exact hx.2.1 h
    · exact hx.2.2 h
    · exact hz.2.2 h
    · exact hz.2.1 h
  obtain ⟨r, hr, hnear⟩ := rnd_lt acc h
  have hv : (Scalar.fma x y z).val = r := by rw [val_fma hn, hv, hr]
  obtain ⟨h1, h2⟩ := finite_of_val hn hv
  exact ⟨h1, h2 ▸ hnear⟩

/-! ### Sums -/

theorem sumError_nonneg (hu : 0 ≤ u) (ht : 0 ≤ tiny) {d k : ℕ} {S : ℝ} (hS : 0 ≤ S) :
    0 ≤ sumError u tiny d k S := by
  unfold sumError
  have h1 : 1 ≤ (1 + u) ^ d := one_le_pow₀ (by linarith)
  have : 0 ≤ ((1 + u) ^ d - 1) * S := mul_nonneg (by linarith) hS
  positivity

theorem sumError_mono (hu : 0 ≤ u) (ht : 0 ≤ tiny) {d d' k k' : ℕ} {S S' : ℝ} (hd : d ≤ d') (hk : k ≤ k')
    (hS : 0 ≤ S) (hS' : S ≤ S') : sumError u tiny d k S ≤ sumError u tiny d' k' S' := by
  unfold sumError
  have h0 : 1 ≤ (1 + u) ^ d := one_le_pow₀ (by linarith)
  have h1 : (1 + u) ^ d ≤ (1 + u) ^ d' := pow_le_pow_right₀ (by linarith) hd
  have h2 : ((1 + u) ^ d - 1) * S ≤ ((1 + u) ^ d' - 1) * S' :=
    mul_le_mul (by linarith) hS' hS (by linarith)
  have h3 : (k : ℝ) * (1 + u) ^ d ≤ k' * (1 + u) ^ d' :=
    mul_le_mul (by exact_mod_cast hk) h1 (by linarith) (by positivity)
  have := mul_le_mul_of_nonneg_right h3 ht
  linarith

theorem sumError_add (hu : 0 ≤ u) (ht : 0 ≤ tiny) {d d' k k' : ℕ} {S S' : ℝ} (hS : 0 ≤ S)
    (hS' : 0 ≤ S') :
    sumError u tiny d k S + sumError u tiny d' k' S' ≤ sumError u tiny (max d d') (k + k') (S + S') := by
  have h1 := sumError_mono hu ht (le_max_left d d') (le_refl k) hS le_rfl
  have h2 := sumError_mono hu ht (le_max_right d d') (le_refl k') hS' le_rfl
  refine (add_le_add h1 h2).trans (le_of_eq ?_)
  unfold sumError
  push_cast
  ring

theorem sumError_succ (ht : 0 ≤ tiny) (hu : 0 ≤ u) {d k : ℕ} {S : ℝ} :
    (1 + u) * sumError u tiny d k S + u * S + tiny ≤ sumError u tiny (d + 1) (k + 1) S := by
  unfold sumError
  have h0 : 1 ≤ (1 + u) ^ (d + 1) := one_le_pow₀ (by linarith)
  have h1 : tiny ≤ (1 + u) ^ (d + 1) * tiny := le_mul_of_one_le_left ht h0
  rw [pow_succ] at *
  push_cast
  nlinarith

/-- One more rounding of a partial sum with the exact value `T` and absolute terms `S`. -/
theorem near_succ (hu : 0 ≤ u) (ht : 0 ≤ tiny) {d k : ℕ} {S T v r : ℝ} (hT : |T| ≤ S)
    (hv : |v - T| ≤ sumError u tiny d k S) (hr : Near u tiny v r) :
    |r - T| ≤ sumError u tiny (d + 1) (k + 1) S := by
  unfold Near at hr
  have h1 : |r - T| ≤ |r - v| + |v - T| := abs_sub_le _ _ _
  have h2 : |v| ≤ |v - T| + |T| := by
    have := abs_add_le (v - T) T
    rwa [sub_add_cancel] at this
  have h3 := sumError_succ ht hu (d := d) (k := k) (S := S)
  have h4 := mul_le_mul_of_nonneg_left (h2.trans (add_le_add hv hT)) hu
  nlinarith

section
variable {n : ℕ}

/-- The sum of the absolute values of the terms of an order. -/
noncomputable def size (xs : Fin n → ℝ) (l : List (Fin n)) : ℝ := (l.map fun i => |xs i|).sum
noncomputable def total (xs : Fin n → ℝ) (l : List (Fin n)) : ℝ := (l.map xs).sum

theorem size_nonneg (xs : Fin n → ℝ) (l : List (Fin n)) : 0 ≤ size xs l :=
  List.sum_nonneg (by simp only [List.mem_map]; rintro _ ⟨x, -, rfl⟩; exact abs_nonneg _)

theorem total_le (xs : Fin n → ℝ) (l : List (Fin n)) : |total xs l| ≤ size xs l := by
  induction l with
  | nil => simp [total, size]
  | cons a l ih =>
    simp only [total, size, List.map_cons, List.sum_cons] at *
    exact (abs_add_le _ _).trans (by linarith)

theorem size_order (xs : Fin n → ℝ) (o : SumOrder n) : size xs o.tree.terms = ∑ i, |xs i| := by
  unfold size
  rw [(o.complete.map _).sum_eq, ← List.ofFn_eq_map, List.sum_ofFn]

theorem total_order (xs : Fin n → ℝ) (o : SumOrder n) : total xs o.tree.terms = ∑ i, xs i := by
  unfold total
  rw [(o.complete.map _).sum_eq, ← List.ofFn_eq_map, List.sum_ofFn]

/-- A sum in any order, of terms that are exact (`q = 0`) or rounded once (`q = 1`). -/
theorem tree_near (acc : Accurate fmt u tiny big) {q : ℕ} {xs : Fin n → ℝ} {t : Fin n → Fl fmt}
    {f : Fin n → Fl fmt → Fl fmt}
    (ht : ∀ i, |xs i| < big → (t i).isFinite ∧ |real (t i) - xs i| ≤ sumError u tiny q q |xs i|)
    (hf : ∀ i a, a.isFinite → |xs i + real a| < big →
      (f i a).isFinite ∧ Near u tiny (xs i + real a) (real (f i a))) (o : SumTree n) :
    size xs o.terms + sumError u tiny (o.depth q) (o.ops q) (size xs o.terms) < big →
      (o.eval t f).isFinite ∧ |real (o.eval t f) - total xs o.terms| ≤
        sumError u tiny (o.depth q) (o.ops q) (size xs o.terms) := by
  have hu := acc.u_nonneg
  have hty := acc.tiny_nonneg
  induction o with
  | zero =>
    intro _
    refine ⟨real_zero.1, ?_⟩
    rw [SumTree.eval, real_zero.2]
    simp [total, size, sumError, SumTree.terms, SumTree.depth, SumTree.ops]
  | term i =>
    intro h
    have e : size xs (SumTree.term i).terms = |xs i| := by simp [size, SumTree.terms]
    have e' : total xs (SumTree.term i).terms = xs i := by simp [total, SumTree.terms]
    rw [e] at h ⊢
    rw [e']
    refine ht i ?_
    have := sumError_nonneg hu hty (d := (SumTree.term i).depth q) (k := (SumTree.term i).ops q)
      (abs_nonneg (xs i))
    linarith
  | add l r ihl ihr =>
    intro hlt
    have hs : size xs (SumTree.add l r).terms = size xs l.terms + size xs r.terms := by
      simp [size, SumTree.terms]
    have htot : total xs (SumTree.add l r).terms = total xs l.terms + total xs r.terms := by
      simp [total, SumTree.terms]
    have h0 := size_nonneg xs l.terms
    have h0' := size_nonneg xs r.terms
    rw [hs] at hlt ⊢
    rw [htot]
    simp only [SumTree.depth, SumTree.ops] at hlt ⊢
    have hle := sumError_add hu hty (d := l.depth q) (d' := r.depth q) (k := l.ops q) (k' := r.ops q) h0 h0'
    have hsucc : sumError u tiny (max (l.depth q) (r.depth q)) (l.ops q + r.ops q)
        (size xs l.terms + size xs r.terms) ≤
        sumError u tiny (max (l.depth q) (r.depth q) + 1) (l.ops q + r.ops q + 1)
          (size xs l.terms + size xs r.terms) :=
      sumError_mono hu hty (by omega) (by omega) (by linarith) le_rfl
    have e0 := sumError_nonneg hu hty (d := l.depth q) (k := l.ops q) h0
    have e0' := sumError_nonneg hu hty (d := r.depth q) (k := r.ops q) h0'
    obtain ⟨f1, n1⟩ := ihl (by linarith)
    obtain ⟨f2, n2⟩ := ihr (by linarith)
    have t1 := total_le xs l.terms
    have t2 := total_le xs r.terms
    have hT : |total xs l.terms + total xs r.terms| ≤ size xs l.terms + size xs r.terms :=
      (abs_add_le _ _).trans (add_le_add t1 t2)
    have hv : |(real (l.eval t f) + real (r.eval t f)) - (total xs l.terms + total xs r.terms)| ≤
        sumError u tiny (max (l.depth q) (r.depth q)) (l.ops q + r.ops q)
          (size xs l.terms + size xs r.terms) := by
      rw [add_sub_add_comm]
      exact (abs_add_le _ _).trans (by linarith)
    have hab : |real (l.eval t f) + real (r.eval t f)| < big := by
      have := abs_add_le ((real (l.eval t f) + real (r.eval t f)) - (total xs l.terms + total xs r.terms))
        (total xs l.terms + total xs r.terms)
      rw [sub_add_cancel] at this
      linarith
    obtain ⟨fin, near⟩ := add_near acc f1 f2 hab
    exact ⟨fin, near_succ hu hty hT hv near⟩
  | fused i r ih =>
    intro hlt
    have hs : size xs (SumTree.fused i r).terms = |xs i| + size xs r.terms := by
      simp [size, SumTree.terms]
    have htot : total xs (SumTree.fused i r).terms = xs i + total xs r.terms := by
      simp [total, SumTree.terms]
    have h0 := size_nonneg xs r.terms
    have h1 := abs_nonneg (xs i)
    rw [hs] at hlt ⊢
    rw [htot]
    simp only [SumTree.depth, SumTree.ops] at hlt ⊢
    have hm : sumError u tiny (r.depth q) (r.ops q) (size xs r.terms) ≤
        sumError u tiny (r.depth q) (r.ops q) (|xs i| + size xs r.terms) :=
      sumError_mono hu hty le_rfl le_rfl h0 (by linarith)
    have hsucc : sumError u tiny (r.depth q) (r.ops q) (|xs i| + size xs r.terms) ≤
        sumError u tiny (r.depth q + 1) (r.ops q + 1) (|xs i| + size xs r.terms) :=
      sumError_mono hu hty (by omega) (by omega) (by linarith) le_rfl
    obtain ⟨f1, n1⟩ := ih (by linarith)
    have t1 := total_le xs r.terms
    have hT : |xs i + total xs r.terms| ≤ |xs i| + size xs r.terms :=
      (abs_add_le _ _).trans (by linarith)
    have hv : |(xs i + real (r.eval t f)) - (xs i + total xs r.terms)| ≤
        sumError u tiny (r.depth q) (r.ops q) (|xs i| + size xs r.terms) := by
      rw [add_sub_add_left_eq_sub]
      linarith
    have hab : |xs i + real (r.eval t f)| < big := by
      have := abs_add_le ((xs i + real (r.eval t f)) - (xs i + total xs r.terms))
        (xs i + total xs r.terms)
      rw [sub_add_cancel] at this
      linarith
    obtain ⟨fin, near⟩ := hf i _ f1 hab
    exact ⟨fin, near_succ hu hty hT hv near⟩

/-- Sums of finite numbers. -/
theorem sum_near (acc : Accurate fmt u tiny big) {v : Vec (Fl fmt) n} (hv : ∀ i, (v i).isFinite)
    (o : SumOrder n)
    (hlt : ∑ i, |real (v i)| + sumError u tiny (o.tree.depth 0) (o.tree.ops 0) (∑ i, |real (v i)|)
      < big) :
    (o.tree.eval v fun i acc => acc + v i).isFinite ∧
      |real (o.tree.eval v fun i acc => acc + v i) - ∑ i, real (v i)| ≤
        sumError u tiny (o.tree.depth 0) (o.tree.ops 0) (∑ i, |real (v i)|) := by
  have := tree_near acc (q := 0) (xs := fun i => real (v i)) (t := v) (f := fun i acc => acc + v i)
    (fun i _ => ⟨hv i, by simp [sumError]⟩)
    (fun i a ha hlt => by
      rw [add_comm] at hlt ⊢
      exact add_near acc ha (hv i) hlt) o.tree
  rw [size_order, total_order] at this
  exact this hlt

/-- Inner products of finite numbers. -/
theorem dot_near (acc : Accurate fmt u tiny big) {a c : Vec (Fl fmt) n} (ha : ∀ i, (a i).isFinite)
    (hc : ∀ i, (c i).isFinite) (o : SumOrder n)
    (hlt : ∑ i, |real (a i) * real (c i)| +
      sumError u tiny (o.tree.depth 1) (o.tree.ops 1) (∑ i, |real (a i) * real (c i)|) < big) :
    (o.tree.eval (fun i => a i * c i) fun i acc => Scalar.fma (a i) (c i) acc).isFinite ∧
      |real (o.tree.eval (fun i => a i * c i) fun i acc => Scalar.fma (a i) (c i) acc)
        - ∑ i, real (a i) * real (c i)| ≤
        sumError u tiny (o.tree.depth 1) (o.tree.ops 1) (∑ i, |real (a i) * real (c i)|) := by
  have := tree_near acc (q := 1) (xs := fun i => real (a i) * real (c i)) (t := fun i => a i * c i)
    (f := fun i acc => Scalar.fma (a i) (c i) acc)
    (fun i hi => by
      obtain ⟨h1, h2⟩ := mul_near acc (ha i) (hc i) hi
      refine ⟨h1, ?_⟩
      exact near_succ acc.u_nonneg acc.tiny_nonneg (d := 0) (k := 0) le_rfl
        (v := real (a i) * real (c i)) (by simp [sumError]) h2)
    (fun i z hz hlt => fma_near acc (ha i) (hc i) hz hlt) o.tree
  rw [size_order, total_order] at this
  exact this hlt

end

/-! ### The binary formats -/

theorem roundBits_close {p : ℕ} {emin : ℤ} (v : ℝ) :
    Near ((2 : ℝ) ^ (-p : ℤ)) (2 ^ (emin - p)) v (roundBits p emin v) := by
  unfold Near
  rcases eq_or_ne v 0 with rfl | hv
  · rw [roundBits_zero]; simp; positivity
  · refine (roundBits_near v).trans ?_
    have hpos : 0 < |v| := abs_pos.mpr hv
    have h1 : ulp p emin v = ulp p emin |v| := by unfold ulp; rw [abs_abs]
    have h2 := ulp_le (p := p) (emin := emin) hpos le_rfl
    have h3 : |v| / 2 ^ (p - 1 : ℤ) = 2 * ((2 : ℝ) ^ (-p : ℤ) * |v|) := by
      rw [zpow_sub₀ (by norm_num), zpow_neg, zpow_one]
      field_simp
    have h4 : least p emin = 2 * 2 ^ (emin - p) := by
      unfold least
      rw [show emin - (p - 1 : ℤ) = (emin - p) + 1 by ring, zpow_add₀ (by norm_num), zpow_one]
      ring
    rw [h3, h4] at h2
    rw [h1]
    have hA : (0 : ℝ) ≤ 2 ^ (-p : ℤ) * |v| := by positivity
    have hB : (0 : ℝ) ≤ 2 ^ (emin - p) := by positivity
    have := h2.trans (max_le (a := 2 * ((2 : ℝ) ^ (-p : ℤ) * |v|)) (b := 2 * 2 ^ (emin - p))
      (c := 2 * ((2 : ℝ) ^ (-p : ℤ) * |v|) + 2 * 2 ^ (emin - p)) (by linarith) (by linarith))
    linarith

theorem roundBinary_close {p : ℕ} {emin emax : ℤ} (hp : 1 ≤ p) (he : emin ≤ emax) (v : ℝ) :
    (∃ r : ℝ, roundBinary p emin emax v = r ∧ Near ((2 : ℝ) ^ (-p : ℤ)) (2 ^ (emin - p)) v r) ∨
      (roundBinary p emin emax v = ⊤ ∧ (2 : ℝ) ^ emax ≤ v) ∨
      (roundBinary p emin emax v = ⊥ ∧ v ≤ -(2 : ℝ) ^ emax) := by
  have hlt : (2 : ℝ) ^ emax < 2 ^ (emax + 1) := zpow_lt_zpow_right₀ (by norm_num) (by omega)
  rw [roundBinary_coe]
  split
  · rename_i h
    refine Or.inr (Or.inl ⟨rfl, ?_⟩)
    by_contra hc
    have h1 := roundBits_mono (emin := emin) hp (not_le.mp hc).le
    rw [roundBits_zpow hp he] at h1
    linarith
  · split
    · rename_i h
      refine Or.inr (Or.inr ⟨rfl, ?_⟩)
      by_contra hc
      have h1 := roundBits_mono (emin := emin) hp (not_le.mp hc).le
      rw [roundBits_neg, roundBits_zpow hp he] at h1
      linarith
    · exact Or.inl ⟨_, rfl, roundBits_close v⟩

/-- A binary format with `p` bits, rounding to nearest, is accurate to half a unit in the last
place. -/
theorem accurate_binary {p : ℕ} {emin emax : ℤ} (hp : 1 ≤ p) (hp2 : 2 ≤ p) (hmin : emin ≤ 0)
    (hmax : 0 ≤ emax) (hmax1 : 1 ≤ emax) (ht : emin - p ≤ -3) (s : Bool)
    (order : SumSite → (n : ℕ) → SumOrder n) :
    Accurate (binary p emin emax hp hmin hmax s order) (2 ^ (-p : ℤ)) (2 ^ (emin - p)) (2 ^ emax) where
  u_nonneg := by positivity
  u_le := by
    have : (2 : ℝ) ^ (-p : ℤ) ≤ 2 ^ (-2 : ℤ) := zpow_le_zpow_right₀ (by norm_num) (by omega)
    exact this.trans (by norm_num)
  tiny_nonneg := by positivity
  tiny_le := by
    have : (2 : ℝ) ^ (emin - p) ≤ 2 ^ (-3 : ℤ) := zpow_le_zpow_right₀ (by norm_num) ht
    exact this.trans (by norm_num)
  big_ge := by
    have : (2 : ℝ) ^ (1 : ℤ) ≤ 2 ^ emax := zpow_le_zpow_right₀ (by norm_num) hmax1
    simpa using this
  rnd_two := by
    change roundBinary p emin emax ((2 : ℝ) : EReal) = _
    have h1 : roundBits p emin (2 : ℝ) = 2 := by
      have := roundBits_zpow (emin := emin) hp (e := 1) (by omega)
      simpa using this
    have h2 : (2 : ℝ) < 2 ^ (emax + 1) := by
      have : (2 : ℝ) ^ (1 : ℤ) < 2 ^ (emax + 1) := zpow_lt_zpow_right₀ (by norm_num) (by omega)
      simpa using this
    rw [roundBinary_coe, h1, if_neg (by linarith), if_neg (by linarith)]
  rnd_near := roundBinary_close hp (hmin.trans hmax)
  exp_near := fun v => by
    rcases roundBinary_close hp (hmin.trans hmax) (Real.exp v) with h | h | ⟨-, h⟩
    · exact Or.inl h
    · exact Or.inr h
    · have h1 := Real.exp_pos v
      have h2 : (0 : ℝ) < 2 ^ emax := by positivity
      linarith
  expm1_near := fun v hv => by
    rcases roundBinary_close hp (hmin.trans hmax) (Real.exp v - 1) with h | ⟨-, h⟩ | ⟨h, -⟩
    · exact h
    · have h1 := Real.exp_le_one_iff.mpr hv
      have h2 : (0 : ℝ) < 2 ^ emax := by positivity
      linarith
    · exfalso
      have h1 := (binary p emin emax hp hmin hmax s order).neg_one_le_expm1 v
      have h2 : (binary p emin emax hp hmin hmax s order).expm1 v = ⊥ := h
      rw [h2] at h1
      exact absurd h1 (by decide)
  expm1_bot := by
    have h1 := (binary p emin emax hp hmin hmax s order).rnd_neg 1
    rw [(binary p emin emax hp hmin hmax s order).rnd_one] at h1
    exact h1

theorem accurate_binary64 (order : SumSite → (n : ℕ) → SumOrder n) :
    Accurate (binary64 order) (2 ^ (-53 : ℤ)) (2 ^ (-1075 : ℤ)) (2 ^ (1023 : ℤ)) := by
  have := accurate_binary (p := 53) (emin := -1022) (emax := 1023) (by norm_num) (by norm_num)
    (by norm_num) (by norm_num) (by norm_num) (by norm_num) false order
  exact this

theorem accurate_binary32 (order : SumSite → (n : ℕ) → SumOrder n) :
    Accurate (binary32 order) (2 ^ (-24 : ℤ)) (2 ^ (-150 : ℤ)) (2 ^ (127 : ℤ)) := by
  have := accurate_binary (p := 24) (emin := -126) (emax := 127) (by norm_num) (by norm_num)
    (by norm_num) (by norm_num) (by norm_num) (by norm_num) false order
  exact this

end Fl
end GLM
