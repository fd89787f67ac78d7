/-
  C98: the shifts and scales of the features in floating-point arithmetic: signs, and constant columns.
-/
import Verif.Lemmas.BinaryEval
import Verif.Props.StandardAccuracy

namespace GLM
open Spec Scalar Fl Matrix

section
variable {fmt : FloatFormat} {n p : ℕ} {b : Bool} {raw : Dataset (Fl fmt) n p false}
  {s : Standardizer (Fl fmt) p}

/-- The weights of the observations, as the code computes them. -/
noncomputable def wts (raw : Dataset (Fl fmt) n p false) : Vec (Fl fmt) n := raw.applyTotalWeights (vfill 1)

/-- The parts of a standardizer. -/
theorem fromDataset_parts (h : Standardizer.fromDataset raw b = some s) : ∃ means vars : Vec (Fl fmt) p,
    (s.shifts = if b then means else vzeros) ∧
    (s.scales = fun j => sqrt (if gt (vars j) 0 then vars j else 1)) ∧
    (n ≠ 0 → means = fun j => (vsum fun i => wts raw i * raw.x i j) / vsum (wts raw)) ∧
    (n ≤ 1 → vars = vfill 1) ∧
    (¬ n ≤ 1 → gt raw.nEff 1 = true ∧ vars = fun j =>
      (vsum fun i => wts raw i * ((raw.x i j - means j) * (raw.x i j - means j))) / vsum (wts raw)
        * (raw.nEff / (raw.nEff - 1))) := by
  unfold Standardizer.fromDataset at h
  simp only [Option.map_eq_some_iff] at h
  obtain ⟨v, hv, rfl⟩ := h
  refine ⟨if n = 0 then vzeros else fun j => (vsum fun i => wts raw i * raw.x i j) / vsum (wts raw), v,
    rfl, rfl, fun h0 => if_neg h0, fun h1 => ?_, fun h1 => ?_⟩
  · rw [if_pos h1] at hv
    exact (Option.some.inj hv).symm
  · rw [if_neg h1] at hv
    by_cases h2 : gt raw.nEff 1 = true
    · rw [if_pos h2] at hv
      exact ⟨h2, (Option.some.inj hv).symm⟩
    · rw [if_neg h2] at hv; cases hv

/-- The root of a positive number of the format is positive. -/
theorem sqrt_positive {x : Fl fmt} {v : EReal} (hx : ¬ x.isNaN) (hv : x.val = fmt.rnd v) (h0 : 0 < x.val) :
    ¬ (sqrt x).isNaN ∧ 0 < (sqrt x).val := by
  have hn : ¬ (sqrt x).isNaN := by
    rw [isNaN_sqrt]
    rintro (h | h)
    · exact hx h
    · exact absurd h (not_lt.mpr h0.le)
  refine ⟨hn, ?_⟩
  rw [val_sqrt hn]
  have h1 : min x.val 1 ≤ esqrt x.val := by
    unfold esqrt
    split_ifs with ht
    · exact le_top
    · have hb : x.val ≠ ⊥ := (lt_of_le_of_lt bot_le h0).ne'
      obtain ⟨r, hr⟩ : ∃ r : ℝ, x.val = r := ⟨_, (EReal.coe_toReal ht hb).symm⟩
      rw [hr] at h0 ⊢
      have hr0 : 0 < r := by exact_mod_cast h0
      rw [EReal.toReal_coe]
      rcases le_total r 1 with h | h
      · refine (min_le_left _ _).trans ?_
        exact_mod_cast Real.le_sqrt_of_sq_le (by nlinarith)
      · refine (min_le_right _ _).trans ?_
        exact_mod_cast Real.one_le_sqrt.mpr h
  refine lt_of_lt_of_le ?_ (fmt.rnd_mono h1)
  rw [fmt.rnd_mono.map_min, hv, fmt.rnd_idem, fmt.rnd_one, ← hv]
  exact lt_min h0 one_pos

/-- **C98** (scales).  Whatever the data, weights and frequencies are (infinite or not-a-number among
them), the scale of every feature is a positive number: dividing by it is never a division by zero. -/
theorem C98_scale_positive (h : Standardizer.fromDataset raw b = some s) (j : Fin p) :
    ¬ (s.scales j).isNaN ∧ 0 < (s.scales j).val := by
  have key : ∀ v : Fl fmt, (v = 1 ∨ ∃ a c : Fl fmt, v = a * c) →
      ¬ (sqrt (if gt v 0 = true then v else 1)).isNaN ∧ 0 < (sqrt (if gt v 0 = true then v else 1)).val := by
    intro v hv
    have hone : ¬ (sqrt (1 : Fl fmt)).isNaN ∧ 0 < (sqrt (1 : Fl fmt)).val :=
      sqrt_positive (v := 1) (by simp) (by rw [fmt.rnd_one]; rfl) one_pos
    by_cases hg : gt v 0 = true
    · rw [if_pos hg]
      obtain ⟨h1, -, h2⟩ := gt_iff.mp hg
      rcases hv with rfl | ⟨a, c, rfl⟩
      · exact hone
      · exact sqrt_positive h1 (val_mul h1) h2
    · rw [if_neg hg]; exact hone
  obtain ⟨m, v, -, hs, -, h1, h2⟩ := fromDataset_parts h
  rw [hs]
  refine key (v j) ?_
  by_cases hn : n ≤ 1
  · rw [h1 hn]; exact .inl rfl
  · rw [(h2 hn).2]; exact .inr ⟨_, _, rfl⟩

/-- Zero, or not a number. -/
def zeroOrNaN (x : Fl fmt) : Prop := x.isNaN ∨ x.val = 0

theorem zeroOrNaN.add {x y : Fl fmt} (hx : zeroOrNaN x) (hy : zeroOrNaN y) : zeroOrNaN (x + y) := by
  by_cases h : (x + y).isNaN
  · exact .inl h
  · right
    have h' := h
    rw [isNaN_add] at h'
    rw [val_add h, hx.resolve_left (by tauto), hy.resolve_left (by tauto), add_zero, fmt.rnd_zero]

theorem zeroOrNaN.mul_left {x y : Fl fmt} (hy : zeroOrNaN y) : zeroOrNaN (x * y) := by
  by_cases h : (x * y).isNaN
  · exact .inl h
  · right
    have h' := h
    rw [isNaN_mul] at h'
    rw [val_mul h, hy.resolve_left (by tauto), mul_zero, fmt.rnd_zero]

theorem zeroOrNaN.mul_right {x y : Fl fmt} (hy : zeroOrNaN x) : zeroOrNaN (x * y) := by
  by_cases h : (x * y).isNaN
  · exact .inl h
  · right
    have h' := h
    rw [isNaN_mul] at h'
    rw [val_mul h, hy.resolve_left (by tauto), zero_mul, fmt.rnd_zero]

theorem zeroOrNaN.div {x y : Fl fmt} (hx : zeroOrNaN x) : zeroOrNaN (x / y) := by
  by_cases h : (x / y).isNaN
  · exact .inl h
  · right
    have h' := h
    rw [isNaN_div] at h'
    have hx0 := hx.resolve_left (by tauto)
    have hy0 : y.val ≠ 0 := by tauto
    rw [val_div h hy0, hx0, EReal.zero_div, fmt.rnd_zero]

theorem zeroOrNaN.vsum {n : ℕ} {v : Vec (Fl fmt) n} (h : ∀ i, zeroOrNaN (v i)) : zeroOrNaN (vsum v) :=
  SumTree.eval_induct (P := zeroOrNaN) (.inr rfl) h (fun _ _ => zeroOrNaN.add)
    (fun i _ ha => ha.add (h i)) _

theorem zeroOrNaN.not_gt {x : Fl fmt} (h : zeroOrNaN x) : gt x 0 = false := by
  rw [← Bool.not_eq_true, gt_iff]
  rintro ⟨h1, -, h2⟩
  exact absurd (h.resolve_left h1) h2.ne'

/-- **C98** (constant columns).  If all entries of a column are the number that is computed as its mean,
the column is not scaled, and it is stored as zeros, whatever the weights and frequencies are. -/
theorem C98_constant (h : Standardizer.fromDataset raw true = some s) {j : Fin p} {c : ℝ}
    (hm : (s.shifts j).isFinite ∧ real (s.shifts j) = c)
    (hx : ∀ i, (raw.x i j).isFinite ∧ real (raw.x i j) = c) :
    s.scales j = 1 ∧ ∀ i, (s.transform raw.x i j).isFinite ∧ real (s.transform raw.x i j) = 0 := by
  have hz : fmt.rnd ((c - c : ℝ) : EReal) = ((0 : ℝ) : EReal) := by
    rw [sub_self]; exact fmt.rnd_zero
  have hd : ∀ i, Is (raw.x i j - s.shifts j) 0 := fun i => Is.sub (hx i) hm hz
  have hs : s.scales j = 1 := by
    obtain ⟨m, v, hsh, hsc, -, h1, h2⟩ := fromDataset_parts h
    rw [if_pos rfl] at hsh
    rw [hsc]
    have hz : zeroOrNaN (v j) ∨ v j = 1 := by
      by_cases hn : n ≤ 1
      · rw [h1 hn]; exact .inr rfl
      · left
        rw [(h2 hn).2]
        refine zeroOrNaN.mul_right (zeroOrNaN.div (zeroOrNaN.vsum fun i => ?_))
        refine zeroOrNaN.mul_left (zeroOrNaN.mul_left (.inr ?_))
        have := hd i
        rw [hsh] at this
        rw [val_real this.1, this.2]; rfl
    have : (if gt (v j) 0 = true then v j else 1) = 1 := by
      rcases hz with hz | hz
      · rw [if_neg (by rw [hz.not_gt]; simp)]
      · rw [hz]; split <;> rfl
    change sqrt (if gt (v j) 0 = true then v j else 1) = 1
    rw [this]
    exact sqrt_one_fl
  refine ⟨hs, fun i => ?_⟩
  change Is ((raw.x i j - s.shifts j) / s.scales j) 0
  rw [hs]
  exact Is.div (hd i) Is.one one_ne_zero (by rw [zero_div]; exact fmt.rnd_zero)

end

/-- A column of three numbers that are all `6004799503160662 / 2^53`, which is about `2/3`. -/
noncomputable def thirds : Dataset (Fl binary64) 3 1 false :=
  { y := fun _ => 1, x := fun _ _ => num ((6004799503160662 / 2 ^ 53 : ℝ) : EReal), linearOffset := none,
    weights := none, freqs := none, standardizer := none }

theorem vsum_three (v : Vec (Fl binary64) 3) : vsum v = 0 + v 0 + v 1 + v 2 := rfl

theorem rnd_zero64 : FloatFormat.rnd binary64 ((0 : ℝ) : EReal) = ((0 : ℝ) : EReal) := FloatFormat.rnd_zero _

theorem rnd_pos64 {v r : ℝ} (e k : ℤ) (h1 : (2 : ℝ) ^ e ≤ v)
    (h2 : v < (2 : ℝ) ^ (e + 1)) (he : -1022 ≤ e) (he' : e ≤ 1000)
    (hk : |v / 2 ^ (e - 52) - k| < 1 / 2 ∨ (|v / 2 ^ (e - 52) - k| ≤ 1 / 2 ∧ Even k))
    (hr : (2 : ℝ) ^ (e - 52) * k = r) :
    FloatFormat.rnd binary64 (v : EReal) = (r : EReal) := rnd_binary64 h1 h2 he he' hk hr

/-- **C98** (a constant column that is missed).  In `f64` the mean of three equal numbers need not be that
number.  The column of `thirds` is then scaled by its rounding error of about `1.4e-16`, instead of being
recognized as constant, and is stored as a column of numbers around `0.8`, where exact arithmetic has
zeros. -/
theorem C98_constant_missed : ∃ s, Standardizer.fromDataset thirds true = some s ∧
    (∀ i, (thirds.x i 0).isFinite ∧ real (thirds.x i 0) = 6004799503160662 / 2 ^ 53) ∧
    ((s.shifts 0).isFinite ∧ real (s.shifts 0) = 6004799503160661 / 2 ^ 53) ∧
    ((s.scales 0).isFinite ∧ real (s.scales 0) < 1 / 2 ^ 52) ∧
    ∀ i, (s.transform thirds.x i 0).isFinite ∧ 4 / 5 < real (s.transform thirds.x i 0) := by
  have hx : ∀ i, Is (thirds.x i 0) (6004799503160662 / 2 ^ 53) := fun i => Is.num _
  have hw : ∀ i, wts thirds i = 1 := fun i => rfl
  have h2 : FloatFormat.rnd binary64 ((1 + 1 : ℝ) : EReal) = ((2 : ℝ) : EReal) :=
    rnd_pos64 1 (2 ^ 52) (by norm_num) (by norm_num) (by norm_num) (by norm_num) (by norm_num) (by norm_num)
  have h3 : FloatFormat.rnd binary64 ((2 + 1 : ℝ) : EReal) = ((3 : ℝ) : EReal) :=
    rnd_pos64 1 (3 * 2 ^ 51) (by norm_num) (by norm_num) (by norm_num) (by norm_num) (by norm_num) (by norm_num)
  have h1 : FloatFormat.rnd binary64 ((0 + 1 : ℝ) : EReal) = ((1 : ℝ) : EReal) := by
    rw [zero_add]; exact FloatFormat.rnd_one _
  have hsw : Is (vsum (wts thirds)) 3 := by
    rw [vsum_three, hw, hw, hw]
    exact Is.add (Is.add (Is.add Is.zero Is.one h1) Is.one h2) Is.one h3
  have hd : ∀ {v : ℝ} (e k : ℤ), v = 2 ^ (e - 52) * k → 2 ^ 52 ≤ k → k < 2 ^ 53 → -1022 ≤ e → e ≤ 1000 →
      FloatFormat.rnd binary64 (v : EReal) = (v : EReal) := by
    intro v e k hv k1 k2 e1 e2
    have hq : (0 : ℝ) < 2 ^ (e - 52) := by positivity
    have p1 : (2 : ℝ) ^ e = 2 ^ (e - 52) * 2 ^ 52 := by
      rw [← zpow_natCast, ← zpow_add₀ (by norm_num)]; norm_num
    have p2 : (2 : ℝ) ^ (e + 1) = 2 ^ (e - 52) * 2 ^ 53 := by
      rw [← zpow_natCast, ← zpow_add₀ (by norm_num)]; congr 1; push_cast; ring
    have k1' : (2 : ℝ) ^ 52 ≤ k := by exact_mod_cast k1
    have k2' : (k : ℝ) < 2 ^ 53 := by exact_mod_cast k2
    refine rnd_pos64 e k ?_ ?_ e1 e2 (.inl ?_) hv.symm
    · rw [p1, hv]; exact mul_le_mul_of_nonneg_left k1' hq.le
    · rw [p2, hv]; exact mul_lt_mul_of_pos_left k2' hq
    · rw [hv, mul_div_cancel_left₀ _ hq.ne', sub_self, abs_zero]; norm_num
  have hwx : ∀ i, Is (wts thirds i * thirds.x i 0) (6004799503160662 / 2 ^ 53) := fun i => by
    rw [hw]
    refine Is.mul Is.one (hx i) ?_
    rw [one_mul]
    exact hd (-1) 6004799503160662 (by norm_num) (by norm_num) (by norm_num) (by norm_num) (by norm_num)
  have hsum : Is (vsum fun i => wts thirds i * thirds.x i 0) 2 := by
    rw [vsum_three]
    refine Is.add (Is.add (Is.add Is.zero (hwx 0) (r := 6004799503160662 / 2 ^ 53) ?_) (hwx 1)
      (r := 6004799503160662 / 2 ^ 52) ?_) (hwx 2) ?_
    · rw [zero_add]
      exact hd (-1) 6004799503160662 (by norm_num) (by norm_num) (by norm_num) (by norm_num) (by norm_num)
    · rw [show (6004799503160662 / 2 ^ 53 + 6004799503160662 / 2 ^ 53 : ℝ) = 6004799503160662 / 2 ^ 52 by norm_num]
      exact hd 0 6004799503160662 (by norm_num) (by norm_num) (by norm_num) (by norm_num) (by norm_num)
    · refine rnd_pos64 1 (2 ^ 52) (by norm_num) (by norm_num) (by norm_num) (by norm_num) (.inr ⟨?_, ?_⟩)
        (by norm_num)
      · norm_num [abs_le]
      · exact ⟨2 ^ 51, by norm_num⟩
  have hmean : Is ((vsum fun i => wts thirds i * thirds.x i 0) / vsum (wts thirds))
      (6004799503160661 / 2 ^ 53) := by
    refine Is.div hsum hsw (by norm_num) ?_
    refine rnd_pos64 (-1) 6004799503160661 (by norm_num) (by norm_num) (by norm_num) (by norm_num) (.inl ?_)
      (by norm_num)
    norm_num [abs_lt]
  have hne : Is thirds.nEff 3 := by
    have e : FloatFormat.rnd binary64 (((3 : ℕ) : ℝ) : EReal) = ((3 : ℝ) : EReal) := by
      have := hd (v := 3) 1 (3 * 2 ^ 51) (by norm_num) (by norm_num) (by norm_num) (by norm_num) (by norm_num)
      push_cast; exact this
    change Is (Scalar.ofNat 3 : Fl binary64) 3
    rw [ofNat_def, e]
    exact Is.num 3
  have hgt : gt thirds.nEff 1 = true := hne.gt Is.one (by norm_num)
  obtain ⟨s, hs⟩ : ∃ s, Standardizer.fromDataset thirds true = some s := by
    unfold Standardizer.fromDataset
    simp only [hgt, if_true]
    exact ⟨_, rfl⟩
  obtain ⟨m, v, hsh, hsc, hm, -, hv⟩ := fromDataset_parts hs
  rw [if_pos rfl] at hsh
  have hv := (hv (by norm_num)).2
  have hm := hm (by norm_num)
  have hm0 : Is (m 0) (6004799503160661 / 2 ^ 53) := by rw [hm]; exact hmean
  have hdev : ∀ i, Is (thirds.x i 0 - m 0) (1 / 2 ^ 53) := fun i => by
    refine Is.sub (hx i) hm0 ?_
    rw [show (6004799503160662 / 2 ^ 53 - 6004799503160661 / 2 ^ 53 : ℝ) = 1 / 2 ^ 53 by norm_num]
    exact hd (-53) (2 ^ 52) (by norm_num) (by norm_num) (by norm_num) (by norm_num) (by norm_num)
  have hsq : ∀ i, Is (wts thirds i * ((thirds.x i 0 - m 0) * (thirds.x i 0 - m 0))) (1 / 2 ^ 106) := fun i => by
    have e : FloatFormat.rnd binary64 ((1 / 2 ^ 106 : ℝ) : EReal) = ((1 / 2 ^ 106 : ℝ) : EReal) :=
      hd (-106) (2 ^ 52) (by norm_num) (by norm_num) (by norm_num) (by norm_num) (by norm_num)
    rw [hw]
    refine Is.mul Is.one (Is.mul (hdev i) (hdev i) (r := 1 / 2 ^ 106) ?_) ?_
    · rw [show (1 / 2 ^ 53 * (1 / 2 ^ 53) : ℝ) = 1 / 2 ^ 106 by norm_num]; exact e
    · rw [one_mul]; exact e
  have hss : Is (vsum fun i => wts thirds i * ((thirds.x i 0 - m 0) * (thirds.x i 0 - m 0))) (3 / 2 ^ 106) := by
    rw [vsum_three]
    refine Is.add (Is.add (Is.add Is.zero (hsq 0) (r := 1 / 2 ^ 106) ?_) (hsq 1)
      (r := 2 / 2 ^ 106) ?_) (hsq 2) ?_
    · rw [zero_add]
      exact hd (-106) (2 ^ 52) (by norm_num) (by norm_num) (by norm_num) (by norm_num) (by norm_num)
    · rw [show (1 / 2 ^ 106 + 1 / 2 ^ 106 : ℝ) = 2 / 2 ^ 106 by norm_num]
      exact hd (-105) (2 ^ 52) (by norm_num) (by norm_num) (by norm_num) (by norm_num) (by norm_num)
    · rw [show (2 / 2 ^ 106 + 1 / 2 ^ 106 : ℝ) = 3 / 2 ^ 106 by norm_num]
      exact hd (-105) (3 * 2 ^ 51) (by norm_num) (by norm_num) (by norm_num) (by norm_num) (by norm_num)
  have hbias : Is (thirds.nEff / (thirds.nEff - 1)) (3 / 2) := by
    refine Is.div hne (Is.sub hne Is.one (r := 2) ?_) (by norm_num) ?_
    · rw [show (3 - 1 : ℝ) = 2 by norm_num]
      exact hd 1 (2 ^ 52) (by norm_num) (by norm_num) (by norm_num) (by norm_num) (by norm_num)
    · exact hd 0 (3 * 2 ^ 51) (by norm_num) (by norm_num) (by norm_num) (by norm_num) (by norm_num)
  have hvar : Is (v 0) (3 / 2 ^ 107) := by
    rw [hv]
    refine Is.mul (Is.div hss hsw (by norm_num) (r := 1 / 2 ^ 106) ?_) hbias ?_
    · rw [show (3 / 2 ^ 106 / 3 : ℝ) = 1 / 2 ^ 106 by norm_num]
      exact hd (-106) (2 ^ 52) (by norm_num) (by norm_num) (by norm_num) (by norm_num) (by norm_num)
    · rw [show (1 / 2 ^ 106 * (3 / 2) : ℝ) = 3 / 2 ^ 107 by norm_num]
      exact hd (-106) (3 * 2 ^ 51) (by norm_num) (by norm_num) (by norm_num) (by norm_num) (by norm_num)
  have acc := accurate_binary64 fun _ => SumOrder.left
  have hb : (10 : ℝ) ≤ 2 ^ (1023 : ℤ) := by
    have : (2 : ℝ) ^ (7 : ℤ) ≤ 2 ^ (1023 : ℤ) := zpow_le_zpow_right₀ (by norm_num) (by norm_num)
    exact le_trans (by norm_num) this
  have ht1 : (2 : ℝ) ^ (-1075 : ℤ) ≤ 2 ^ (-120 : ℤ) := zpow_le_zpow_right₀ (by norm_num) (by norm_num)
  have ht2 : (2 : ℝ) ^ (-120 : ℤ) = 1 / 2 ^ 120 := by norm_num
  have hu1 : (2 : ℝ) ^ (-53 : ℤ) = 1 / 2 ^ 53 := by norm_num
  rw [ht2] at ht1
  rw [hu1] at acc
  clear ht2 hu1
  generalize (2 : ℝ) ^ (1023 : ℤ) = big at acc hb
  generalize (2 : ℝ) ^ (-1075 : ℤ) = tiny at acc ht1
  have hq0 : 0 < √(3 / 2 ^ 107 : ℝ) := by positivity
  have hq1 : √(3 / 2 ^ 107 : ℝ) ≤ 49 / 40 / 2 ^ 53 := by
    rw [Real.sqrt_le_left (by norm_num)]; norm_num
  obtain ⟨r, hr, hrn⟩ := rnd_lt acc (v := √(3 / 2 ^ 107 : ℝ)) (by
    rw [abs_of_pos hq0]; norm_num at hq1 ⊢; linarith)
  have hscale : Is (s.scales 0) r := by
    rw [hsc]
    change Is (sqrt (if gt (v 0) 0 = true then v 0 else 1)) r
    rw [if_pos (hvar.gt Is.zero (by norm_num))]
    exact hvar.sqrt (by norm_num) hr
  unfold Near at hrn
  rw [abs_of_pos hq0, abs_le] at hrn
  have hr0 : 0 < r := by
    have h := (C98_scale_positive hs 0).2
    rw [val_real hscale.1, hscale.2] at h
    exact_mod_cast h
  have hq2 : 6 / 5 / 2 ^ 53 ≤ √(3 / 2 ^ 107 : ℝ) := by
    refine Real.le_sqrt_of_sq_le ?_; norm_num
  have hr1 : r ≤ 123 / 100 / 2 ^ 53 := by
    norm_num at hq1 hrn ht1 ⊢; linarith [hrn.2]
  have hr2 : 1 / 2 ^ 53 ≤ r := by
    norm_num at hq1 hq2 hrn ht1 ⊢; linarith [hrn.1]
  refine ⟨s, hs, hx, by rw [hsh]; exact hm0, ⟨hscale.1, ?_⟩, fun i => ?_⟩
  · rw [hscale.2]; norm_num at hr1 ⊢; linarith
  · have hdv := hdev i
    rw [← hsh] at hdv
    have k1 : 100 / 123 ≤ 1 / 2 ^ 53 / r := by
      rw [le_div_iff₀ hr0]; norm_num at hr1 ⊢; linarith
    have k2 : 1 / 2 ^ 53 / r ≤ 1 := by rw [div_le_one hr0]; exact hr2
    have k0 : 0 < 1 / 2 ^ 53 / r := by positivity
    obtain ⟨d1, d2⟩ := div_near acc hdv.1 hscale.1 (by rw [hscale.2]; exact hr0.ne') (by
      rw [hscale.2, hdv.2, abs_of_pos k0]; linarith)
    refine ⟨d1, ?_⟩
    change _ < real ((thirds.x i 0 - s.shifts 0) / s.scales 0)
    unfold Near at d2
    rw [hscale.2, hdv.2, abs_of_pos k0, abs_le] at d2
    generalize 1 / 2 ^ 53 / r = q at *
    generalize real ((thirds.x i 0 - s.shifts 0) / s.scales 0) = z at *
    norm_num at d2 ht1 ⊢
    linarith [d2.1]

end GLM
