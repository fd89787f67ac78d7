/-
  C96: the score computed in floating-point arithmetic is close to the exact one, and certifies how close
  the reported coefficients are to the optimum.
-/
import Verif.Spec.ScoreAccuracy
import Verif.Props.LikeAccuracy
import Verif.Props.Ridge

namespace GLM
open Spec Scalar Fl Matrix

section
variable {fmt : FloatFormat} {u tiny big : ℝ} {n p : ℕ} {b : Bool}

theorem rounded_ge (hu : 0 ≤ u) (ht : 0 ≤ tiny) {e v : ℝ} (he : 0 ≤ e) : e ≤ afterRounding u tiny e v := by
  have : 0 ≤ u * (|v| + e) := by positivity
  unfold afterRounding
  linarith

theorem rounded_mono (hu : 0 ≤ u) {e e' v : ℝ} (h : e ≤ e') : afterRounding u tiny e v ≤ afterRounding u tiny e' v := by
  have := mul_le_mul_of_nonneg_left (add_le_add_right h |v|) hu
  unfold afterRounding
  linarith

/-- One more rounding. -/
theorem near_rounded (hu : 0 ≤ u) {e v v' r : ℝ} (h : |v' - v| ≤ e) (hn : Near u tiny v' r) :
    |r - v| ≤ afterRounding u tiny e v := by
  unfold Near at hn
  have h1 := abs_add_le (r - v') (v' - v)
  rw [sub_add_sub_cancel] at h1
  have h2 := abs_add_le (v' - v) v
  rw [sub_add_cancel] at h2
  have h3 : u * |v'| ≤ u * (|v| + e) := mul_le_mul_of_nonneg_left (by linarith) hu
  unfold afterRounding
  linarith

/-- A difference of two quantities with known errors. -/
theorem sub_rounded (acc : Accurate fmt u tiny big) {x y : Fl fmt} (hx : x.isFinite) (hy : y.isFinite)
    {v w e d : ℝ} (h1 : |real x - v| ≤ e) (h2 : |real y - w| ≤ d) (hlt : |v - w| + (e + d) < big) :
    (x - y).isFinite ∧ |real (x - y) - (v - w)| ≤ afterRounding u tiny (e + d) (v - w) := by
  obtain ⟨n1, n2⟩ := real_neg hy
  have hv : |(real x + real (-y)) - (v - w)| ≤ e + d := by
    have e1 : (real x + real (-y)) - (v - w) = (real x - v) - (real y - w) := by rw [n2]; ring
    rw [e1]
    exact (abs_sub _ _).trans (add_le_add h1 h2)
  have hb : |real x + real (-y)| < big := by
    have := abs_add_le ((real x + real (-y)) - (v - w)) (v - w)
    rw [sub_add_cancel] at this
    linarith
  obtain ⟨f1, f2⟩ := add_near acc hx n1 hb
  rw [sub_eq]
  exact ⟨f1, near_rounded acc.u_nonneg hv f2⟩

theorem mul_diff {x y v w e d : ℝ} (h1 : |x - v| ≤ e) (h2 : |y - w| ≤ d) :
    |x * y - v * w| ≤ e * (|w| + d) + |v| * d := by
  have e1 : x * y - v * w = (x - v) * y + v * (y - w) := by ring
  have hy : |y| ≤ |w| + d := by
    have := abs_add_le (y - w) w
    rw [sub_add_cancel] at this
    linarith
  rw [e1]
  refine (abs_add_le _ _).trans ?_
  rw [abs_mul, abs_mul]
  have a1 := mul_le_mul h1 hy (abs_nonneg _) ((abs_nonneg _).trans h1)
  have a2 := mul_le_mul_of_nonneg_left h2 (abs_nonneg v)
  linarith

/-- A product of two quantities with known errors. -/
theorem mul_rounded (acc : Accurate fmt u tiny big) {x y : Fl fmt} (hx : x.isFinite) (hy : y.isFinite)
    {v w E : ℝ} (h : |real x * real y - v * w| ≤ E) (hlt : |v * w| + E < big) :
    (x * y).isFinite ∧ |real (x * y) - v * w| ≤ afterRounding u tiny E (v * w) := by
  have hb : |real x * real y| < big := by
    have := abs_add_le (real x * real y - v * w) (v * w)
    rw [sub_add_cancel] at this
    linarith
  obtain ⟨f1, f2⟩ := mul_near acc hx hy hb
  exact ⟨f1, near_rounded acc.u_nonneg h f2⟩

/-! ### One observation -/

theorem exactMean_real (fam : Family) (η : ℝ) : (fam.glm (F := ℝ)).link.funcInv η = exactMean fam η := by
  rw [funcInv_real]
  cases fam <;> first | rfl | exact (neg_div _ _).symm

/-- The derivative of the natural parameter, for every link but the complementary log-log link. -/
theorem slope_near (acc : Accurate fmt u tiny big) (fam : Family) {w : Fl fmt} (hw : w.isFinite)
    {η B : ℝ} (h : |real w - η| ≤ B) (hf : SlopeFits u tiny big B fam η) :
    (fam.glm.link.dNatParam w : Fl fmt).isFinite ∧
      |real (fam.glm.link.dNatParam w : Fl fmt) - (fam.glm (F := ℝ)).link.dNatParam η| ≤
        slopeError u tiny B fam η := by
  have hone : (1 : Fl fmt).isFinite ∧ |real (1 : Fl fmt) - 1| ≤ 0 := by
    refine ⟨real_one.1, ?_⟩
    rw [real_one.2, sub_self, abs_zero]
  have hlog : Real.exp (-η + B) < big → (exp (-w) : Fl fmt).isFinite ∧
      |real (exp (-w) : Fl fmt) - Real.exp (-η)| ≤
        ((1 + u) * Real.exp B - 1) * Real.exp (-η) + tiny := by
    intro hb
    obtain ⟨h1, h2⟩ := real_neg hw
    exact exp_near_move acc h1 (η := -η) (B := B)
      (by rw [h2, neg_sub_neg, abs_sub_comm]; exact h) hb
  cases fam with
  | logisticCloglog => exact hf.elim
  | exponentialLog => exact hlog hf
  | gammaLog => exact hlog hf
  | invGaussLog =>
    obtain ⟨hb1, hb2⟩ := hf
    have hu := acc.u_nonneg
    have hwη : |real w| ≤ |η| + B := by
      have := abs_add_le (real w - η) η
      rw [sub_add_cancel] at this
      linarith
    obtain ⟨htf, htr⟩ := two_near acc
    obtain ⟨hnf, hnr⟩ := real_neg htf
    rw [htr] at hnr
    have ha : |(-2 : ℝ) * real w| = 2 * |real w| := by rw [abs_mul]; norm_num
    obtain ⟨m1, m2⟩ := mul_near acc hnf hw (by rw [hnr, ha]; linarith)
    unfold Near at m2
    rw [hnr, ha] at m2
    have m3 : |real (-two * w : Fl fmt) - -2 * η| ≤ 2 * B + (u * (2 * (|η| + B)) + tiny) := by
      have e1 := abs_add_le (real (-two * w : Fl fmt) - -2 * real w) (-2 * real w - -2 * η)
      rw [sub_add_sub_cancel] at e1
      have e2 : |-2 * real w - -2 * η| ≤ 2 * B := by
        rw [← mul_sub, abs_mul]
        norm_num
        exact h
      have e3 : u * (2 * |real w|) ≤ u * (2 * (|η| + B)) := mul_le_mul_of_nonneg_left (by linarith) hu
      linarith
    have q := exp_near_move acc m1 m3 hb2
    have e : (Family.invGaussLog.glm (F := ℝ)).link.dNatParam η = Real.exp (-2 * η) :=
      dNatParam_real _ _
    rw [e]
    exact q
  | _ => exact hone

/-- The derivative of the log-likelihood of one observation, from a linear predictor with a known error,
for every family and link but the complementary log-log link. -/
theorem C96_work (acc : Accurate fmt u tiny big) (fam : Family) {y w : Fl fmt} (hy : y.isFinite)
    (hw : w.isFinite) {η B : ℝ} (h : |real w - η| ≤ B) (hm : MeanFits fmt u tiny big B fam η)
    (hs : SlopeFits u tiny big B fam η)
    (hlt : |real y - exactMean fam η| + meanError u tiny big B fam η < big)
    (hlt2 : |exactWork fam (real y) η| + workError u tiny big B fam (real y) η < big) :
    (fam.glm.link.adjustErrors (y - fam.glm.link.funcInv w) w : Fl fmt).isFinite ∧
      |real (fam.glm.link.adjustErrors (y - fam.glm.link.funcInv w) w : Fl fmt)
        - exactWork fam (real y) η| ≤ workError u tiny big B fam (real y) η := by
  have hu := acc.u_nonneg
  have ht := acc.tiny_nonneg
  obtain ⟨m1, m2⟩ := C86_mean acc fam hw h hm
  have r := sub_rounded acc hy m1 (v := real y) (e := 0) (by simp) m2 (by rw [zero_add]; exact hlt)
  rw [zero_add] at r
  obtain ⟨r1, r2⟩ := r
  obtain ⟨s1, s2⟩ := slope_near acc fam hw h hs
  have hcan : (∀ (x : ℝ), (fam.glm (F := ℝ)).link.dNatParam x = 1) →
      |real (y - fam.glm.link.funcInv w : Fl fmt) - exactWork fam (real y) η| ≤
        residError u tiny big B fam (real y) η := by
    intro hd
    unfold exactWork
    rw [hd, one_mul]
    exact r2
  have hmul : |exactWork fam (real y) η| + afterRounding u tiny
        (|(fam.glm (F := ℝ)).link.dNatParam η| * residError u tiny big B fam (real y) η
          + slopeError u tiny B fam η * (|real y - exactMean fam η|
            + residError u tiny big B fam (real y) η)) (exactWork fam (real y) η) < big →
      (fam.glm.link.dNatParam w * (y - fam.glm.link.funcInv w) : Fl fmt).isFinite ∧
      |real (fam.glm.link.dNatParam w * (y - fam.glm.link.funcInv w) : Fl fmt)
        - exactWork fam (real y) η| ≤ afterRounding u tiny
        (|(fam.glm (F := ℝ)).link.dNatParam η| * residError u tiny big B fam (real y) η
          + slopeError u tiny B fam η * (|real y - exactMean fam η|
            + residError u tiny big B fam (real y) η)) (exactWork fam (real y) η) := by
    intro hb
    have hd := mul_diff s2 r2
    rw [add_comm] at hd
    refine mul_rounded acc s1 r1 hd (lt_of_le_of_lt (add_le_add_right ?_ _) hb)
    exact rounded_ge hu ht ((abs_nonneg _).trans hd)
  cases fam with
  | logisticCloglog => exact hs.elim
  | exponentialLog => exact hmul hlt2
  | gammaLog => exact hmul hlt2
  | invGaussLog => exact hmul hlt2
  | linear => exact ⟨r1, hcan fun _ => rfl⟩
  | logisticLogit => exact ⟨r1, hcan fun _ => rfl⟩
  | poisson => exact ⟨r1, hcan fun _ => rfl⟩
  | binomial N => exact ⟨r1, hcan fun _ => rfl⟩
  | exponentialNegRec => exact ⟨r1, hcan fun _ => rfl⟩
  | gammaNegRec => exact ⟨r1, hcan fun _ => rfl⟩
  | invGaussNegRecSq => exact ⟨r1, hcan fun _ => rfl⟩

/-! ### All observations -/

/-- The entries of the weighted design matrix. -/
theorem col_near (acc : Accurate fmt u tiny big) {raw : Dataset (Fl fmt) n p false}
    {data : Dataset (Fl fmt) n p b} (hd : raw.finalize false b = some data) {i : Fin n}
    (hx : ∀ j, (raw.x i j).isFinite) (hw : ∀ w, raw.weights = some w → (w i).isFinite)
    (hf : ∀ f, raw.freqs = some f → (f i).isFinite) (j : Fin (ncols b p))
    (h1 : |exactDesign raw b i j * freq (exactData raw) i| < big)
    (h2 : |exactDesign raw b i j * totalWt (exactData raw) i| + colError u tiny raw b i j < big) :
    (data.xConj j i).isFinite ∧
      |real (data.xConj j i) - exactDesign raw b i j * totalWt (exactData raw) i| ≤
        colError u tiny raw b i j := by
  have hu := acc.u_nonneg
  have ht := acc.tiny_nonneg
  have hd' := finalize_plain hd
  obtain ⟨p1, p2⟩ := padded_finite hx b j
  have p2 : real (Dataset.padded b raw.x i j) = exactDesign raw b i j := p2
  have r0 : ∀ v, 0 ≤ afterRounding u tiny 0 v := fun v => rounded_ge hu ht le_rfl
  have key : ∀ z : Fl fmt, z.isFinite → |real z - exactDesign raw b i j * freq (exactData raw) i| ≤
      afterRounding u tiny 0 (exactDesign raw b i j * freq (exactData raw) i) →
      (match raw.weights with | none => z | some w => z * w i).isFinite ∧
      |real (match raw.weights with | none => z | some w => z * w i)
        - exactDesign raw b i j * totalWt (exactData raw) i| ≤ colError u tiny raw b i j := by
    intro z hz hzr
    have ht2 : exactDesign raw b i j * totalWt (exactData raw) i
        = exactDesign raw b i j * freq (exactData raw) i * varWt (exactData raw) i := by
      rw [totalWt]; ring
    unfold colError at h2 ⊢
    rw [ht2] at h2 ⊢
    generalize exactDesign raw b i j * freq (exactData raw) i = a at *
    have hE : 0 ≤ |varWt (exactData raw) i| * afterRounding u tiny 0 a := mul_nonneg (abs_nonneg _) (r0 _)
    have hge := rounded_ge hu ht (v := a * varWt (exactData raw) i) hE
    cases hr : raw.weights with
    | none =>
      have e2 : varWt (exactData raw) i = 1 := by simp only [varWt, exactData, hr, Option.map_none]
      rw [e2] at hge ⊢
      rw [mul_one, abs_one, one_mul] at *
      exact ⟨hz, hzr.trans hge⟩
    | some w =>
      have e2 : varWt (exactData raw) i = real (w i) := by
        simp only [varWt, exactData, hr, Option.map_some]
      rw [e2] at h2 hge ⊢
      refine mul_rounded acc hz (hw w hr) ?_ (lt_of_le_of_lt (add_le_add_right hge _) h2)
      rw [← sub_mul, abs_mul, mul_comm]
      exact mul_le_mul_of_nonneg_left hzr (abs_nonneg _)
  cases hr : raw.freqs with
  | none =>
    have e1 : data.xConj j i = (match raw.weights with
        | none => Dataset.padded b raw.x i j | some w => Dataset.padded b raw.x i j * w i) := by
      rw [hd']
      cases hw' : raw.weights <;> simp only [Dataset.xConj, Dataset.weightCols, hr, Mat.tr]
    have e2 : freq (exactData raw) i = 1 := by simp only [freq, exactData, hr, Option.map_none]
    rw [e1]
    refine key _ p1 ?_
    rw [p2, e2, mul_one, sub_self, abs_zero]
    exact r0 _
  | some f =>
    have e1 : data.xConj j i = (match raw.weights with
        | none => Dataset.padded b raw.x i j * f i
        | some w => Dataset.padded b raw.x i j * f i * w i) := by
      rw [hd']
      cases hw' : raw.weights <;> simp only [Dataset.xConj, Dataset.weightCols, hr, Mat.tr]
    have e2 : freq (exactData raw) i = real (f i) := by
      simp only [freq, exactData, hr, Option.map_some]
    rw [e1]
    have m := mul_rounded acc p1 (hf f hr) (v := exactDesign raw b i j) (w := real (f i)) (E := 0)
      (by rw [p2, sub_self, abs_zero]) (by rw [add_zero, ← e2]; exact h1)
    rw [e2] at key
    rw [← e2] at m
    rw [e2] at m
    exact key _ m.1 m.2

/-- An inner product of quantities with known errors. -/
theorem dot_rounded (acc : Accurate fmt u tiny big) {a c : Vec (Fl fmt) n} {v w e d : Fin n → ℝ}
    (ha : ∀ i, (a i).isFinite) (hc : ∀ i, (c i).isFinite) (h1 : ∀ i, |real (a i) - v i| ≤ e i)
    (h2 : ∀ i, |real (c i) - w i| ≤ d i) (site : SumSite)
    (hlt : ∑ i, |v i * w i| + (∑ i, (e i * (|w i| + d i) + |v i| * d i)
      + sumError u tiny ((fmt.order site n).tree.depth 1) ((fmt.order site n).tree.ops 1)
        (∑ i, |v i * w i| + ∑ i, (e i * (|w i| + d i) + |v i| * d i))) < big) :
    (vdotBy site a c).isFinite ∧ |real (vdotBy site a c) - ∑ i, v i * w i| ≤
      ∑ i, (e i * (|w i| + d i) + |v i| * d i)
      + sumError u tiny ((fmt.order site n).tree.depth 1) ((fmt.order site n).tree.ops 1)
        (∑ i, |v i * w i| + ∑ i, (e i * (|w i| + d i) + |v i| * d i)) := by
  have hu := acc.u_nonneg
  have ht := acc.tiny_nonneg
  have hm := fun i => mul_diff (h1 i) (h2 i)
  set E := ∑ i, (e i * (|w i| + d i) + |v i| * d i) with hE
  set S := ∑ i, |v i * w i| with hS
  have hsz : ∑ i, |real (a i) * real (c i)| ≤ S + E := by
    rw [hS, hE, ← Finset.sum_add_distrib]
    refine Finset.sum_le_sum fun i _ => ?_
    have := abs_add_le (real (a i) * real (c i) - v i * w i) (v i * w i)
    rw [sub_add_cancel] at this
    linarith [hm i]
  have hs0 : 0 ≤ ∑ i, |real (a i) * real (c i)| := Finset.sum_nonneg fun _ _ => abs_nonneg _
  have hmono := sumError_mono hu ht (le_refl ((fmt.order site n).tree.depth 1))
    (le_refl ((fmt.order site n).tree.ops 1)) hs0 hsz
  obtain ⟨f1, f2⟩ := dot_near acc ha hc (fmt.order site n) (by linarith)
  refine ⟨f1, ?_⟩
  have e1 : |∑ i, real (a i) * real (c i) - ∑ i, v i * w i| ≤ E := by
    rw [← Finset.sum_sub_distrib]
    exact (Finset.abs_sum_le_sum_abs _ _).trans (Finset.sum_le_sum fun i _ => hm i)
  have e2 := abs_add_le (real (vdotBy site a c) - ∑ i, real (a i) * real (c i))
    (∑ i, real (a i) * real (c i) - ∑ i, v i * w i)
  rw [sub_add_sub_cancel] at e2
  have f2' : |real (vdotBy site a c) - ∑ i, real (a i) * real (c i)| ≤ _ := f2
  linarith

/-- The exact score of the data, observation by observation. -/
theorem exact_score (fam : Family) (raw : Dataset (Fl fmt) n p false) (β : Vec (Fl fmt) (ncols b p))
    (j : Fin (ncols b p)) : scoreVec fam.glm (exactData raw) b (fun j => real (β j)) j
      = ∑ i, exactDesign raw b i j * totalWt (exactData raw) i * rowWork fam raw b β i := by
  unfold scoreVec meanAt rowWork exactWork exactDesign
  refine Finset.sum_congr rfl fun i _ => ?_
  rw [exactData_linPred, ← exactMean_real]
  change totalWt (exactData raw) i * _ * (real (raw.y i) - _) * _ = _
  ring

theorem exactScore_eq (fam : Family) (raw : Dataset (Fl fmt) n p false) (l1 l2 : ℝ)
    (β : Vec (Fl fmt) (ncols b p)) (j : Fin (ncols b p)) : exactScore fam raw b l1 l2 β j
      = scoreVec fam.glm (exactData raw) b (fun j => real (β j)) j - l1Grad b l1 β j - l2Grad b l2 β j := by
  unfold exactScore penScore l1Grad l2Grad
  cases b
  · simp only [onSlopes, slopes, strength, one_mul, one_pow]; ring
  · refine Fin.cases ?_ (fun j => ?_) j
    · simp only [onSlopes, strength, Fin.cons_zero]; ring
    · simp only [onSlopes, slopes, strength, Fin.cons_succ, one_mul, one_pow]; ring

theorem sign_real' {x : Fl fmt} (h : x.isFinite) :
    (sign x).isFinite ∧ real (sign x) = SignType.sign (real x) := by
  unfold Scalar.sign
  have hz : eq x 0 = true ↔ real x = 0 := by
    rw [eq_iff, val_real h, show (0 : Fl fmt).val = ((0 : ℝ) : EReal) from rfl, EReal.coe_eq_coe_iff]
    exact ⟨fun h => h.2.2, fun h' => ⟨h.1, id, h'⟩⟩
  split
  · rename_i h0
    rw [hz] at h0
    rw [h0, sign_zero]
    exact real_zero
  · rename_i h0
    rw [hz] at h0
    have e : signum x = if x.neg? then (num (-1) : Fl fmt) else num 1 := if_neg h.1
    rw [e]
    rcases lt_or_gt_of_ne h0 with h1 | h1
    · rw [neg_of_val_neg h.1 (by rw [val_real h]; exact_mod_cast h1), if_pos rfl, sign_neg h1]
      exact finite_of_val (isNaN_num _) rfl
    · rw [neg_of_val_pos (by rw [val_real h]; exact_mod_cast h1), if_neg (by simp), sign_pos h1]
      exact finite_of_val (isNaN_num _) rfl

variable {env : Env (Fl fmt)} {fam : Family} {raw : Dataset (Fl fmt) n p false}
  {data : Dataset (Fl fmt) n p b} {options : FitOptions (Fl fmt) (ncols b p)}

/-- The score of the data. -/
theorem dataScore_near (acc : Accurate fmt u tiny big) (hd : raw.finalize false b = some data)
    {l1 l2 : Fl fmt} {β : Vec (Fl fmt) (ncols b p)} {j : Fin (ncols b p)}
    (hf : ScoreFits u tiny big fam raw b l1 l2 β j)
    (hlt : scoreSize fam raw b β j + dataScoreError u tiny big fam raw b β j < big) :
    (data.xConj.dotV (fun i => fam.glm.link.adjustErrors
        (data.y i - fam.glm.link.funcInv (data.linearPredictorStd β i)) (data.linearPredictorStd β i))
      j).isFinite ∧
    |real (data.xConj.dotV (fun i => fam.glm.link.adjustErrors
        (data.y i - fam.glm.link.funcInv (data.linearPredictorStd β i)) (data.linearPredictorStd β i)) j)
      - scoreVec fam.glm (exactData raw) b (fun j => real (β j)) j| ≤
        dataScoreError u tiny big fam raw b β j := by
  obtain ⟨hy, hw, hfr, -, -, hβ, hp, hm, hs, hr, hwk, hx1, hx2, -⟩ := hf
  have hpred : ∀ i, data.linearPredictorStd β i = computedPred b raw.x raw.linearOffset β i := by
    intro i
    rw [finalize_plain hd]
    unfold Dataset.linearPredictorStd computedPred
    cases raw.linearOffset <;> rfl
  have hyd : data.y = raw.y := by rw [finalize_plain hd]
  have hrow : ∀ i, _ := fun i =>
    let h := computedPred_near acc (hp i)
    C96_work acc fam (hy i) h.1 h.2 (hm i) (hs i) (hr i) (hwk i)
  have hcol := fun i => col_near acc hd (hp i).1 (fun w h => hw w h i) (fun f h => hfr f h i) j (hx1 i)
    (hx2 i)
  rw [exact_score]
  simp only [hpred, hyd]
  exact dot_rounded acc (fun i => (hcol i).1) (fun i => (hrow i).1) (fun i => (hcol i).2)
    (fun i => (hrow i).2) (.matVec (ncols b p) j) hlt

theorem dataScoreError_nonneg (acc : Accurate fmt u tiny big) (hd : raw.finalize false b = some data)
    {l1 l2 : Fl fmt} {β : Vec (Fl fmt) (ncols b p)} {j : Fin (ncols b p)}
    (hf : ScoreFits u tiny big fam raw b l1 l2 β j) : 0 ≤ dataScoreError u tiny big fam raw b β j := by
  obtain ⟨hy, hw, hfr, -, -, hβ, hp, hm, hs, hr, hwk, hx1, hx2, -⟩ := hf
  have h1 : 0 ≤ scoreTermError u tiny big fam raw b β j := by
    refine Finset.sum_nonneg fun i _ => ?_
    have h := computedPred_near acc (hp i)
    have a1 := (abs_nonneg _).trans (C96_work acc fam (hy i) h.1 h.2 (hm i) (hs i) (hr i) (hwk i)).2
    have a2 := (abs_nonneg _).trans (col_near acc hd (hp i).1 (fun w h => hw w h i)
      (fun f h => hfr f h i) j (hx1 i) (hx2 i)).2
    have a1 : 0 ≤ rowWorkError u tiny big fam raw b β i := a1
    positivity
  have h2 : 0 ≤ scoreSize fam raw b β j := Finset.sum_nonneg fun _ _ => abs_nonneg _
  exact add_nonneg h1 (sumError_nonneg acc.u_nonneg acc.tiny_nonneg (by positivity))

/-- Subtracting the gradient of the penalty. -/
theorem gradient_near (acc : Accurate fmt u tiny big) (options : FitOptions (Fl fmt) (ncols b p))
    (h1 : options.l1.isFinite) (h2 : options.l2.isFinite) {β : Vec (Fl fmt) (ncols b p)}
    (hβ : ∀ j, (β j).isFinite) {jac : Vec (Fl fmt) (ncols b p)} {j : Fin (ncols b p)}
    (hj : (jac j).isFinite) {s S D : ℝ} (hs : |real (jac j) - s| ≤ D) (hS : |s| ≤ S)
    (hlt : S + |l1Grad b (real options.l1) β j| + |l2Grad b (real options.l2) β j|
      + afterRounding u tiny
          (afterRounding u tiny (D + afterRounding u tiny 0 (l1Grad b (real options.l1) β j))
            (s - l1Grad b (real options.l1) β j)
            + afterRounding u tiny 0 (l2Grad b (real options.l2) β j))
          (s - l1Grad b (real options.l1) β j - l2Grad b (real options.l2) β j) < big) :
    ((getReg options).gradient jac β j).isFinite ∧
      |real ((getReg options).gradient jac β j)
        - (s - l1Grad b (real options.l1) β j - l2Grad b (real options.l2) β j)| ≤
        afterRounding u tiny
          (afterRounding u tiny (D + afterRounding u tiny 0 (l1Grad b (real options.l1) β j))
            (s - l1Grad b (real options.l1) β j)
            + afterRounding u tiny 0 (l2Grad b (real options.l2) β j))
          (s - l1Grad b (real options.l1) β j - l2Grad b (real options.l2) β j) := by
  have hu := acc.u_nonneg
  have ht := acc.tiny_nonneg
  have hD : 0 ≤ D := (abs_nonneg _).trans hs
  have r0 : ∀ v, 0 ≤ afterRounding u tiny 0 v := fun v => rounded_ge hu ht le_rfl
  -- the two products
  have m1 : 0 < real options.l1 → |l1Grad b (real options.l1) β j| < big →
      ((zeroFirstMaybe (vfill options.l1) : Vec (Fl fmt) (ncols b p)) j * sign (β j)).isFinite ∧
      |real ((zeroFirstMaybe (vfill options.l1) : Vec (Fl fmt) (ncols b p)) j * sign (β j))
        - l1Grad b (real options.l1) β j| ≤ afterRounding u tiny 0 (l1Grad b (real options.l1) β j) := by
    intro h0 hb
    obtain ⟨z1, z2⟩ := zeroFirst_real h1 h0 j
    obtain ⟨s1, s2⟩ := sign_real' (hβ j)
    exact mul_rounded acc z1 s1 (by rw [z2, s2, sub_self, abs_zero]) (by rw [add_zero]; exact hb)
  have m2 : 0 < real options.l2 → |l2Grad b (real options.l2) β j| < big →
      ((zeroFirstMaybe (vfill options.l2) : Vec (Fl fmt) (ncols b p)) j * β j).isFinite ∧
      |real ((zeroFirstMaybe (vfill options.l2) : Vec (Fl fmt) (ncols b p)) j * β j)
        - l2Grad b (real options.l2) β j| ≤ afterRounding u tiny 0 (l2Grad b (real options.l2) β j) := by
    intro h0 hb
    obtain ⟨z1, z2⟩ := zeroFirst_real h2 h0 j
    exact mul_rounded acc z1 (hβ j) (by rw [z2, sub_self, abs_zero]) (by rw [add_zero]; exact hb)
  have z1 : real options.l1 ≤ 0 → l1Grad b (real options.l1) β j = 0 := fun h0 => by
    unfold l1Grad; rw [strength_zero h0, zero_mul]
  have z2 : real options.l2 ≤ 0 → l2Grad b (real options.l2) β j = 0 := fun h0 => by
    unfold l2Grad; rw [strength_zero h0, zero_mul]
  have g1 := gt_zero_real h1
  have g2 := gt_zero_real h2
  generalize l1Grad b (real options.l1) β j = a1 at *
  generalize l2Grad b (real options.l2) β j = a2 at *
  have hS0 := (abs_nonneg s).trans hS
  have d1 : D ≤ D + afterRounding u tiny 0 a1 := by linarith [r0 a1]
  have d2 := rounded_ge hu ht (v := s - a1) (hD.trans d1)
  have d3 : afterRounding u tiny (D + afterRounding u tiny 0 a1) (s - a1)
      ≤ afterRounding u tiny (D + afterRounding u tiny 0 a1) (s - a1) + afterRounding u tiny 0 a2 := by
    linarith [r0 a2]
  have d4 := rounded_ge hu ht (v := s - a1 - a2) (((hD.trans d1).trans d2).trans d3)
  have b1 : |s - a1| ≤ S + |a1| := (abs_sub _ _).trans (by linarith)
  have b2 : |s - a1 - a2| ≤ S + |a1| + |a2| := (abs_sub _ _).trans (by linarith)
  have p1 := abs_nonneg a1
  have p2 := abs_nonneg a2
  have q2 := r0 a2
  rcases le_or_gt (real options.l1) 0 with l1 | l1 <;> rcases le_or_gt (real options.l2) 0 with l2 | l2
  · have k1 : gt options.l1 0 = false := by rw [Bool.eq_false_iff, ne_eq, g1]; exact not_lt.mpr l1
    have k2 : gt options.l2 0 = false := by rw [Bool.eq_false_iff, ne_eq, g2]; exact not_lt.mpr l2
    have e : (getReg options).gradient jac β j = jac j := by
      unfold getReg; simp only [k1, k2]; rfl
    rw [e, z1 l1, z2 l2] at *
    rw [sub_zero, sub_zero] at *
    exact ⟨hj, hs.trans (by linarith)⟩
  · have k1 : gt options.l1 0 = false := by rw [Bool.eq_false_iff, ne_eq, g1]; exact not_lt.mpr l1
    have k2 : gt options.l2 0 = true := g2.mpr l2
    have e : (getReg options).gradient jac β j
        = jac j - (zeroFirstMaybe (vfill options.l2) : Vec (Fl fmt) (ncols b p)) j * β j := by
      unfold getReg; simp only [k1, k2]; rfl
    obtain ⟨y1, y2⟩ := m2 l2 (by linarith)
    rw [e]
    rw [z1 l1, sub_zero] at *
    have := sub_rounded acc hj y1 hs y2 (by linarith)
    exact ⟨this.1, this.2.trans (rounded_mono hu (by linarith))⟩
  · have k1 : gt options.l1 0 = true := g1.mpr l1
    have k2 : gt options.l2 0 = false := by rw [Bool.eq_false_iff, ne_eq, g2]; exact not_lt.mpr l2
    have e : (getReg options).gradient jac β j
        = jac j - (zeroFirstMaybe (vfill options.l1) : Vec (Fl fmt) (ncols b p)) j * sign (β j) := by
      unfold getReg; simp only [k1, k2]; rfl
    obtain ⟨y1, y2⟩ := m1 l1 (by linarith)
    rw [e]
    rw [z2 l2, sub_zero] at *
    have := sub_rounded acc hj y1 hs y2 (by linarith)
    exact ⟨this.1, this.2.trans (by linarith)⟩
  · have k1 : gt options.l1 0 = true := g1.mpr l1
    have k2 : gt options.l2 0 = true := g2.mpr l2
    have e : (getReg options).gradient jac β j
        = jac j - (zeroFirstMaybe (vfill options.l1) : Vec (Fl fmt) (ncols b p)) j * sign (β j)
          - (zeroFirstMaybe (vfill options.l2) : Vec (Fl fmt) (ncols b p)) j * β j := by
      unfold getReg; simp only [k1, k2]; rfl
    obtain ⟨y1, y2⟩ := m1 l1 (by linarith)
    obtain ⟨w1, w2⟩ := m2 l2 (by linarith)
    rw [e]
    have r := sub_rounded acc hj y1 hs y2 (by linarith)
    exact sub_rounded acc r.1 w1 r.2 w2 (by linarith)

/-- The gradient that the fit computes from the design matrix without standardization. -/
theorem plainScore_near (acc : Accurate fmt u tiny big) (hd : raw.finalize false b = some data)
    (options : FitOptions (Fl fmt) (ncols b p)) {β : Vec (Fl fmt) (ncols b p)} {j : Fin (ncols b p)}
    (hf : ScoreFits u tiny big fam raw b options.l1 options.l2 β j) :
    ((getReg options).gradient (data.xConj.dotV (fun i => fam.glm.link.adjustErrors
        (data.y i - fam.glm.link.funcInv (data.linearPredictorStd β i)) (data.linearPredictorStd β i))) β
      j).isFinite ∧
    |real ((getReg options).gradient (data.xConj.dotV (fun i => fam.glm.link.adjustErrors
        (data.y i - fam.glm.link.funcInv (data.linearPredictorStd β i)) (data.linearPredictorStd β i))) β j)
      - exactScore fam raw b (real options.l1) (real options.l2) β j| ≤
        scoreError u tiny big fam raw b (real options.l1) (real options.l2) β j := by
  have hu := acc.u_nonneg
  have ht := acc.tiny_nonneg
  have hD := dataScoreError_nonneg acc hd hf
  have r0 : ∀ v, 0 ≤ afterRounding u tiny 0 v := fun v => rounded_ge hu ht le_rfl
  obtain ⟨-, -, -, fl1, fl2, hβ, -, -, -, -, -, -, -, hlt⟩ := id hf
  have hS : |scoreVec fam.glm (exactData raw) b (fun j => real (β j)) j| ≤ scoreSize fam raw b β j := by
    rw [exact_score]
    exact Finset.abs_sum_le_sum_abs _ _
  have hz : l2Grad b 0 β j = 0 := by unfold l2Grad; rw [strength_zero le_rfl, zero_mul]
  have e1 := rounded_ge hu ht (v := exactScore fam raw b (real options.l1) 0 β j)
    (add_nonneg hD (r0 (l1Grad b (real options.l1) β j)))
  have e2 := rounded_ge hu ht (v := exactScore fam raw b (real options.l1) (real options.l2) β j)
    (add_nonneg ((add_nonneg hD (r0 (l1Grad b (real options.l1) β j))).trans e1)
      (r0 (l2Grad b (real options.l2) β j)))
  have hsc := dataScore_near acc hd hf (by
    have := abs_nonneg (l1Grad b (real options.l1) β j)
    have := abs_nonneg (l2Grad b (real options.l2) β j)
    have := r0 (l1Grad b (real options.l1) β j)
    have := r0 (l2Grad b (real options.l2) β j)
    unfold scoreError lassoScoreError at hlt
    linarith)
  unfold scoreError lassoScoreError at hlt ⊢
  simp only [exactScore_eq, hz, sub_zero] at hlt ⊢
  exact gradient_near acc options fl1 fl2 hβ hsc.1 hsc.2 hS hlt

/-- **C96**: the score that a fit reports at any coefficients, for finite data without overflow, with any
weights, offsets and penalties and in any order of summation, is finite and close to the gradient of the
exact penalized log-likelihood. -/
theorem C96_score (acc : Accurate fmt u tiny big) (hd : raw.finalize false b = some data)
    {f : Fit (Fl fmt) n p b} (h : regression env fam.glm data options = .ok f)
    {β : Vec (Fl fmt) (ncols b p)} {j : Fin (ncols b p)}
    (hf : ScoreFits u tiny big fam raw b options.l1 options.l2 β j) :
    (f.score β j).isFinite ∧
      |real (f.score β j) - exactScore fam raw b (real options.l1) (real options.l2) β j| ≤
        scoreError u tiny big fam raw b (real options.l1) (real options.l2) β j := by
  obtain ⟨hg, hdat, hopt, hc⟩ := regression_coherent h
  have hreg := hc.reg
  rw [hopt] at hreg
  have hfin := plainScore_near acc hd options hf
  have hs : f.score β = (getReg options).gradient (data.xConj.dotV (fun i => fam.glm.link.adjustErrors
        (data.y i - fam.glm.link.funcInv (data.linearPredictorStd β i)) (data.linearPredictorStd β i))) β := by
    unfold Fit.score
    rw [hg, hdat, hreg.gradient]
    have t1 : data.transformBeta β = β := by rw [finalize_plain hd]; cases b <;> rfl
    have t2 : ∀ v, data.inverseTransformScore v = v := by
      intro v; rw [finalize_plain hd]; cases b <;> rfl
    simp only [t1, t2]
    rfl
  rw [hs]
  exact hfin

end
end GLM
