/-
  C86: predictions computed in floating point are close to the exact ones.
-/
import Verif.Lemmas.AccuracyMean
import Verif.Props.RoundingFit

namespace GLM
open Spec Scalar Fl

section
variable {fmt : FloatFormat} {u tiny big : ℝ} {n p : ℕ} {b : Bool}

/-- A sum of finite numbers, in any order, with any bracketing and in any number of steps: unless it
comes close to overflow it is finite, and its error is small compared to the sum of the absolute
values. -/
theorem C86_sum (acc : Accurate fmt u tiny big) {v : Vec (Fl fmt) n} (hv : ∀ i, (v i).isFinite)
    (o : SumOrder n)
    (hlt : ∑ i, |real (v i)| + sumError u tiny (o.tree.depth 0) (o.tree.ops 0) (∑ i, |real (v i)|)
      < big) :
    (o.tree.eval v fun i acc => acc + v i).isFinite ∧
      |real (o.tree.eval v fun i acc => acc + v i) - ∑ i, real (v i)| ≤
        sumError u tiny (o.tree.depth 0) (o.tree.ops 0) (∑ i, |real (v i)|) :=
  sum_near acc hv o hlt

/-- An inner product of finite numbers, in any order, with or without fused operations. -/
theorem C86_dot (acc : Accurate fmt u tiny big) {a c : Vec (Fl fmt) n} (ha : ∀ i, (a i).isFinite)
    (hc : ∀ i, (c i).isFinite) (o : SumOrder n)
    (hlt : ∑ i, |real (a i) * real (c i)| +
      sumError u tiny (o.tree.depth 1) (o.tree.ops 1) (∑ i, |real (a i) * real (c i)|) < big) :
    (o.tree.eval (fun i => a i * c i) fun i acc => fma (a i) (c i) acc).isFinite ∧
      |real (o.tree.eval (fun i => a i * c i) fun i acc => fma (a i) (c i) acc)
        - ∑ i, real (a i) * real (c i)| ≤
        sumError u tiny (o.tree.depth 1) (o.tree.ops 1) (∑ i, |real (a i) * real (c i)|) :=
  dot_near acc ha hc o hlt

theorem SumTree.left_depth (q : ℕ) (l : List (Fin n)) (acc : SumTree n) :
    (SumTree.left l acc).depth q ≤ max (acc.depth q) q + l.length ∧
      (SumTree.left l acc).ops q = acc.ops q + l.length * (q + 1) := by
  induction l generalizing acc with
  | nil => simp [SumTree.left]
  | cons i l ih =>
    obtain ⟨h1, h2⟩ := ih (.add acc (.term i))
    refine ⟨h1.trans ?_, ?_⟩
    · simp only [SumTree.depth, List.length_cons]
      omega
    · rw [SumTree.left, h2]
      simp only [SumTree.ops, List.length_cons]
      ring

/-- From left to right an inner product of `n` terms has at most `n + 1` roundings for each term, and
`2n` altogether. -/
theorem C86_left (n : ℕ) : (SumOrder.left n).tree.depth 1 ≤ n + 1 ∧
    (SumOrder.left n).tree.ops 1 = 2 * n := by
  have := SumTree.left_depth 1 (List.finRange n) .zero
  rw [List.length_finRange] at this
  refine ⟨this.1.trans (by simp [SumTree.depth]; omega), ?_⟩
  change (SumTree.left (List.finRange n) .zero).ops 1 = _
  rw [this.2]
  simp only [SumTree.ops]
  omega

/-- A chain of fused operations, starting at zero. -/
def SumTree.chain (l : List (Fin n)) : SumTree n := l.foldr SumTree.fused .zero

theorem SumTree.chain_terms (l : List (Fin n)) : (SumTree.chain l).terms = l := by
  induction l with
  | nil => rfl
  | cons i l ih => exact congrArg (i :: ·) ih

/-- With fused operations there are `n` roundings, and at most `n` for each term. -/
theorem C86_fused (n : ℕ) : ∃ o : SumOrder n, o.tree = SumTree.chain (List.finRange n) ∧
    o.tree.depth 1 = n ∧ o.tree.ops 1 = n := by
  have h : ∀ l : List (Fin n), (SumTree.chain l).depth 1 = l.length ∧
      (SumTree.chain l).ops 1 = l.length := by
    intro l
    induction l with
    | nil => exact ⟨rfl, rfl⟩
    | cons i l ih => exact ⟨congrArg (· + 1) ih.1, congrArg (· + 1) ih.2⟩
  refine ⟨⟨SumTree.chain (List.finRange n), by rw [SumTree.chain_terms]⟩, rfl, ?_, ?_⟩
  · exact (h _).1.trans List.length_finRange
  · exact (h _).2.trans List.length_finRange

theorem padded_finite {m : ℕ} {x : Mat (Fl fmt) m p} {i : Fin m} (hx : ∀ j, (x i j).isFinite) (b : Bool)
    (j : Fin (ncols b p)) : (Dataset.padded b x i j).isFinite ∧
      real (Dataset.padded b x i j) = design b (fun i j => real (x i j)) i j := by
  cases b with
  | false => exact ⟨hx j, rfl⟩
  | true =>
    refine Fin.cases ?_ (fun j => ?_) j
    · exact real_one
    · exact ⟨hx j, rfl⟩

/-- The linear predictor as it is computed. -/
noncomputable def computedPred (b : Bool) {m : ℕ} (x : Mat (Fl fmt) m p) (off : Option (Vec (Fl fmt) m))
    (β : Vec (Fl fmt) (ncols b p)) (i : Fin m) : Fl fmt := match off with
  | none => (Dataset.padded b x).dotV β i
  | some o => (Dataset.padded b x).dotV β i + o i

theorem computedPred_near (acc : Accurate fmt u tiny big) {m : ℕ} {x : Mat (Fl fmt) m p}
    {off : Option (Vec (Fl fmt) m)} {β : Vec (Fl fmt) (ncols b p)} {i : Fin m}
    (h : PredFits u tiny big b x off β i) :
    (computedPred b x off β i).isFinite ∧
      |real (computedPred b x off β i) - exactPred b x off β i| ≤ predError u tiny b x off β i := by
  obtain ⟨hx, hβ, ho, hlt⟩ := h
  have hp := padded_finite hx b
  have hdot := dot_near acc (fun j => (hp j).1) hβ (fmt.order (.matVec m i) (ncols b p))
  simp only [fun j => (hp j).2] at hdot
  have hu := acc.u_nonneg
  have ht := acc.tiny_nonneg
  cases off with
  | none =>
    simp only [predSize, predError, offsetAt, abs_zero, add_zero] at hlt
    simp only [predError, predSize, exactPred, offsetAt, abs_zero, add_zero]
    exact hdot hlt
  | some o =>
    simp only [predSize, predError, offsetAt, predDepth, predOps] at hlt
    simp only [predError, predSize, exactPred, offsetAt, predDepth, predOps]
    set S := ∑ j, |design b (fun i j => real (x i j)) i j * real (β j)| with hS
    set T := ∑ j, design b (fun i j => real (x i j)) i j * real (β j) with hTd
    set d := (fmt.order (.matVec m i) (ncols b p)).tree.depth 1
    set k := (fmt.order (.matVec m i) (ncols b p)).tree.ops 1
    have hS0 : 0 ≤ S := Finset.sum_nonneg fun _ _ => abs_nonneg _
    have ho0 := abs_nonneg (real (o i))
    have hTS : |T| ≤ S := Finset.abs_sum_le_sum_abs _ _
    have hm : sumError u tiny d k S ≤ sumError u tiny d k (S + |real (o i)|) :=
      sumError_mono hu ht le_rfl le_rfl hS0 (by linarith)
    have hsucc : sumError u tiny d k (S + |real (o i)|) ≤
        sumError u tiny (d + 1) (k + 1) (S + |real (o i)|) :=
      sumError_mono hu ht (by omega) (by omega) (by linarith) le_rfl
    obtain ⟨f1, n1⟩ := hdot (by linarith)
    have hv : |(real ((Dataset.padded b x).dotV β i) + real (o i)) - (T + real (o i))| ≤
        sumError u tiny d k (S + |real (o i)|) := by
      rw [add_sub_add_right_eq_sub]
      exact n1.trans hm
    have hT : |T + real (o i)| ≤ S + |real (o i)| := (abs_add_le _ _).trans (by linarith)
    have hab : |real ((Dataset.padded b x).dotV β i) + real (o i)| < big := by
      have := abs_add_le ((real ((Dataset.padded b x).dotV β i) + real (o i)) - (T + real (o i)))
        (T + real (o i))
      rw [sub_add_cancel] at this
      linarith
    obtain ⟨fin, near⟩ := add_near acc f1 (ho o rfl) hab
    exact ⟨fin, near_succ hu ht hT hv near⟩

/-- The inverse link of every family: if the predictor has an error of at most `B`, the mean has an
error of at most `meanError`. -/
theorem C86_mean (acc : Accurate fmt u tiny big) (fam : Family) {w : Fl fmt} (hw : w.isFinite)
    {η B : ℝ} (h : |real w - η| ≤ B) (hm : MeanFits fmt u tiny big B fam η) :
    (fam.glm.link.funcInv w : Fl fmt).isFinite ∧
      |real (fam.glm.link.funcInv w : Fl fmt) - exactMean fam η| ≤ meanError u tiny big B fam η := by
  have logit : ∀ N : ℕ, 1 ≤ N → fmt.rnd (N : ℝ) = (N : ℝ) →
      ((linkBinLogit N).funcInv w : Fl fmt).isFinite ∧
      |real ((linkBinLogit N).funcInv w : Fl fmt) - N / (1 + Real.exp (-η))| ≤
        N * (B / 4 + (3 * u + 3 * tiny + 2 / big)) := by
    intro N hN hr
    obtain ⟨h1, h2⟩ := logit_near acc hN hr hw
    refine ⟨h1, ?_⟩
    have h3 := abs_add_le (real ((linkBinLogit N).funcInv w : Fl fmt) - N / (1 + Real.exp (-real w)))
      (N / (1 + Real.exp (-real w)) - N / (1 + Real.exp (-η)))
    rw [sub_add_sub_cancel] at h3
    have h4 : |(N : ℝ) / (1 + Real.exp (-real w)) - N / (1 + Real.exp (-η))| ≤ N * (B / 4) := by
      rw [div_eq_mul_one_div, div_eq_mul_one_div (N : ℝ) (1 + Real.exp (-η)), ← mul_sub, abs_mul,
        abs_of_nonneg (Nat.cast_nonneg N)]
      refine mul_le_mul_of_nonneg_left ((sigmoid_lipschitz _ _).trans ?_) (Nat.cast_nonneg N)
      linarith
    linarith
  cases fam with
  | linear => exact ⟨hw, h⟩
  | logisticLogit =>
    have h1 := logit 1 le_rfl (by simpa using fmt.rnd_one)
    have h2 : ((linkBinLogit 1).funcInv w : Fl fmt) = linkLogit.funcInv w := by
      change (num (fmt.rnd ((1 : ℕ) : ℝ)) / (1 + exp (-w)) : Fl fmt) = num 1 / (1 + exp (-w))
      have : fmt.rnd (((1 : ℕ) : ℝ) : EReal) = 1 := by simpa using fmt.rnd_one
      rw [this]
    rw [h2] at h1
    change (linkLogit.funcInv w : Fl fmt).isFinite ∧
      |real (linkLogit.funcInv w : Fl fmt) - 1 / (1 + Real.exp (-η))|
        ≤ B / 4 + (3 * u + 3 * tiny + 2 / big)
    simpa using h1
  | logisticCloglog =>
    obtain ⟨h1, h2⟩ := cloglog_near acc hw
    refine ⟨h1, ?_⟩
    change |real (linkCloglog.funcInv w : Fl fmt) - (1 - Real.exp (-Real.exp η))|
      ≤ B / 2 + (2 * u + 3 * tiny + 1 / big)
    have h3 := abs_add_le (real (linkCloglog.funcInv w : Fl fmt) - (1 - Real.exp (-Real.exp (real w))))
      (-(Real.exp (-Real.exp (real w)) - Real.exp (-Real.exp η)))
    rw [abs_neg] at h3
    have h4 := cloglog_lipschitz (real w) η
    have heq : real (linkCloglog.funcInv w : Fl fmt) - (1 - Real.exp (-Real.exp (real w))) +
        -(Real.exp (-Real.exp (real w)) - Real.exp (-Real.exp η)) =
        real (linkCloglog.funcInv w : Fl fmt) - (1 - Real.exp (-Real.exp η)) := by ring
    rw [heq] at h3
    linarith
  | binomial N => exact logit N hm.1 hm.2
  | poisson => exact exp_near_move acc hw h hm
  | exponentialLog => exact exp_near_move acc hw h hm
  | gammaLog => exact exp_near_move acc hw h hm
  | invGaussLog => exact exp_near_move acc hw h hm
  | exponentialNegRec => exact negRec_near acc hw h hm.1 hm.2
  | gammaNegRec => exact negRec_near acc hw h hm.1 hm.2
  | invGaussNegRecSq => exact negRecSq_near acc hw h hm.1 hm.2.1 hm.2.2.1 hm.2.2.2

/-- Predictions of a fit from finite features, offsets and coefficients: they are finite, and close to
the exact means at the coefficients that the fit reports. -/
theorem C86_predict (acc : Accurate fmt u tiny big) {env : Env (Fl fmt)} (fam : Family)
    {data : Dataset (Fl fmt) n p b} {options : FitOptions (Fl fmt) (ncols b p)} {f : Fit (Fl fmt) n p b}
    (h : regression env fam.glm data options = .ok f) {m : ℕ} (x : Mat (Fl fmt) m p)
    (off : Option (Vec (Fl fmt) m)) (i : Fin m) (hp : PredFits u tiny big b x off f.result i)
    (hm : MeanFits fmt u tiny big (predError u tiny b x off f.result i) fam
      (exactPred b x off f.result i)) :
    (f.predict x off i).isFinite ∧
      |real (f.predict x off i) - exactMean fam (exactPred b x off f.result i)| ≤
        meanError u tiny big (predError u tiny b x off f.result i) fam
          (exactPred b x off f.result i) := by
  obtain ⟨best, s, -, rfl⟩ := regression_ok h
  obtain ⟨h1, h2⟩ := computedPred_near acc hp
  have := C86_mean acc fam h1 h2 hm
  have hpr : (Fit.new fam.glm data options (best.getD s.makeLastStep) s).predict x off i
      = fam.glm.link.funcInv (computedPred b x off
        (Fit.new fam.glm data options (best.getD s.makeLastStep) s).result i) := by
    cases off <;> rfl
  rw [hpr]
  exact this

end

/-! ### `f64` -/

/-- `f64` and `f32` are accurate to half a unit in the last place, with correctly rounded library
functions. -/
theorem C86_binary64 (order : SumSite → (n : ℕ) → SumOrder n) :
    Accurate (binary64 order) (2 ^ (-53 : ℤ)) (2 ^ (-1075 : ℤ)) (2 ^ (1023 : ℤ)) :=
  accurate_binary64 order

theorem C86_binary32 (order : SumSite → (n : ℕ) → SumOrder n) :
    Accurate (binary32 order) (2 ^ (-24 : ℤ)) (2 ^ (-150 : ℤ)) (2 ^ (127 : ℤ)) :=
  accurate_binary32 order

theorem pow_one_add_le {u : ℝ} (hu : 0 ≤ u) {k : ℕ} (hk : k * u ≤ 1) : (1 + u) ^ k ≤ 1 + 2 * (k * u) := by
  have h1 : (1 + u) ^ k ≤ Real.exp (k * u) := by
    rw [Real.exp_nat_mul]
    exact pow_le_pow_left₀ (by linarith) (by linarith [Real.add_one_le_exp u]) k
  have h2 : Real.exp (k * u) ≤ 1 + 2 * (k * u) := by
    have h0 : 0 ≤ k * u := by positivity
    have := Real.abs_exp_sub_one_le (x := k * u) (by rw [abs_of_nonneg h0]; exact hk)
    rw [abs_of_nonneg h0] at this
    linarith [(abs_le.mp this).2]
  linarith

theorem sumError_le {u tiny S : ℝ} {d k : ℕ} (hu : 0 ≤ u) (ht : 0 ≤ tiny) (hS : 0 ≤ S)
    (hd : d * u ≤ 1 / 2) : sumError u tiny d k S ≤ 2 * d * u * S + 2 * k * tiny := by
  have e1 := pow_one_add_le hu (k := d) (by linarith)
  have e3 : (1 + u) ^ d ≤ 2 := by linarith
  unfold sumError
  have a1 : ((1 + u) ^ d - 1) * S ≤ 2 * d * u * S :=
    mul_le_mul_of_nonneg_right (by linarith) hS
  have a2 : (k : ℝ) * (1 + u) ^ d * tiny ≤ k * 2 * tiny :=
    mul_le_mul_of_nonneg_right (mul_le_mul_of_nonneg_left e3 (by positivity)) ht
  linarith

/-- In `f64`, with at most `2^50` roundings, and at most `d` for each term, the error of a sum is at most
`d · 2^-52 · S`, apart from underflow. -/
theorem sumError_f64 {d k : ℕ} {S : ℝ} (hd : d ≤ 2 ^ 50) (hk : k ≤ 2 ^ 50) (hS : 0 ≤ S) :
    sumError (2 ^ (-53 : ℤ)) (2 ^ (-1075 : ℤ)) d k S ≤ d * 2 ^ (-52 : ℤ) * S + 2 ^ (-1000 : ℤ) := by
  have hd' : (d : ℝ) ≤ 2 ^ 50 := by exact_mod_cast hd
  have hk' : (k : ℝ) ≤ 2 ^ 50 := by exact_mod_cast hk
  have h1 : (d : ℝ) * 2 ^ (-53 : ℤ) ≤ 1 / 2 :=
    (mul_le_mul_of_nonneg_right hd' (by positivity)).trans (by norm_num)
  refine (sumError_le (by positivity) (by positivity) hS h1).trans (add_le_add ?_ ?_)
  · refine le_of_eq ?_
    rw [show (2 : ℝ) ^ (-52 : ℤ) = 2 * 2 ^ (-53 : ℤ) by norm_num]
    ring
  · have h2 : 2 * (k : ℝ) ≤ 2 ^ (52 : ℤ) := by
      have : (2 : ℝ) ^ (52 : ℤ) = 4 * 2 ^ 50 := by norm_num
      rw [this]
      linarith
    refine (mul_le_mul_of_nonneg_right h2 (by positivity)).trans ?_
    rw [← zpow_add₀ (by norm_num)]
    exact zpow_le_zpow_right₀ (by norm_num) (by norm_num)

theorem SumTree.depth_le_ops {n : ℕ} (q : ℕ) (o : SumTree n) : o.depth q ≤ o.ops q := by
  induction o with
  | zero => exact le_rfl
  | term i => exact le_rfl
  | add l r hl hr => simp only [SumTree.depth, SumTree.ops]; omega
  | fused i r hr => simp only [SumTree.depth, SumTree.ops]; omega

theorem predDepth_le {fmt : FloatFormat} {m p : ℕ} {b : Bool} {off : Option (Vec (Fl fmt) m)}
    {i : Fin m} : predDepth fmt b m p off i ≤ predOps fmt b m p off i := by
  cases off <;> simp only [predDepth, predOps, add_le_add_iff_right] <;> exact SumTree.depth_le_ops _ _

section
variable {order : SumSite → (n : ℕ) → SumOrder n} {n p m : ℕ} {b : Bool}
  {x : Mat (Fl (binary64 order)) m p} {off : Option (Vec (Fl (binary64 order)) m)}
  {β : Vec (Fl (binary64 order)) (ncols b p)} {i : Fin m}

theorem predSize_nonneg : 0 ≤ predSize b x off β i :=
  add_nonneg (Finset.sum_nonneg fun _ _ => abs_nonneg _) (abs_nonneg _)

/-- Finite numbers whose products add up to at most `2^1000` fit. -/
theorem predFits_f64 (hx : ∀ j, (x i j).isFinite) (hβ : ∀ j, (β j).isFinite)
    (ho : ∀ o, off = some o → (o i).isFinite) (hk : predOps (binary64 order) b m p off i ≤ 2 ^ 50)
    (hS : predSize b x off β i ≤ 2 ^ (1000 : ℤ)) :
    PredFits (2 ^ (-53 : ℤ)) (2 ^ (-1075 : ℤ)) (2 ^ (1023 : ℤ)) b x off β i := by
  refine ⟨hx, hβ, ho, ?_⟩
  have h0 := predSize_nonneg (b := b) (x := x) (off := off) (β := β) (i := i)
  have hd := predDepth_le.trans hk
  have h1 := sumError_f64 hd hk h0
  have hk' : (predDepth (binary64 order) b m p off i : ℝ) ≤ 2 ^ 50 := by exact_mod_cast hd
  have h2 : (predDepth (binary64 order) b m p off i : ℝ) * 2 ^ (-52 : ℤ) ≤ 1 := by
    have : (2 ^ 50 : ℝ) * 2 ^ (-52 : ℤ) ≤ 1 := by norm_num
    exact (mul_le_mul_of_nonneg_right (by linarith) (by positivity)).trans this
  have h3 := mul_le_mul_of_nonneg_right h2 h0
  have h4 : (2 : ℝ) ^ (-1000 : ℤ) ≤ 2 ^ (1000 : ℤ) := zpow_le_zpow_right₀ (by norm_num) (by norm_num)
  have h5 : (2 : ℝ) ^ (1023 : ℤ) = 8388608 * 2 ^ (1000 : ℤ) := by
    rw [show (8388608 : ℝ) = 2 ^ (23 : ℤ) by norm_num, ← zpow_add₀ (by norm_num)]; norm_num
  have h6 : (0 : ℝ) < 2 ^ (1000 : ℤ) := by positivity
  unfold predError
  rw [h5]
  generalize (2 : ℝ) ^ (1000 : ℤ) = c at *
  generalize (2 : ℝ) ^ (-1000 : ℤ) = d at *
  generalize (predDepth (binary64 order) b m p off i : ℝ) * 2 ^ (-52 : ℤ) = e at *
  generalize sumError _ _ _ _ _ = D at *
  clear h5
  linarith

/-- Predicted probabilities of a logistic regression in `f64`, from finite features, offsets and
coefficients, with any order of summation: if each term of the linear predictor goes through at most `d`
roundings and their absolute values add up to `S`, the error is at most `d · 2^-54 · S + 2^-51`. -/
theorem C86_logistic_f64 {env : Env (Fl (binary64 order))} {data : Dataset (Fl (binary64 order)) n p b}
    {options : FitOptions (Fl (binary64 order)) (ncols b p)} {f : Fit (Fl (binary64 order)) n p b}
    (h : regression env Family.logisticLogit.glm data options = .ok f)
    (hx : ∀ j, (x i j).isFinite) (hβ : ∀ j, (f.result j).isFinite)
    (ho : ∀ o, off = some o → (o i).isFinite) (hk : predOps (binary64 order) b m p off i ≤ 2 ^ 50)
    (hS : predSize b x off f.result i ≤ 2 ^ (1000 : ℤ)) :
    |real (f.predict x off i) - 1 / (1 + Real.exp (-exactPred b x off f.result i))| ≤
      predDepth (binary64 order) b m p off i * 2 ^ (-54 : ℤ) * predSize b x off f.result i + 2 ^ (-51 : ℤ) := by
  have h1 := (C86_predict (accurate_binary64 order) (fam := .logisticLogit) h x off i
    (predFits_f64 hx hβ ho hk hS) trivial).2
  refine h1.trans ?_
  have h2 := sumError_f64 (predDepth_le.trans hk) hk (predSize_nonneg (b := b) (x := x) (off := off) (β := f.result) (i := i))
  change predError _ _ b x off f.result i / 4 + (3 * 2 ^ (-53 : ℤ) + 3 * 2 ^ (-1075 : ℤ) +
    2 / 2 ^ (1023 : ℤ)) ≤ _
  unfold predError
  have e1 : (2 : ℝ) ^ (-52 : ℤ) = 4 * 2 ^ (-54 : ℤ) := by norm_num
  rw [e1] at h2
  have e2 : (2 : ℝ) ^ (-1000 : ℤ) ≤ 2 ^ (-60 : ℤ) := zpow_le_zpow_right₀ (by norm_num) (by norm_num)
  have e3 : (2 : ℝ) ^ (-1075 : ℤ) ≤ 2 ^ (-60 : ℤ) := zpow_le_zpow_right₀ (by norm_num) (by norm_num)
  have e4 : (2 : ℝ) / 2 ^ (1023 : ℤ) ≤ 2 ^ (-60 : ℤ) := by
    have : (2 : ℝ) / 2 ^ (1023 : ℤ) = 2 ^ (-1022 : ℤ) := by
      rw [show (-1022 : ℤ) = 1 - 1023 by norm_num, zpow_sub₀ (by norm_num), zpow_one]
    rw [this]
    exact zpow_le_zpow_right₀ (by norm_num) (by norm_num)
  have e5 : 3 * (2 : ℝ) ^ (-53 : ℤ) + 6 * 2 ^ (-60 : ℤ) ≤ 2 ^ (-51 : ℤ) := by norm_num
  generalize (2 : ℝ) ^ (-1000 : ℤ) = c1 at *
  generalize (2 : ℝ) ^ (-1075 : ℤ) = c2 at *
  generalize (2 : ℝ) / 2 ^ (1023 : ℤ) = c3 at *
  generalize (2 : ℝ) ^ (-51 : ℤ) = c4 at *
  generalize (2 : ℝ) ^ (-53 : ℤ) = c5 at *
  generalize (2 : ℝ) ^ (-54 : ℤ) = c6 at *
  have hc : (0 : ℝ) ≤ 2 ^ (-60 : ℤ) := by positivity
  generalize (2 : ℝ) ^ (-60 : ℤ) = c7 at *
  linarith

end

theorem ex_predOps : predOps binary64 true 1 0 none 0 = 2 := rfl
theorem ex_predDepth : predDepth binary64 true 1 0 none 0 = 2 := rfl

/-- The fit of `C85_example_nan_start` with the complementary log-log link reports the coefficient `8`:
its prediction is within `2^-48` of `1 - exp(-exp 8)`. -/
theorem C86_example {fuel : ℕ} (hfuel : 6445 ≤ fuel) : ∃ f : Fit (Fl binary64) 1 0 true,
    regression (sixteenEnv fuel) Family.logisticCloglog.glm oneData
      { maxIter := 10, tol := 1, l2 := 0, l1 := 0,
        initGuess := some fun _ => num ((8 : ℝ) : EReal) } = .ok f ∧
    PredFits (2 ^ (-53 : ℤ)) (2 ^ (-1075 : ℤ)) (2 ^ (1023 : ℤ)) true (m := 1) (p := 0)
      (fun _ _ => 0) none f.result 0 ∧
    |real (f.predict (m := 1) (fun _ _ => 0) none 0) - (1 - Real.exp (-Real.exp 8))| ≤
      2 ^ (-48 : ℤ) := by
  obtain ⟨f, hf, -, -, hr⟩ := C85_example_nan_start hfuel
  have h8 := real_num (fmt := binary64) 8
  have hsz : predSize true (m := 1) (p := 0) (fun _ _ => 0) none f.result 0 = 8 := by
    unfold predSize offsetAt
    rw [hr]
    change ∑ j : Fin 1, |design true (n := 1) (p := 0) _ 0 j * real (num ((8 : ℝ) : EReal) : Fl binary64)|
      + |(0 : ℝ)| = 8
    rw [Fin.sum_univ_one, h8.2]
    change |(1 : ℝ) * 8| + |0| = 8
    norm_num
  have hex : exactPred true (m := 1) (p := 0) (fun _ _ => 0) none f.result 0 = 8 := by
    unfold exactPred offsetAt
    rw [hr]
    change ∑ j : Fin 1, design true (n := 1) (p := 0) _ 0 j * real (num ((8 : ℝ) : EReal) : Fl binary64)
      + (0 : ℝ) = 8
    rw [Fin.sum_univ_one, h8.2]
    change (1 : ℝ) * 8 + 0 = 8
    norm_num
  have hfit : PredFits (2 ^ (-53 : ℤ)) (2 ^ (-1075 : ℤ)) (2 ^ (1023 : ℤ)) true (m := 1) (p := 0)
      (fun _ _ => 0) none f.result 0 := by
    refine predFits_f64 (fun j => j.elim0) (fun j => ?_) (fun o ho => by cases ho) ?_ ?_
    · rw [hr]; exact h8.1
    · rw [ex_predOps]; norm_num
    · rw [hsz]
      have : (2 : ℝ) ^ (3 : ℤ) ≤ 2 ^ (1000 : ℤ) := zpow_le_zpow_right₀ (by norm_num) (by norm_num)
      exact le_trans (by norm_num) this
  refine ⟨f, hf, hfit, ?_⟩
  have h1 := (C86_predict (accurate_binary64 _) (fam := .logisticCloglog) hf _ _ _ hfit trivial).2
  rw [hex] at h1
  refine h1.trans ?_
  have h2 := sumError_f64 (d := 2) (k := 2) (S := 8) (by norm_num) (by norm_num) (by norm_num)
  change predError _ _ true (m := 1) (p := 0) (fun _ _ => 0) none f.result 0 / 2 +
    (2 * 2 ^ (-53 : ℤ) + 3 * 2 ^ (-1075 : ℤ) + 1 / 2 ^ (1023 : ℤ)) ≤ _
  unfold predError
  rw [hsz]
  rw [ex_predDepth, ex_predOps]
  have e2 : (2 : ℝ) ^ (-1000 : ℤ) ≤ 2 ^ (-60 : ℤ) := zpow_le_zpow_right₀ (by norm_num) (by norm_num)
  have e3 : (2 : ℝ) ^ (-1075 : ℤ) ≤ 2 ^ (-60 : ℤ) := zpow_le_zpow_right₀ (by norm_num) (by norm_num)
  have e4 : (1 : ℝ) / 2 ^ (1023 : ℤ) ≤ 2 ^ (-60 : ℤ) := by
    rw [one_div, ← zpow_neg]
    exact zpow_le_zpow_right₀ (by norm_num) (by norm_num)
  have e5 : ((2 : ℕ) : ℝ) * 2 ^ (-52 : ℤ) * 8 / 2 + 2 * (2 : ℝ) ^ (-53 : ℤ) + 5 * 2 ^ (-60 : ℤ)
      ≤ 2 ^ (-48 : ℤ) := by norm_num
  have hc : (0 : ℝ) ≤ 2 ^ (-60 : ℤ) := by positivity
  generalize sumError _ _ _ _ _ = D at *
  generalize ((2 : ℕ) : ℝ) * 2 ^ (-52 : ℤ) * 8 = c0 at *
  generalize (2 : ℝ) ^ (-1000 : ℤ) = c1 at *
  generalize (2 : ℝ) ^ (-1075 : ℤ) = c2 at *
  generalize (1 : ℝ) / 2 ^ (1023 : ℤ) = c3 at *
  generalize (2 : ℝ) ^ (-48 : ℤ) = c4 at *
  generalize (2 : ℝ) ^ (-53 : ℤ) = c5 at *
  generalize (2 : ℝ) ^ (-60 : ℤ) = c7 at *
  linarith

end GLM
