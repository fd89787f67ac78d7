/-
  C97: an example in `f64`.
-/
import Verif.Props.StandardScore
import Verif.Lemmas.BinaryEval
import Verif.Props.CertificateF64

namespace GLM
open Spec Scalar Fl Matrix

section
variable {fmt : FloatFormat} {r : ℝ}

theorem num_sub_zero (h0 : r ≠ 0) (hr : fmt.rnd (r : EReal) = r) : (num (r : EReal) : Fl fmt) - 0 = num (r : EReal) := by
  have h1 : (num (r : EReal) : Fl fmt).val = r := rfl
  have h2 : (0 : Fl fmt).val = 0 := rfl
  have h : ¬ ((num (r : EReal) : Fl fmt) - 0).isNaN := by
    rw [isNaN_sub, h1, h2]
    rintro (h | h | ⟨h, -⟩ | ⟨h, -⟩)
    · exact h
    · exact h
    · exact absurd h (EReal.coe_ne_top _)
    · exact absurd h (EReal.coe_ne_bot _)
  refine eq_num h ?_ (by exact_mod_cast h0)
  rw [val_sub h, h1, h2, sub_zero, hr]

theorem num_div_one (h0 : r ≠ 0) (hr : fmt.rnd (r : EReal) = r) : (num (r : EReal) : Fl fmt) / 1 = num (r : EReal) := by
  have h1 : (num (r : EReal) : Fl fmt).val = r := rfl
  have h2 : (1 : Fl fmt).val = ((1 : ℝ) : EReal) := rfl
  have h : ¬ ((num (r : EReal) : Fl fmt) / 1).isNaN := by
    rw [isNaN_div, h1, h2]
    rintro (h | h | ⟨-, h⟩ | ⟨h | h, -⟩)
    · exact h
    · exact h
    · exact one_ne_zero (α := ℝ) (by exact_mod_cast h)
    · exact absurd h (EReal.coe_ne_top _)
    · exact absurd h (EReal.coe_ne_bot _)
  refine eq_num h ?_ (by exact_mod_cast h0)
  rw [val_div h (by rw [h2]; exact_mod_cast one_ne_zero (α := ℝ)), h1, h2, ← EReal.coe_div, div_one, hr]

theorem num_mul_one (h0 : r ≠ 0) (hr : fmt.rnd (r : EReal) = r) : (num (r : EReal) : Fl fmt) * 1 = num (r : EReal) := by
  have h1 : (num (r : EReal) : Fl fmt).val = r := rfl
  have h2 : (1 : Fl fmt).val = ((1 : ℝ) : EReal) := rfl
  have h : ¬ ((num (r : EReal) : Fl fmt) * 1).isNaN := by
    rw [isNaN_mul, h1, h2]
    rintro (h | h | ⟨-, h | h⟩ | ⟨h | h, -⟩)
    · exact h
    · exact h
    · exact absurd h (EReal.coe_ne_top _)
    · exact absurd h (EReal.coe_ne_bot _)
    · exact absurd h (EReal.coe_ne_top _)
    · exact absurd h (EReal.coe_ne_bot _)
  refine eq_num h ?_ (by exact_mod_cast h0)
  rw [val_mul h, h1, h2, ← EReal.coe_mul, mul_one, hr]

end

/-- Standardizing `unitRaw`: a single observation is neither scaled nor, without an intercept, shifted. -/
theorem unitRaw_standardized : ∃ data : Dataset (Fl binary64) 1 1 false,
    unitRaw.finalize true false = some data ∧
    data.standardizer = some ⟨fun _ => 0, fun _ => 1⟩ ∧ storedRaw unitRaw data = unitRaw := by
  have hs : Standardizer.fromDataset unitRaw false = some ⟨fun _ => 0, fun _ => 1⟩ := by
    simp only [Standardizer.fromDataset, le_refl, if_true, Option.map_some]
    refine congrArg some ?_
    congr 1
    funext j
    have : (if gt ((vfill (n := 1) (1 : Fl binary64)) j) 0 = true then vfill (n := 1) (1 : Fl binary64) j else 1) = 1 := by
      split <;> rfl
    rw [this, sqrt_one_fl]
  refine ⟨⟨unitRaw.y, fun _ _ => 1, none, none, none, some ⟨fun _ => 0, fun _ => 1⟩⟩, ?_, rfl, rfl⟩
  simp only [Dataset.finalize, hs, if_true, Option.map_some]
  refine congrArg some ?_
  congr 1
  funext i j
  change ((1 : Fl binary64) - 0) / 1 = 1
  have h1 : (1 : Fl binary64) - 0 = 1 := num_sub_zero (r := 1) one_ne_zero (FloatFormat.rnd_one _)
  rw [h1]
  exact num_div_one (r := 1) one_ne_zero (FloatFormat.rnd_one _)

/-- A solver that always returns `1/2`, which is the solution of the example. -/
noncomputable def halfEnv : Env (Fl binary64) where
  eps := 0
  solveh _ _ := .ok fun _ => num ((1 / 2 : ℝ) : EReal)
  invh _ := .error .failed
  inv _ := .error .failed
  fuel := 0

/-- Ridge regression that starts at `1/2`. -/
noncomputable def halfOptions : FitOptions (Fl binary64) (ncols false 1) :=
  ⟨10, 0, 1, 0, some fun _ => num ((1 / 2 : ℝ) : EReal)⟩

/-- Ridge regression in `f64` with standardized features.  The fit meets the conditions of the C97
theorems, and `C97_optimum` tells that the reported coefficient is within `2^-45` of the optimum of the
exact problem. -/
theorem C97_example : ∃ (data : Dataset (Fl binary64) 1 1 false) (f : Fit (Fl binary64) 1 1 false)
    (s : Standardizer (Fl binary64) 1),
    unitRaw.finalize true false = some data ∧ data.standardizer = some s ∧
    regression halfEnv Family.linear.glm data halfOptions = .ok f ∧
    f.result = (fun _ => num ((1 / 2 : ℝ) : EReal)) ∧
    Spec.Concave .linear (exactData unitRaw) ∧
    StdFits (2 ^ (-53 : ℤ)) (2 ^ (-1075 : ℤ)) (2 ^ (1023 : ℤ)) unitRaw s ∧
    BackFits (2 ^ (-53 : ℤ)) (2 ^ (-1075 : ℤ)) (2 ^ (1023 : ℤ)) false s f.result ∧
    ForthFits (2 ^ (-53 : ℤ)) (2 ^ (-1075 : ℤ)) (2 ^ (1023 : ℤ)) false s f.result ∧
    StdScoreFits (2 ^ (-53 : ℤ)) (2 ^ (-1075 : ℤ)) (2 ^ (1023 : ℤ)) .linear unitRaw data s
      halfOptions.l1 halfOptions.l2 (data.transformBeta f.result) ∧
    ∃ βs : Vec ℝ 1,
      (∀ β : Vec ℝ 1, penLogLik (p := 1) Family.linear.glm (readBack unitRaw data s) false 0 1 (scaleOf s) β ≤
        penLogLik (p := 1) Family.linear.glm (readBack unitRaw data s) false 0 1 (scaleOf s) βs) ∧
      |βs 0 - 1 / 2| ≤ 2 ^ (-45 : ℤ) := by
  have acc := accurate_binary64 fun _ => SumOrder.left
  have hu : (0 : ℝ) ≤ 2 ^ (-53 : ℤ) := by positivity
  have hu1 : (2 : ℝ) ^ (-53 : ℤ) ≤ 1 / 1000 := by norm_num
  have ht : (0 : ℝ) ≤ 2 ^ (-1075 : ℤ) := by positivity
  have htu : (2 : ℝ) ^ (-1075 : ℤ) ≤ 2 ^ (-53 : ℤ) := zpow_le_zpow_right₀ (by norm_num) (by norm_num)
  have hb : (100 : ℝ) ≤ 2 ^ (1023 : ℤ) := by
    have : (2 : ℝ) ^ (7 : ℤ) ≤ 2 ^ (1023 : ℤ) := zpow_le_zpow_right₀ (by norm_num) (by norm_num)
    exact le_trans (by norm_num) this
  have huv : (2 : ℝ) ^ (-53 : ℤ) * 256 = 2 ^ (-45 : ℤ) := by norm_num
  have hhalf : FloatFormat.rnd binary64 ((1 / 2 : ℝ) : EReal) = ((1 / 2 : ℝ) : EReal) :=
    (accurateLogs_binary64 fun _ => SumOrder.left).rnd_half
  obtain ⟨data, hd, hs, hst⟩ := unitRaw_standardized
  set h : Vec (Fl binary64) (ncols false 1) := fun _ => num ((1 / 2 : ℝ) : EReal) with hh
  have htr : data.transformBeta h = h := by
    simp only [Dataset.transformBeta, hs]
    funext j
    exact num_mul_one (by norm_num) hhalf
  have hin : data.inverseTransformBeta h = h := by
    simp only [Dataset.inverseTransformBeta, hs]
    funext j
    exact num_div_one (by norm_num) hhalf
  obtain ⟨f, hf, hr⟩ := regression_stays_ridge (env := halfEnv) (g := Family.linear.glm) (data := data)
    (options := halfOptions) (v := h) (gt_self_false _) (fun _ _ => rfl) (by
      unfold vecEq
      rw [List.all_eq_true]
      intro j _
      change eq (h j) (data.transformBeta h j) = true
      rw [htr]
      exact eq_iff.mpr ⟨id, id, rfl⟩)
  have hres : f.result = h := by
    rw [hr]
    change data.inverseTransformBeta (data.transformBeta h) = h
    rw [htr, hin]
  have hrh : ∀ j, real (h j) = 1 / 2 := fun j => (real_num _).2
  have ha : |(1 / 2 : ℝ)| ≤ 1 := by norm_num [abs_of_pos]
  set s : Standardizer (Fl binary64) 1 := ⟨fun _ => 0, fun _ => 1⟩ with hsd
  have hσ : ∀ j, scaleOf s j = 1 := fun j => real_one.2
  have hμ : ∀ j, shiftOf s j = 0 := fun j => real_zero.2
  have hpos : ∀ j, (s.shifts j).isFinite ∧ (s.scales j).isFinite ∧ 0 < scaleOf s j := fun j =>
    ⟨real_zero.1, real_one.1, by rw [hσ]; exact one_pos⟩
  have hfits : ∀ j, ScoreFits (2 ^ (-53 : ℤ)) (2 ^ (-1075 : ℤ)) (2 ^ (1023 : ℤ)) .linear
      (storedRaw unitRaw data) false 0 1 h j := by
    rw [hst]; exact fun j => unitRaw_fits hu hu1 ht htu hb ha rfl j
  obtain ⟨-, -, -, -, -, -, h7, -, h9⟩ := unitRaw_error (big := 2 ^ (1023 : ℤ)) hu hu1 ht htu ha hh
  have e1 : real (halfOptions.l1) = 0 := real_zero.2
  have e2 : real (halfOptions.l2) = 1 := real_one.2
  have hx1 : real (unitRaw.x 0 0) = 1 := real_one.2
  generalize (2 : ℝ) ^ (1023 : ℤ) = big at *
  generalize (2 : ℝ) ^ (-1075 : ℤ) = tiny at *
  generalize (2 : ℝ) ^ (-53 : ℤ) = u at *
  have hBS : StdScoreFits u tiny big .linear unitRaw data s halfOptions.l1 halfOptions.l2
      (data.transformBeta f.result) := by
    rw [hres, htr]
    refine ⟨hpos, hfits, ?_⟩
    rw [hst, e1, e2]
    intro j
    rw [h7, hσ]
    have := h9 j
    norm_num
    linarith
  have hFF : ForthFits u tiny big false s f.result := by
    rw [hres]
    refine ⟨fun j => (real_num _).1, fun j => ?_⟩
    rw [hrh j, hσ]
    norm_num [abs_of_pos]
    linarith
  have hcc : Spec.Concave .linear (exactData unitRaw) := by
    refine ⟨trivial, trivial, Or.inl trivial, fun i => ?_⟩
    have : totalWt (exactData unitRaw) i = 1 * 1 := rfl
    rw [this]; norm_num
  refine ⟨data, f, s, hd, hs, hf, hres, hcc, ?_, ?_, hFF, hBS, ?_⟩
  · intro j
    refine ⟨real_zero.1, real_one.1, (hpos j).2.2, fun i => ⟨real_one.1, ?_, ?_⟩⟩
    · rw [hμ, Subsingleton.elim i 0, Subsingleton.elim j 0, hx1]
      norm_num
      linarith
    · rw [hμ, hσ, Subsingleton.elim i 0, Subsingleton.elim j 0, hx1]
      norm_num
      linarith
  · rw [hres]
    refine ⟨fun j => (real_num _).1, fun j => ?_⟩
    rw [hrh j, hσ]
    norm_num [abs_of_pos]
    linarith
  · obtain ⟨βs, k1, -, k3⟩ := C97_optimum acc hcc rfl hd hs hf (by rw [e2]; exact one_pos) hBS hFF
    rw [e1, e2] at k1
    refine ⟨βs, k1, ?_⟩
    have k4 := k3 (0 : Fin 1)
    have k5 : forthError u tiny false s f.result (0 : Fin 1) ≤ 2 * u := by
      change u * |real (f.result (0 : Fin 1))| + tiny / scaleOf s 0 ≤ 2 * u
      rw [hres, hrh 0, hσ, div_one, abs_of_pos (by norm_num)]
      linarith
    have k6 : stdScoreBound u tiny big .linear unitRaw s f (0 : Fin 1) ≤ 110 * u := by
      obtain ⟨g1, g2⟩ := C97_score acc hd hs hf hBS (0 : Fin 1)
      have g3 := readBack_penScore (fam := .linear) (raw := unitRaw) (data := data) (fun j => (hpos j).2.2)
        (fun _ => hμ) (real halfOptions.l1) (real halfOptions.l2) (data.transformBeta f.result)
      have g4 : backScore false s (exactScore .linear unitRaw false 0 1 h) (0 : Fin 1) = 0 := by
        change exactScore .linear unitRaw false 0 1 h (0 : Fin 1) * scaleOf s 0 = 0
        rw [h7]; norm_num
      have g5 : stdScoreError u tiny big .linear unitRaw data s 0 1 h (0 : Fin 1) ≤ 52 * u := by
        unfold stdScoreError
        rw [hst]
        change afterRounding u tiny (scaleOf s 0 * scoreError u tiny big .linear unitRaw false 0 1 h (0 : Fin 1))
          (exactScore .linear unitRaw false 0 1 h (0 : Fin 1) * scaleOf s 0) ≤ 52 * u
        rw [hσ, one_mul, mul_one, h7]
        exact afterRounding_le hu hu1 htu (c := 50) (m := 0) (by norm_num) (h9 _) (by norm_num) (by norm_num)
      rw [g3, e1, e2, hst, hres, htr, g4, sub_zero] at g2
      obtain ⟨-, hdat, hopt, -⟩ := regression_coherent hf
      unfold stdScoreBound
      rw [hopt, hdat, e1, e2, hres, htr]
      linarith
    rw [hσ, one_mul, one_mul, e2, div_one, hres, hrh 0] at k4
    have k7 : 0 ≤ stdScoreBound u tiny big .linear unitRaw s f (0 : Fin 1) := by
      have := std_bound acc hd hs hf hBS (0 : Fin 1)
      exact (abs_nonneg _).trans this
    have k8 : √(∑ k, (stdScoreBound u tiny big .linear unitRaw s f k / scaleOf s k) ^ 2) ≤ 110 * u := by
      change √(∑ k : Fin 1, (stdScoreBound u tiny big .linear unitRaw s f k / scaleOf s k) ^ 2) ≤ 110 * u
      rw [Fin.sum_univ_one, hσ, div_one, Real.sqrt_sq k7]
      exact k6
    rw [hres] at k5
    rw [← huv]
    linarith

end GLM
