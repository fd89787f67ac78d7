/-
  Logistic regression in `f64`: conditions on the data.
-/
import Verif.Spec.InfoAccuracy
import Verif.Lemmas.Binary

namespace GLM.Spec
variable {n p : ℕ}

/-- The same conditions for `f64`: there are no weights and frequencies, and at most 2^40 observations; the
entries of the design matrix are of size at most `X`, where `X` is between 1 and 2^100; the terms of the
linear predictors add up to at most `M`; the sums go through at most `D` roundings, and `D (M + 1)` is at
most 2^43. -/
structure PlainDesign (order : SumSite → (n : ℕ) → SumOrder n) (M X : ℝ) (D : ℕ)
    (raw : Dataset (Fl (binary64 order)) n p false) (b : Bool)
    (β : Vec (Fl (binary64 order)) (ncols b p)) : Prop where
  weights : raw.weights = none
  freqs : raw.freqs = none
  x : ∀ i j, (raw.x i j).isFinite
  coef : ∀ j, (β j).isFinite
  offset : ∀ o, raw.linearOffset = some o → ∀ i, (o i).isFinite
  entries : ∀ i j, |exactDesign raw b i j| ≤ X
  size : ∀ i, predSize b raw.x raw.linearOffset β i ≤ M
  depth_pred : ∀ i, predDepth (binary64 order) b n p raw.linearOffset i ≤ D
  ops_pred : ∀ i, predOps (binary64 order) b n p raw.linearOffset i ≤ D
  depth : ∀ j k : Fin (ncols b p), (order (.matMat (ncols b p) (ncols b p) j k) n).tree.depth 1 ≤ D
  ops : ∀ j k : Fin (ncols b p), (order (.matMat (ncols b p) (ncols b p) j k) n).tree.ops 1 ≤ D
  rows : 1 ≤ n
  rows_le : n ≤ 2 ^ 40
  pos : 1 ≤ D
  one_le : 1 ≤ X
  entries_le : X ≤ (2 : ℝ) ^ (100 : ℤ)
  small : D * (M + 1) ≤ 2 ^ 43

/-- The coefficients `β` and `α` differ by at most `δ`, which is between 2^-400 and 2^100; there are at most
2^40 coefficients. -/
structure PlainShift (order : SumSite → (n : ℕ) → SumOrder n) (δ : ℝ) (D : ℕ) {k : ℕ}
    (β α : Vec (Fl (binary64 order)) k) : Prop where
  finite : ∀ j, (β j).isFinite ∧ (α j).isFinite
  shift : ∀ j, |shiftAt β α j| ≤ δ
  cols : 1 ≤ k
  cols_le : k ≤ 2 ^ 40
  depth : ∀ j : Fin k, (order (.matVec k j) k).tree.depth 1 ≤ D
  ops : ∀ j : Fin k, (order (.matVec k j) k).tree.ops 1 ≤ D
  dotDepth : (order .dot k).tree.depth 1 ≤ D
  dotOps : (order .dot k).tree.ops 1 ≤ D
  shift_ge : (2 : ℝ) ^ (-400 : ℤ) ≤ δ
  shift_le : δ ≤ (2 : ℝ) ^ (100 : ℤ)

end GLM.Spec
