/-
  Sums that are computed in some order.
-/
import Verif.Model.Array
import Batteries.Data.Fin.Fold

namespace GLM
namespace SumTree
variable {n : ℕ} {F G : Type} [Zero F] [Add F] [Zero G] [Add G]

/-- What holds of zero and of the terms, and is kept by the additions, holds of the sum. -/
theorem eval_induct {P : F → Prop} {t : Fin n → F} {f : Fin n → F → F} (h0 : P 0) (ht : ∀ i, P (t i))
    (hadd : ∀ a c, P a → P c → P (a + c)) (hf : ∀ i a, P a → P (f i a)) (o : SumTree n) :
    P (o.eval t f) := by
  induction o with
  | zero => exact h0
  | term i => exact ht i
  | add l r hl hr => exact hadd _ _ hl hr
  | fused i r hr => exact hf i _ hr

/-- The same order applied to related terms. -/
theorem eval_rel {R : F → G → Prop} {t : Fin n → F} {f : Fin n → F → F} {t' : Fin n → G}
    {f' : Fin n → G → G} (h0 : R 0 0) (ht : ∀ i, R (t i) (t' i))
    (hadd : ∀ a c a' c', R a a' → R c c' → R (a + c) (a' + c'))
    (hf : ∀ i a a', R a a' → R (f i a) (f' i a')) (o : SumTree n) : R (o.eval t f) (o.eval t' f') := by
  induction o with
  | zero => exact h0
  | term i => exact ht i
  | add l r hl hr => exact hadd _ _ _ _ hl hr
  | fused i r hr => exact hf i _ _ hr

/-- What one term passes on to the sum. -/
theorem eval_absorb {Q : F → Prop} {t : Fin n → F} {f : Fin n → F → F}
    (hl : ∀ a c, Q a → Q (a + c)) (hr : ∀ a c, Q c → Q (a + c)) (hf : ∀ j a, Q a → Q (f j a))
    {i : Fin n} (ht : Q (t i)) (hi : ∀ a, Q (f i a)) (o : SumTree n) (h : i ∈ o.terms) :
    Q (o.eval t f) := by
  induction o with
  | zero => simp [terms] at h
  | term j =>
    rw [terms, List.mem_singleton] at h
    subst h; exact ht
  | add l r ihl ihr =>
    rw [terms, List.mem_append] at h
    exact h.elim (fun h => hl _ _ (ihl h)) fun h => hr _ _ (ihr h)
  | fused j r ih =>
    rw [terms, List.mem_cons] at h
    rcases h with rfl | h
    · exact hi _
    · exact hf _ _ (ih h)

/-- What holds of a sum that has terms: `P` holds of partial sums, `Q` once there is a term. -/
theorem eval_nonempty {P Q : F → Prop} {t : Fin n → F} {f : Fin n → F → F} (hPQ : ∀ a, Q a → P a)
    (h0 : P 0) (ht : ∀ i, Q (t i)) (hadd : ∀ a c, P a → P c → P (a + c))
    (hl : ∀ a c, Q a → P c → Q (a + c)) (hr : ∀ a c, P a → Q c → Q (a + c))
    (hf : ∀ i a, P a → Q (f i a)) (o : SumTree n) (h : o.terms ≠ []) : Q (o.eval t f) := by
  have hP : ∀ o : SumTree n, P (o.eval t f) :=
    eval_induct h0 (fun i => hPQ _ (ht i)) hadd fun i a ha => hPQ _ (hf i a ha)
  induction o with
  | zero => exact absurd rfl h
  | term i => exact ht i
  | add l r ihl ihr =>
    by_cases hlt : l.terms = []
    · refine hr _ _ (hP l) (ihr fun hrt => h ?_)
      simp [terms, hlt, hrt]
    · exact hl _ _ (ihl hlt) (hP r)
  | fused i r _ => exact hf i _ (hP r)

theorem eval_left (t : Fin n → F) (f : Fin n → F → F) (l : List (Fin n)) (acc : SumTree n) :
    (left l acc).eval t f = l.foldl (fun a i => a + t i) (acc.eval t f) := by
  induction l generalizing acc with
  | nil => rfl
  | cons i l ih => rw [left, ih]; rfl

end SumTree

namespace SumOrder
variable {n : ℕ}

theorem mem_terms (o : SumOrder n) (i : Fin n) : i ∈ o.tree.terms :=
  o.complete.mem_iff.mpr (List.mem_finRange i)

theorem terms_ne_nil (o : SumOrder n) (h : 0 < n) : o.tree.terms ≠ [] := fun hn => by
  have := o.mem_terms ⟨0, h⟩
  rw [hn] at this
  exact absurd this (by simp)

theorem eval_left {F : Type} [Zero F] [Add F] (t : Fin n → F) (f : Fin n → F → F) :
    (SumOrder.left n).tree.eval t f = Fin.foldl n (fun a i => a + t i) 0 := by
  change (SumTree.left _ _).eval t f = _
  rw [SumTree.eval_left, Fin.foldl_eq_foldl_finRange]
  rfl

end SumOrder

section
variable {F : Type} [Scalar F] {n : ℕ}

theorem vsum_left (h : (Scalar.order (F := F) .sum n) = SumOrder.left n) (v : Vec F n) :
    vsum v = Fin.foldl n (fun a i => a + v i) 0 := by
  unfold vsum
  rw [h, SumOrder.eval_left]

theorem vdotBy_left {site : SumSite} (h : (Scalar.order (F := F) site n) = SumOrder.left n)
    (u v : Vec F n) : vdotBy site u v = Fin.foldl n (fun a i => a + u i * v i) 0 := by
  unfold vdotBy
  rw [h, SumOrder.eval_left]

end
end GLM
