/-
  Loops that stop at the first failure.
-/
import Verif.Model.Refit

namespace GLM

/-- Such a loop succeeds exactly if every round does. -/
theorem seqOutcome_ok {E α : Type} {k : ℕ} {body : Fin k → Outcome E α} {v : Fin k → α} :
    seqOutcome body = .ok v ↔ ∀ i, body i = .ok (v i) := by
  induction k with
  | zero =>
    simp only [seqOutcome, Outcome.ok.injEq]
    exact ⟨fun _ i => i.elim0, fun _ => funext fun i => i.elim0⟩
  | succ k ih =>
    rw [Fin.forall_fin_succ, seqOutcome]
    cases h0 : body 0 <;> simp only [Outcome.bind, Outcome.map, reduceCtorEq, false_and]
    rename_i a
    have ih' := ih (body := fun i => body i.succ) (v := fun i => v i.succ)
    cases hs : seqOutcome (fun i => body i.succ) with
    | ok w =>
      rw [hs] at ih'
      simp only [Outcome.ok.injEq] at ih' ⊢
      rw [← ih']
      constructor
      · rintro rfl; exact ⟨rfl, rfl⟩
      · rintro ⟨rfl, rfl⟩
        funext i; refine Fin.cases ?_ (fun _ => ?_) i <;> rfl
    | err e => rw [hs] at ih'; simp only [reduceCtorEq, false_iff] at ih' ⊢; exact fun h => ih' h.2
    | panic => rw [hs] at ih'; simp only [reduceCtorEq, false_iff] at ih' ⊢; exact fun h => ih' h.2
    | diverge => rw [hs] at ih'; simp only [reduceCtorEq, false_iff] at ih' ⊢; exact fun h => ih' h.2

/-- The loop stops at the first failure. -/
theorem seqOutcome_fail {E α : Type} {k : ℕ} {body : Fin k → Outcome E α} {i : Fin k}
    (hlt : ∀ j < i, ∃ a, body j = .ok a) {e : E} (hi : body i = .err e) :
    seqOutcome body = .err e := by
  induction k with
  | zero => exact i.elim0
  | succ k ih =>
    rw [seqOutcome]
    revert hlt hi
    refine Fin.cases (fun _ hi => ?_) (fun i hlt hi => ?_) i
    · rw [hi]; rfl
    · obtain ⟨a, ha⟩ := hlt 0 i.succ_pos
      have := ih (body := fun i => body i.succ) (i := i)
        (fun j hj => hlt j.succ (Fin.succ_lt_succ_iff.mpr hj)) hi
      rw [ha, this]; rfl

end GLM
