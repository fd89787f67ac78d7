/-
  The alternating direction method of multipliers with residual balancing comes to rest when the
  curvature is diagonal.
-/
import Verif.Lemmas.AdmmCoord

namespace GLM
open Matrix Filter Topology Spec

namespace Tame
variable {h κ : ℝ} {x z ρ : ℕ → ℝ} {K : ℝ → ℕ → Prop} {T : ℕ} (o : Tame h κ x z ρ K T)
  (hh : 0 < h) (hκ : 0 ≤ κ) (hρ : ∀ t, 0 < ρ t)
include o

theorem later {N : ℝ} {t : ℕ} (ht : T ≤ t) (hk : K N t) : ∀ᶠ s in atTop, T ≤ s ∧ K N s := by
  refine eventually_atTop.mpr ⟨t, fun s hs => ⟨ht.trans hs, ?_⟩⟩
  induction s, hs using Nat.le_induction with
  | base => exact hk
  | succ s hs ih => exact o.mono N s (ht.trans hs) ih

include hh hκ hρ

theorem of_small (hK : ∀ ε, 0 < ε → ∃ t, T ≤ t ∧ K ε t) :
    Tendsto (fun t => (x (t + 1) - z (t + 2)) ^ 2) atTop (𝓝 0) ∧
    Tendsto (fun t => (ρ (t + 1) * (z (t + 2) - z (t + 1))) ^ 2) atTop (𝓝 0) ∧
    Tendsto (fun t => (x (t + 2) - x (t + 1)) ^ 2) atTop (𝓝 0) ∧
    Tendsto (fun t => (h + κ + ρ (t + 1)) * (x (t + 2) - x (t + 1)) ^ 2) atTop (𝓝 0) := by
  have small : ∀ f : ℕ → ℝ, (∀ N t, T ≤ t → K N t → |f t| ≤ 4 * N) → Tendsto f atTop (𝓝 0) := by
    intro f hf
    rw [Metric.tendsto_atTop]
    intro ε hε
    obtain ⟨t, ht, hk⟩ := hK (ε / 8) (by linarith)
    obtain ⟨S, hS⟩ := eventually_atTop.mp (o.later ht hk)
    refine ⟨S, fun s hs => ?_⟩
    rw [Real.dist_eq, sub_zero]
    have := hf _ s (hS s hs).1 (hS s hs).2
    linarith
  have divh : ∀ f : ℕ → ℝ, Tendsto (fun t => h * f t) atTop (𝓝 0) → Tendsto f atTop (𝓝 0) := by
    intro f hf
    have := hf.const_mul h⁻¹
    simpa [← mul_assoc, inv_mul_cancel₀ hh.ne'] using this
  have grow : ∀ (s a : ℝ), 0 < s → |h * a| ≤ (h + κ + s) * |a| := by
    intro s a hs
    rw [abs_mul, abs_of_pos hh]
    have := mul_nonneg (by linarith : 0 ≤ κ + s) (abs_nonneg a)
    linarith
  have t1 : Tendsto (fun t => x (t + 1) - z (t + 2)) atTop (𝓝 0) :=
    divh _ (small _ fun N t ht hk => by
      have := (grow _ _ (hρ t)).trans (o.primal N t ht hk)
      linarith [o.nonneg N t hk])
  have t2 : Tendsto (fun t => ρ (t + 1) * (z (t + 2) - z (t + 1))) atTop (𝓝 0) :=
    small _ fun N t ht hk => by
      rw [abs_mul, abs_of_pos (hρ (t + 1))]
      linarith [o.nonneg N t hk, o.dual N t ht hk]
  have t4 : Tendsto (fun t => (h + κ + ρ (t + 1)) * (x (t + 2) - x (t + 1))) atTop (𝓝 0) :=
    small _ fun N t ht hk => by
      rw [abs_mul, abs_of_pos (by linarith [hρ (t + 1)])]
      exact o.move N t ht hk
  have t3 : Tendsto (fun t => x (t + 2) - x (t + 1)) atTop (𝓝 0) :=
    divh _ (small _ fun N t ht hk => (grow _ _ (hρ (t + 1))).trans (o.move N t ht hk))
  refine ⟨by simpa using t1.pow 2, by simpa using t2.pow 2, by simpa using t3.pow 2, ?_⟩
  have := t4.mul t3
  rw [mul_zero] at this
  exact this.congr fun t => by ring

theorem of_top (ht : Tendsto ρ atTop atTop) :
    Tendsto (fun t => (x (t + 1) - z (t + 2)) ^ 2) atTop (𝓝 0) ∧
    Tendsto (fun t => (x (t + 2) - x (t + 1)) ^ 2) atTop (𝓝 0) ∧
    Tendsto (fun t => (h + κ + ρ (t + 1)) * (x (t + 2) - x (t + 1)) ^ 2) atTop (𝓝 0) := by
  obtain ⟨N, hN⟩ := o.start
  have ev := o.later le_rfl hN
  have hN0 := o.nonneg N T hN
  have i1 : Tendsto (fun t => 4 * N * (ρ t)⁻¹) atTop (𝓝 0) := by
    simpa using (tendsto_inv_atTop_zero.comp ht).const_mul (4 * N)
  have i2 : Tendsto (fun t => 4 * N * (ρ (t + 1))⁻¹) atTop (𝓝 0) := (tendsto_add_atTop_iff_nat 1).mpr i1
  have grow : ∀ (s a : ℝ), 0 < s → (h + κ + s) * |a| ≤ 4 * N → |a| ≤ 4 * N * s⁻¹ := by
    intro s a hs ha
    rw [← div_eq_mul_inv, le_div_iff₀ hs]
    have := mul_nonneg (by linarith : 0 ≤ h + κ) (abs_nonneg a)
    linarith
  have t1 : Tendsto (fun t => x (t + 1) - z (t + 2)) atTop (𝓝 0) :=
    squeeze_zero_norm' (by
      filter_upwards [ev] with t ⟨h1, h2⟩
      exact grow _ _ (hρ t) (by linarith [o.primal N t h1 h2])) i1
  have t3 : Tendsto (fun t => x (t + 2) - x (t + 1)) atTop (𝓝 0) :=
    squeeze_zero_norm' (by
      filter_upwards [ev] with t ⟨h1, h2⟩
      exact grow _ _ (hρ (t + 1)) (o.move N t h1 h2)) i2
  refine ⟨by simpa using t1.pow 2, by simpa using t3.pow 2, ?_⟩
  refine squeeze_zero' (g := fun t => 4 * N * |x (t + 2) - x (t + 1)|)
    (Eventually.of_forall fun t => mul_nonneg (by linarith [hρ (t + 1)]) (sq_nonneg _)) ?_ ?_
  · filter_upwards [ev] with t ⟨h1, h2⟩
    have := mul_le_mul_of_nonneg_right (o.move N t h1 h2) (abs_nonneg (x (t + 2) - x (t + 1)))
    rw [← sq_abs, sq]
    linarith
  · have := (t3.abs).const_mul (4 * N)
    simpa using this

omit hh hκ hρ in
theorem of_zero (ht : Tendsto ρ atTop (𝓝 0)) :
    Tendsto (fun t => (ρ (t + 1) * (z (t + 2) - z (t + 1))) ^ 2) atTop (𝓝 0) ∧
    Tendsto (fun t => (x (t + 2) - x (t + 1)) ^ 2) atTop (𝓝 0) ∧
    Tendsto (fun t => (h + κ + ρ (t + 1)) * (x (t + 2) - x (t + 1)) ^ 2) atTop (𝓝 0) := by
  obtain ⟨hx, hz⟩ := o.still ht
  have hρ1 := (tendsto_add_atTop_iff_nat 1).mpr ht
  have hx1 := (tendsto_add_atTop_iff_nat 1).mpr hx
  have hz1 := (tendsto_add_atTop_iff_nat 1).mpr hz
  refine ⟨?_, ?_, ?_⟩
  · have := (hρ1.mul hz1).pow 2
    simpa using this
  · have := hx1.pow 2
    simpa using this
  · have := (hρ1.const_add (h + κ)).mul (hx1.pow 2)
    simpa using this

end Tame

/-- A positive sequence that changes by factors of at most two and tends neither to infinity nor to zero
keeps returning to some range. -/
theorem frequently_band {ρ : ℕ → ℝ} (hpos : ∀ t, 0 < ρ t) (hle : ∀ t, ρ (t + 1) ≤ 2 * ρ t)
    (h1 : ¬ Tendsto ρ atTop atTop) (h2 : ¬ Tendsto ρ atTop (𝓝 0)) :
    ∃ m M, 0 < m ∧ ∃ᶠ t in atTop, m ≤ ρ t ∧ ρ t ≤ M := by
  rw [tendsto_atTop] at h1
  push Not at h1
  obtain ⟨B, hB⟩ := h1
  rw [Metric.tendsto_atTop] at h2
  push Not at h2
  obtain ⟨b, hb, hb'⟩ := h2
  have hb2 : ∀ N, ∃ n, N ≤ n ∧ b ≤ ρ n := fun N => by
    obtain ⟨n, hn, hd⟩ := hb' N
    rw [Real.dist_eq, sub_zero, abs_of_pos (hpos n)] at hd
    exact ⟨n, hn, hd⟩
  have hB0 : 0 < B := by
    obtain ⟨t, ht⟩ := hB.exists
    exact (hpos t).trans ht
  set m := min b B with hm
  have hm0 : 0 < m := lt_min hb hB0
  refine ⟨m, 2 * B, hm0, ?_⟩
  by_contra hc
  rw [not_frequently] at hc
  obtain ⟨T, hT⟩ := hc.exists_forall_of_atTop
  obtain ⟨t₀, h0, h0'⟩ := (frequently_atTop.mp hB) T
  have key : ∀ s, ρ (t₀ + s) < m := by
    intro s
    induction s with
    | zero =>
      by_contra hh
      push Not at hh
      exact hT t₀ h0 ⟨hh, by linarith⟩
    | succ s ih =>
      by_contra hh
      push Not at hh
      refine hT (t₀ + s + 1) (by omega) ⟨hh, ?_⟩
      have := hle (t₀ + s)
      have := min_le_right b B
      linarith
  obtain ⟨n, hn, hn'⟩ := hb2 t₀
  obtain ⟨s, rfl⟩ : ∃ s, n = t₀ + s := ⟨n - t₀, by omega⟩
  have := key s
  have := min_le_left b B
  linarith

namespace AdmmSeq
variable {k : ℕ} {a hh : Fin k → ℝ} {e : ℝ} {c lam : Fin k → ℝ} {x z y : ℕ → Fin k → ℝ} {ρ : ℕ → ℝ}
  (h : AdmmSeq (diagonal a) (diagonal hh) e c lam x z y ρ)
include h

theorem rho_le_two (t : ℕ) : ρ (t + 1) ≤ 2 * ρ t := by
  have := h.rho_pos t
  rw [h.balance t]
  split_ifs <;> linarith

theorem rho_ge_half (t : ℕ) : ρ t ≤ 2 * ρ (t + 1) := by
  have := h.rho_pos t
  rw [h.balance t]
  split_ifs <;> linarith

variable (hpos : ∀ j, 0 < hh j) (ha : ∀ j, 0 ≤ a j) (hle : ∀ j, a j ≤ hh j) (he : e ≤ 1 / 4)
include hpos ha hle he

theorem coord (j : Fin k) :
    Coord (hh j) (e * a j) (lam j) (c j) (fun t => x t j) (fun t => z t j) (fun t => y t j) ρ where
  h_pos := hpos j
  κ_nonneg := mul_nonneg h.e_nonneg (ha j)
  κ_le := by
    have := mul_le_mul_of_nonneg_right he (ha j)
    linarith [hle j]
  rho_pos := h.rho_pos
  rho_le := h.rho_le_two
  rho_ge := h.rho_ge_half
  step t := by
    have := congrFun (h.step t) j
    simp only [Pi.add_apply, Pi.smul_apply, Pi.sub_apply, smul_eq_mul, mulVec_diagonal] at this
    linarith
  dual t := congrFun (h.dual t) j
  sub t := h.sub t j

/-- With a diagonal curvature the iteration comes arbitrarily close to stopping. -/
theorem settles_diagonal {ε : ℝ} (hε : 0 < ε) : ∃ t, Near (diagonal hh) c x z y ρ ε t := by
  have ht := fun j => (h.coord hpos ha hle he j).tame
  choose K T tame using ht
  have hκ : ∀ j, 0 ≤ e * a j := fun j => mul_nonneg h.e_nonneg (ha j)
  -- the four quantities
  have eP : ∀ t, sqn (x (t + 1) - z (t + 2)) = ∑ j, (x (t + 1) j - z (t + 2) j) ^ 2 := fun t => by
    simp only [sqn, dotProduct, Pi.sub_apply, sq]
  have eD : ∀ t, ρ (t + 1) ^ 2 * sqn (z (t + 2) - z (t + 1))
      = ∑ j, (ρ (t + 1) * (z (t + 2) j - z (t + 1) j)) ^ 2 := fun t => by
    simp only [sqn, dotProduct, Pi.sub_apply, Finset.mul_sum]
    exact Finset.sum_congr rfl fun j _ => by ring
  have eE : ∀ t, sqn (x (t + 2) - x (t + 1)) = ∑ j, (x (t + 2) j - x (t + 1) j) ^ 2 := fun t => by
    simp only [sqn, dotProduct, Pi.sub_apply, sq]
  have eQ : ∀ t, (c - diagonal hh *ᵥ x (t + 1) - y (t + 2) - ρ (t + 1) • (x (t + 1) - z (t + 2)))
      ⬝ᵥ (x (t + 2) - x (t + 1)) = ∑ j, (hh j + e * a j + ρ (t + 1)) * (x (t + 2) j - x (t + 1) j) ^ 2 :=
    fun t => by
      refine Finset.sum_congr rfl fun j _ => ?_
      have := (h.coord hpos ha hle he j).step (t + 1)
      simp only [Pi.sub_apply, Pi.smul_apply, smul_eq_mul, mulVec_diagonal]
      rw [show t + 1 + 1 = t + 2 from rfl] at this
      linear_combination -(x (t + 2) j - x (t + 1) j) * this
  have sum0 : ∀ f : ℕ → Fin k → ℝ, (∀ j, Tendsto (fun t => f t j) atTop (𝓝 0)) →
      ∀ᶠ t in atTop, ∑ j, f t j < ε := fun f hf => by
    have := tendsto_finsetSum Finset.univ fun j _ => hf j
    rw [Finset.sum_const_zero] at this
    exact this.eventually_lt_const hε
  have fin : ∀ t, ∑ j, (x (t + 1) j - z (t + 2) j) ^ 2 < ε →
      ∑ j, (ρ (t + 1) * (z (t + 2) j - z (t + 1) j)) ^ 2 < ε → ∑ j, (x (t + 2) j - x (t + 1) j) ^ 2 < ε →
      ∑ j, (hh j + e * a j + ρ (t + 1)) * (x (t + 2) j - x (t + 1) j) ^ 2 < ε →
      ∃ t, Near (diagonal hh) c x z y ρ ε t := fun t p1 p2 p3 p4 =>
    ⟨t + 1, by rw [show t + 1 + 1 = t + 2 from rfl, eP]; exact p1,
      by rw [show t + 1 + 1 = t + 2 from rfl, eD]; exact p2,
      by rw [show t + 1 + 1 = t + 2 from rfl, eE]; exact p3,
      by rw [show t + 1 + 1 = t + 2 from rfl, eQ]; exact p4.le⟩
  have shift : ∀ {P : ℕ → Prop}, (∃ᶠ t in atTop, P t) → ∃ᶠ t in atTop, P (t + 1) := by
    intro P hP
    rw [frequently_atTop] at hP ⊢
    intro a
    obtain ⟨b, hb, hb'⟩ := hP (a + 1)
    exact ⟨b - 1, by omega, by rwa [Nat.sub_add_cancel (by omega)]⟩
  by_cases c1 : Tendsto ρ atTop atTop
  · have lim := fun j => (tame j).of_top (hpos j) (hκ j) h.rho_pos c1
    have fr : ∃ᶠ t in atTop, ρ t < ρ (t + 1) := by
      by_contra hc
      rw [not_frequently] at hc
      obtain ⟨S, hS⟩ := hc.exists_forall_of_atTop
      obtain ⟨s, hs, hs'⟩ := ((tendsto_atTop.mp c1 (ρ S + 1)).and (eventually_ge_atTop S)).exists
      have : ∀ s, S ≤ s → ρ s ≤ ρ S := fun s hs => by
        induction s, hs using Nat.le_induction with
        | base => exact le_rfl
        | succ s hs ih => exact (not_lt.mp (hS s hs)).trans ih
      linarith [this s hs']
    obtain ⟨t, hlt, p1, p3, p4⟩ := ((shift fr).and_eventually ((sum0 _ fun j => (lim j).1).and
      ((sum0 _ fun j => (lim j).2.1).and (sum0 _ fun j => (lim j).2.2)))).exists
    refine fin t p1 ?_ p3 p4
    have hb := h.balance (t + 1)
    rw [show t + 1 + 1 = t + 2 from rfl, eP, eD] at hb
    have h0 : 0 ≤ ∑ j, (ρ (t + 1) * (z (t + 2) j - z (t + 1) j)) ^ 2 := Finset.sum_nonneg fun j _ => sq_nonneg _
    split_ifs at hb with q1 q2
    · linarith
    · exfalso; rw [show t + 1 + 1 = t + 2 from rfl] at hlt; linarith [h.rho_pos (t + 1)]
    · exfalso; rw [show t + 1 + 1 = t + 2 from rfl] at hlt; linarith
  by_cases c2 : Tendsto ρ atTop (𝓝 0)
  · have lim := fun j => (tame j).of_zero c2
    have fr : ∃ᶠ t in atTop, ρ (t + 1) < ρ t := by
      by_contra hc
      rw [not_frequently] at hc
      obtain ⟨S, hS⟩ := hc.exists_forall_of_atTop
      obtain ⟨s, hs, hs'⟩ := ((c2.eventually_lt_const (h.rho_pos S)).and (eventually_ge_atTop S)).exists
      have : ∀ s, S ≤ s → ρ S ≤ ρ s := fun s hs => by
        induction s, hs using Nat.le_induction with
        | base => exact le_rfl
        | succ s hs ih => exact ih.trans (not_lt.mp (hS s hs))
      linarith [this s hs']
    obtain ⟨t, hlt, p2, p3, p4⟩ := ((shift fr).and_eventually ((sum0 _ fun j => (lim j).1).and
      ((sum0 _ fun j => (lim j).2.1).and (sum0 _ fun j => (lim j).2.2)))).exists
    refine fin t ?_ p2 p3 p4
    have hb := h.balance (t + 1)
    rw [show t + 1 + 1 = t + 2 from rfl, eP, eD] at hb
    have h0 : 0 ≤ ∑ j, (x (t + 1) j - z (t + 2) j) ^ 2 := Finset.sum_nonneg fun j _ => sq_nonneg _
    split_ifs at hb with q1 q2
    · exfalso; rw [show t + 1 + 1 = t + 2 from rfl] at hlt; linarith [h.rho_pos (t + 1)]
    · linarith
    · exfalso; rw [show t + 1 + 1 = t + 2 from rfl] at hlt; linarith
  obtain ⟨m, M, hm, hf⟩ := frequently_band h.rho_pos h.rho_le_two c1 c2
  have lim := fun j => (tame j).of_small (hpos j) (hκ j) h.rho_pos fun ε hε => (tame j).band m M hm hf ε hε
  obtain ⟨t, p1, p2, p3, p4⟩ := ((sum0 _ fun j => (lim j).1).and ((sum0 _ fun j => (lim j).2.1).and
    ((sum0 _ fun j => (lim j).2.2.1).and (sum0 _ fun j => (lim j).2.2.2)))).exists
  exact fin t p1 p2 p3 p4

end AdmmSeq

end GLM
