import Verif.Spec.Definite
import Mathlib.Algebra.BigOperators.Ring.Finset
import Mathlib.Algebra.Order.BigOperators.Group.Finset
import Mathlib.Tactic.Linarith
import Mathlib.Tactic.Positivity
import Mathlib.Tactic.Ring
import Mathlib.Tactic.ByContra
import Mathlib.Tactic.Push

/-! # Quasi-definite matrices are regular -/

namespace Ctldl

open Finset

theorem QuasiDef.injective {ι K : Type} [Field K] [LinearOrder K] [IsStrictOrderedRing K] {s : Finset ι} {S : ι → Prop}
    {μ : K} (hμ : 0 ≤ μ) {A : ι → ι → K} (hsymm : ∀ i ∈ s, ∀ j ∈ s, A i j = A j i) (h : QuasiDef s S μ A) {z : ι → K}
    (hz : ∀ i ∈ s, ∑ j ∈ s, A i j * z j = 0) : ∀ i ∈ s, z i = 0 := by
  classical
  by_contra hne
  push Not at hne
  let p : ι → K := fun i => if S i then z i else 0
  let q : ι → K := fun i => if S i then 0 else z i
  have hpq : ∀ i, z i = p i + q i := fun i => by by_cases hi : S i <;> simp [p, q, hi]
  have hsplit : ∀ w : ι → K, ∑ i ∈ s, ∑ j ∈ s, w i * A i j * p j + ∑ i ∈ s, ∑ j ∈ s, w i * A i j * q j = 0 := by
    intro w
    rw [← sum_add_distrib]
    refine sum_eq_zero fun i hi => ?_
    rw [← sum_add_distrib]
    have := hz i hi
    calc ∑ j ∈ s, (w i * A i j * p j + w i * A i j * q j) = w i * ∑ j ∈ s, A i j * z j := by
          rw [mul_sum]
          exact sum_congr rfl fun j _ => by rw [hpq j]; ring
      _ = 0 := by rw [this, mul_zero]
  have hcross : ∑ i ∈ s, ∑ j ∈ s, p i * A i j * q j = ∑ i ∈ s, ∑ j ∈ s, q i * A i j * p j := by
    rw [sum_comm]
    exact sum_congr rfl fun i hi => sum_congr rfl fun j hj => by rw [hsymm j hj i hi]; ring
  have h1 := hsplit p
  have h2 := hsplit q
  have hp0 : 0 ≤ μ * ∑ i ∈ s, p i ^ 2 := mul_nonneg hμ (sum_nonneg fun i _ => sq_nonneg _)
  have hq0 : 0 ≤ μ * ∑ i ∈ s, q i ^ 2 := mul_nonneg hμ (sum_nonneg fun i _ => sq_nonneg _)
  have hzero : ∀ w : ι → K, (∀ i ∈ s, w i = 0) → ∑ i ∈ s, ∑ j ∈ s, w i * A i j * w j = 0 := fun w hw =>
    sum_eq_zero fun i hi => sum_eq_zero fun j _ => by rw [hw i hi]; ring
  have hP : (∃ i ∈ s, p i ≠ 0) → 0 < ∑ i ∈ s, ∑ j ∈ s, p i * A i j * p j := fun hx =>
    hp0.trans_lt (h.1 p hx fun i _ hn => if_neg hn)
  have hQ : (∃ i ∈ s, q i ≠ 0) → ∑ i ∈ s, ∑ j ∈ s, q i * A i j * q j < 0 := fun hx =>
    (h.2 q hx fun i _ hS => if_pos hS).trans_le (by linarith)
  obtain ⟨k, hk, hzk⟩ := hne
  by_cases hp : ∃ i ∈ s, p i ≠ 0
  · have h3 := hP hp
    by_cases hq : ∃ i ∈ s, q i ≠ 0
    · have h4 := hQ hq
      linarith
    · push Not at hq
      have h4 := hzero q hq
      linarith
  · push Not at hp
    have h3 := hzero p hp
    have hq : ∃ i ∈ s, q i ≠ 0 := ⟨k, hk, fun h0 => hzk (by rw [hpq, hp k hk, h0, add_zero])⟩
    have h4 := hQ hq
    linarith

end Ctldl
