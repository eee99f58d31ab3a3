import Mathlib.Algebra.BigOperators.Group.Finset.Basic
import Mathlib.Algebra.BigOperators.Ring.Finset
import Mathlib.Algebra.BigOperators.Group.Finset.Sigma
import Mathlib.Algebra.Field.Basic
import Mathlib.Tactic.Ring
import Mathlib.Tactic.LinearCombination

/-! # Products with unit triangular matrices over a finite set of indices -/

namespace Ctldl

section

variable {ι K : Type} [Field K]

/-- A system with a unit triangular matrix has at most one solution. -/
theorem triangular_inj {r : ι → ι → Prop} (wf : WellFounded r) (s : Finset ι) {l : ι → ι → K}
    (hl : ∀ x ∈ s, ∀ y ∈ s, l x y ≠ 0 → r y x) {w : ι → K}
    (h : ∀ x ∈ s, w x + ∑ y ∈ s, l x y * w y = 0) : ∀ x ∈ s, w x = 0 := by
  intro x
  induction x using wf.induction with
  | _ x ih =>
    intro hx
    have h1 := h x hx
    rw [Finset.sum_eq_zero, add_zero] at h1
    · exact h1
    · intro y hy
      by_cases hz : l x y = 0
      · rw [hz, zero_mul]
      · rw [ih y (hl x hx y hy hz) hy, mul_zero]

/-- `(L D Lᵀ) x = L (D (Lᵀ x))`. -/
theorem ldlt_mul (s : Finset ι) (u : ι → ι → K) (d : ι → K) (x : ι → K) (i : ι) :
    ∑ j ∈ s, (∑ k ∈ s, u i k * d k * u j k) * x j = ∑ k ∈ s, u i k * (d k * ∑ j ∈ s, u j k * x j) := by
  simp only [Finset.sum_mul, Finset.mul_sum]
  rw [Finset.sum_comm]
  exact Finset.sum_congr rfl fun k _ => Finset.sum_congr rfl fun j _ => by ring

end

end Ctldl
