import Verif.Spec.Definite
import Mathlib.Algebra.Order.BigOperators.Ring.Finset
import Mathlib.Algebra.Order.Field.Basic
import Mathlib.Algebra.BigOperators.Field
import Mathlib.Tactic.Linarith
import Mathlib.Tactic.Ring

/-! # Diagonally dominant matrices are quasidefinite -/

namespace Ctldl

open Finset

variable {ι F : Type} [DecidableEq ι] [Field F] [LinearOrder F] [IsStrictOrderedRing F]

/-- The part of dominance for one of the blocks. -/
theorem dominant_block {s : Finset ι} {S : ι → Prop} [DecidablePred S] {μ : F} {A : ι → ι → F}
    (hsymm : ∀ i ∈ s, ∀ j ∈ s, A i j = A j i)
    (h : ∀ i ∈ s, S i → μ + ∑ j ∈ s, (if S j ∧ j ≠ i then |A i j| else 0) < A i i) (x : ι → F) (hx : ∃ i ∈ s, x i ≠ 0)
    (h0 : ∀ i ∈ s, ¬ S i → x i = 0) : μ * ∑ i ∈ s, x i ^ 2 < ∑ i ∈ s, ∑ j ∈ s, x i * A i j * x j := by
  let w : ι → ι → F := fun i j => if S j ∧ j ≠ i then |A i j| else 0
  have key : ∀ i ∈ s, ∀ j ∈ s, S i → (if j = i then A i i * x i ^ 2 else 0) - w i j * ((x i ^ 2 + x j ^ 2) / 2) ≤
      x i * A i j * x j := by
    intro i hi j hj _
    by_cases hji : j = i
    · subst hji
      simp only [w, if_pos, ne_eq, not_true_eq_false, and_false, if_false]
      apply le_of_eq
      ring
    · rw [if_neg hji]
      by_cases hS : S j
      · simp only [w]
        rw [if_pos ⟨hS, hji⟩]
        have h1 : |x i * x j| ≤ (x i ^ 2 + x j ^ 2) / 2 := by
          rw [abs_le]
          constructor <;> nlinarith [sq_nonneg (x i + x j), sq_nonneg (x i - x j)]
        have h2 : -(|A i j| * |x i * x j|) ≤ A i j * (x i * x j) := by
          rw [← abs_mul]
          exact neg_abs_le _
        have h3 := mul_le_mul_of_nonneg_left h1 (abs_nonneg (A i j))
        calc 0 - |A i j| * ((x i ^ 2 + x j ^ 2) / 2) ≤ -(|A i j| * |x i * x j|) := by linarith
          _ ≤ A i j * (x i * x j) := h2
          _ = _ := by ring
      · rw [h0 j hj hS]
        simp only [w]
        rw [if_neg fun h => hS h.1]
        simp
  have hw : ∀ i ∈ s, ∀ j ∈ s, S i → S j → w i j = w j i := by
    intro i hi j hj h1 h2
    simp only [w]
    by_cases hji : j = i
    · subst hji
      rfl
    · rw [if_pos ⟨h2, hji⟩, if_pos ⟨h1, Ne.symm hji⟩, hsymm i hi j hj]
  have hw' : ∀ i ∈ s, ∀ j ∈ s, w i j * x j ^ 2 * (if S i then 1 else 0) = w j i * x j ^ 2 * (if S i then 1 else 0) := by
    intro i hi j hj
    split
    · next hS =>
      by_cases hSj : S j
      · rw [hw i hi j hj hS hSj]
      · rw [h0 j hj hSj]
        ring
    · ring
  have e1 : ∑ i ∈ s, ∑ j ∈ s, x i * A i j * x j ≥ ∑ i ∈ s, (A i i - ∑ j ∈ s, w i j) * x i ^ 2 := by
    have h1 : ∑ i ∈ s, ∑ j ∈ s, ((if j = i then A i i * x i ^ 2 else 0) -
        w i j * ((x i ^ 2 + x j ^ 2) / 2)) * (if S i then 1 else 0) ≤ ∑ i ∈ s, ∑ j ∈ s, x i * A i j * x j := by
      refine sum_le_sum fun i hi => sum_le_sum fun j hj => ?_
      by_cases hS : S i
      · rw [if_pos hS, mul_one]
        exact key i hi j hj hS
      · rw [h0 i hi hS, if_neg hS]
        simp
    refine le_trans (le_of_eq ?_) h1
    have h2 : ∀ i ∈ s, ∑ j ∈ s, ((if j = i then A i i * x i ^ 2 else 0) -
        w i j * ((x i ^ 2 + x j ^ 2) / 2)) * (if S i then 1 else 0) =
        A i i * x i ^ 2 - (∑ j ∈ s, w i j) * x i ^ 2 / 2 - (∑ j ∈ s, w i j * x j ^ 2 * (if S i then 1 else 0)) / 2 := by
      intro i hi
      rw [← sum_mul, sum_sub_distrib, sum_ite_eq' s i, if_pos hi]
      split
      · have : ∑ j ∈ s, w i j * ((x i ^ 2 + x j ^ 2) / 2) =
            (∑ j ∈ s, w i j) * x i ^ 2 / 2 + (∑ j ∈ s, w i j * x j ^ 2) / 2 := by
          rw [sum_mul, sum_div, sum_div, ← sum_add_distrib]
          exact sum_congr rfl fun j _ => by ring
        rw [this]
        simp only [mul_one]
        ring
      · next hS =>
        rw [h0 i hi hS]
        simp
    rw [sum_congr rfl h2, sum_sub_distrib, sum_sub_distrib]
    have h3 : ∑ i ∈ s, (∑ j ∈ s, w i j * x j ^ 2 * (if S i then 1 else 0)) / 2 =
        ∑ i ∈ s, (∑ j ∈ s, w i j) * x i ^ 2 / 2 := by
      rw [← sum_div, ← sum_div]
      congr 1
      rw [sum_comm]
      refine sum_congr rfl fun j hj => ?_
      rw [sum_mul]
      refine sum_congr rfl fun i hi => ?_
      rw [hw' i hi j hj]
      simp only [w]
      by_cases hS : S i
      · rw [if_pos hS, mul_one]
      · rw [if_neg hS, mul_zero, if_neg fun h => hS h.1, zero_mul]
    rw [h3, ← sum_sub_distrib, ← sum_sub_distrib]
    refine sum_congr rfl fun i _ => ?_
    ring
  refine lt_of_lt_of_le ?_ e1
  rw [mul_sum]
  obtain ⟨i, hi, hxi⟩ := hx
  refine sum_lt_sum (fun j hj => ?_) ⟨i, hi, ?_⟩
  · by_cases hS : S j
    · exact mul_le_mul_of_nonneg_right (by have := h j hj hS; simp only [w]; linarith) (sq_nonneg _)
    · rw [h0 j hj hS]
      simp
  · have hS : S i := by
      by_contra hS
      exact hxi (h0 i hi hS)
    exact mul_lt_mul_of_pos_right (by have := h i hi hS; simp only [w]; linarith) (by positivity)

/-- A symmetric matrix whose diagonal elements, with the signs of the blocks, exceed the sums of the absolute values of the
other elements in the same row and block by more than `μ`, is quasidefinite. -/
theorem quasiDef_of_dominant {s : Finset ι} {S : ι → Prop} [DecidablePred S] {μ : F} {A : ι → ι → F}
    (hsymm : ∀ i ∈ s, ∀ j ∈ s, A i j = A j i)
    (h1 : ∀ i ∈ s, S i → μ + ∑ j ∈ s, (if S j ∧ j ≠ i then |A i j| else 0) < A i i)
    (h2 : ∀ i ∈ s, ¬ S i → μ + ∑ j ∈ s, (if ¬ S j ∧ j ≠ i then |A i j| else 0) < -A i i) : QuasiDef s S μ A := by
  refine ⟨fun x hx h0 => dominant_block hsymm h1 x hx h0, fun x hx h0 => ?_⟩
  have := dominant_block (S := fun i => ¬ S i) (A := fun i j => -A i j) (μ := μ) (fun i hi j hj => by rw [hsymm i hi j hj])
    (fun i hi hS => by simpa only [abs_neg] using h2 i hi hS) x hx fun i hi hS => h0 i hi (not_not.mp hS)
  simp only [mul_neg, neg_mul, sum_neg_distrib] at this
  linarith

end Ctldl
