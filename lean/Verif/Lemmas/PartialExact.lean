import Verif.Lemmas.Partial
import Verif.Lemmas.Single

/-! # Exact arithmetic and determinism of the partial factorization -/

namespace Ctldl

open Finset

section

variable {K : Type} [Zero K] [Sub K] [Mul K] [Div K]

/-- A row only depends on the values on the patterns. -/
theorem PartialRow.congr_on {c11 c21 c31 c32 c33 : Csr} {l11 l21 : Nat → Nat → K} {d1 : Nat → K}
    {a31 a32 a33 b31 b32 b33 : Nat → Nat → K} {aD bD : Nat → K} {l31 l32 l33 : Nat → Nat → K}
    {d3 : Nat → K} {i : Nat}
    (h : PartialRow c11 c21 c31 c32 c33 l11 l21 d1 a31 a32 a33 aD l31 l32 l33 d3 i)
    (ha31 : ∀ j, c31.Has i j → a31 i j = b31 i j) (ha32 : ∀ j, c32.Has i j → a32 i j = b32 i j)
    (ha33 : ∀ j, c33.Has i j → a33 i j = b33 i j) (haD : aD i = bD i) :
    PartialRow c11 c21 c31 c32 c33 l11 l21 d1 b31 b32 b33 bD l31 l32 l33 d3 i := by
  obtain ⟨w, h1, h2, h3, h4, h5⟩ := h
  refine ⟨w, ?_, h2, ?_, ?_, ?_⟩
  · intro j hj
    rw [← ha31 j hj]
    exact h1 j hj
  · intro j hj
    rw [← ha32 j hj]
    exact h3 j hj
  · intro j hj
    rw [← ha33 j hj]
    exact h4 j hj
  · rw [← haD]
    exact h5

/-- The rows of the partial factorization determine the values on the patterns. -/
theorem partialRow_unique {c11 c21 c31 c32 c33 : Csr} {n3 : Nat} {l11 l21 m11 m21 : Nat → Nat → K}
    {d1 e1 : Nat → K} {a31 a32 a33 b31 b32 b33 : Nat → Nat → K} {aD bD : Nat → K}
    {l31 l32 l33 m31 m32 m33 : Nat → Nat → K} {d3 e3 : Nat → K}
    (h : ∀ i < n3, PartialRow c11 c21 c31 c32 c33 l11 l21 d1 a31 a32 a33 aD l31 l32 l33 d3 i)
    (h' : ∀ i < n3, PartialRow c11 c21 c31 c32 c33 m11 m21 e1 b31 b32 b33 bD m31 m32 m33 e3 i)
    (low11 : ∀ i j, c11.Has i j → j < i) (low33 : ∀ i j, c33.Has i j → j < i)
    (h11 : ∀ i j, c11.Has i j → l11 i j = m11 i j) (h21 : ∀ i j, c21.Has i j → l21 i j = m21 i j)
    (hd1 : ∀ i j, c31.Has i j → d1 j = e1 j)
    (ha31 : ∀ i j, c31.Has i j → a31 i j = b31 i j) (ha32 : ∀ i j, c32.Has i j → a32 i j = b32 i j)
    (ha33 : ∀ i j, c33.Has i j → a33 i j = b33 i j) (haD : ∀ i < n3, aD i = bD i) :
    (∀ i j, i < n3 → c31.Has i j → l31 i j = m31 i j) ∧ (∀ i j, i < n3 → c32.Has i j → l32 i j = m32 i j) ∧
    (∀ i j, i < n3 → c33.Has i j → l33 i j = m33 i j) ∧ ∀ i, i < n3 → d3 i = e3 i := by
  have hw : ∀ i, i < n3 → ∃ w v : Nat → K,
      (∀ j, c31.Has i j → w j = v j) ∧
      ((∀ j, c31.Has i j → l31 i j = w j / d1 j) ∧
      (∀ j, c32.Has i j → l32 i j = subAll ((c31.cols i).filter (c21.Has j ·)) (fun k => l21 j k * w k) (a32 i j)) ∧
      (∀ j, c33.Has i j → l33 i j = subAll ((c31.cols i).filter (c31.Has j ·)) (fun k => l31 j k * w k) (a33 i j)) ∧
      d3 i = subAll (c31.cols i) (fun j => w j * (w j / d1 j)) (aD i)) ∧
      ((∀ j, c31.Has i j → m31 i j = v j / e1 j) ∧
      (∀ j, c32.Has i j → m32 i j = subAll ((c31.cols i).filter (c21.Has j ·)) (fun k => m21 j k * v k) (b32 i j)) ∧
      (∀ j, c33.Has i j → m33 i j = subAll ((c31.cols i).filter (c31.Has j ·)) (fun k => m31 j k * v k) (b33 i j)) ∧
      e3 i = subAll (c31.cols i) (fun j => v j * (v j / e1 j)) (bD i)) := by
    intro i hi
    obtain ⟨w, hw1, hw2⟩ := h i hi
    obtain ⟨v, hv1, hv2⟩ := h' i hi
    refine ⟨w, v, ?_, hw2, hv2⟩
    intro j
    induction j using Nat.strong_induction_on with
    | _ j ih =>
      intro hj
      rw [hw1 j hj, hv1 j hj, ha31 i j hj]
      apply subAll_congr
      intro k hk
      rw [List.mem_filter, Csr.mem_cols] at hk
      have hkj : c11.Has j k := by simpa using hk.2
      rw [h11 _ _ hkj, ih k (low11 _ _ hkj) hk.1]
  have h31 : ∀ i j, i < n3 → c31.Has i j → l31 i j = m31 i j := by
    intro i j hi hj
    obtain ⟨w, v, e, ⟨q1, -⟩, ⟨r1, -⟩⟩ := hw i hi
    rw [q1 j hj, r1 j hj, e j hj, hd1 i j hj]
  refine ⟨h31, ?_, ?_, ?_⟩
  · intro i j hi hj
    obtain ⟨w, v, e, ⟨-, q1, -⟩, ⟨-, r1, -⟩⟩ := hw i hi
    rw [q1 j hj, r1 j hj, ha32 i j hj]
    apply subAll_congr
    intro k hk
    rw [List.mem_filter, Csr.mem_cols] at hk
    rw [h21 _ _ (by simpa using hk.2), e k hk.1]
  · intro i j hi hj
    obtain ⟨w, v, e, ⟨-, -, q1, -⟩, ⟨-, -, r1, -⟩⟩ := hw i hi
    rw [q1 j hj, r1 j hj, ha33 i j hj]
    apply subAll_congr
    intro k hk
    rw [List.mem_filter, Csr.mem_cols] at hk
    have := low33 _ _ hj
    rw [h31 j k (by omega) (by simpa using hk.2), e k hk.1]
  · intro i hi
    obtain ⟨w, v, e, ⟨-, -, -, q1⟩, ⟨-, -, -, r1⟩⟩ := hw i hi
    rw [q1, r1, haD i hi]
    apply subAll_congr
    intro k hk
    rw [Csr.mem_cols] at hk
    rw [e k hk, hd1 i k hk]

end

section

variable {K : Type} [Field K]

/-- Equations satisfied by row `i` after a partial factorization. -/
structure PartialExact (n1 n2 : Nat) (l11 l21 : Nat → Nat → K) (d1 : Nat → K) (a31 a32 a33 : Nat → Nat → K)
    (aD : Nat → K) (l31 l32 l33 : Nat → Nat → K) (d3 : Nat → K) (i : Nat) : Prop where
  e31 : ∀ j < n1, ∑ k ∈ range n1, l31 i k * d1 k * l11 j k + l31 i j * d1 j = a31 i j
  e32 : ∀ j < n2, ∑ k ∈ range n1, l31 i k * d1 k * l21 j k + l32 i j = a32 i j
  e33 : ∀ j < i, ∑ k ∈ range n1, l31 i k * d1 k * l31 j k + l33 i j = a33 i j
  eD : ∑ k ∈ range n1, l31 i k * d1 k * l31 i k + d3 i = aD i

theorem PartialRow.exact {c11 c21 c31 c32 c33 : Csr} {n1 n2 : Nat} (g31 : c31.Good)
    (hc31 : c31.numCols = n1) {L11 L21 L31 L32 L33 : List K} {d1 d3 : Nat → K}
    {a31 a32 a33 : Nat → Nat → K} {aD : Nat → K} {i : Nat}
    (cl31 : ∀ i j k, c31.Has i j → c11.Has k j → c31.Has i k)
    (cl32 : ∀ i j k, c31.Has i j → c21.Has k j → c32.Has i k)
    (cl33 : ∀ i j k, c31.Has i j → c31.Has k j → k < i → c33.Has i k)
    (z31 : ∀ j < n1, ¬ c31.Has i j → a31 i j = 0) (z32 : ∀ j < n2, ¬ c32.Has i j → a32 i j = 0)
    (z33 : ∀ j < i, ¬ c33.Has i j → a33 i j = 0) (hp : ∀ j, c31.Has i j → d1 j ≠ 0)
    (h : PartialRow c11 c21 c31 c32 c33 (val c11 L11) (val c21 L21) d1 a31 a32 a33 aD (val c31 L31) (val c32 L32)
      (val c33 L33) d3 i) :
    PartialExact n1 n2 (val c11 L11) (val c21 L21) d1 a31 a32 a33 aD (val c31 L31) (val c32 L32) (val c33 L33) d3
      i := by
  obtain ⟨w, h1, h2, h3, h4, h5⟩ := h
  subst hc31
  have hw : ∀ j, c31.Has i j → w j = val c31 L31 i j * d1 j := fun j hj => by
    rw [h2 j hj, div_mul_cancel₀ _ (hp j hj)]
  -- a sum in the order of the code is a sum over all columns
  have key : ∀ (c : Csr) (L : List K) (j : Nat) (a : K),
      subAll ((c31.cols i).filter (c.Has j ·)) (fun k => val c L j k * w k) a =
        a - ∑ k ∈ range c31.numCols, val c31 L31 i k * d1 k * val c L j k := by
    intro c L j a
    have e : subAll ((c31.cols i).filter (c.Has j ·)) (fun k => val c L j k * w k) a =
        subAll ((c31.cols i).filter (c.Has j ·)) (fun k => val c31 L31 i k * d1 k * val c L j k) a := by
      apply subAll_congr
      intro k hk
      rw [List.mem_filter, Csr.mem_cols] at hk
      rw [hw k hk.1]
      ring
    rw [e, subAll_eq_sub_sum, sum_map_cols_filter g31]
    intro k hk
    by_cases hh : c31.Has i k
    · rw [val_off (i := j) (fun h => hk ⟨hh, h⟩), mul_zero]
    · rw [val_off hh, zero_mul, zero_mul]
  have zero : ∀ (c : Csr) (L : List K) (j : Nat), (∀ k, c31.Has i k → ¬ c.Has j k) →
      ∑ k ∈ range c31.numCols, val c31 L31 i k * d1 k * val c L j k = 0 := by
    intro c L j hh
    apply sum_eq_zero
    intro k _
    by_cases h1 : c31.Has i k
    · rw [val_off (hh k h1), mul_zero]
    · rw [val_off h1, zero_mul, zero_mul]
  refine ⟨?_, ?_, ?_, ?_⟩
  · intro j hj
    by_cases hij : c31.Has i j
    · rw [← hw j hij, h1 j hij, key]
      ring
    · rw [z31 j hj hij, val_off hij, zero_mul, add_zero]
      exact zero _ _ _ fun k hk hk' => hij (cl31 _ _ _ hk hk')
  · intro j hj
    by_cases hij : c32.Has i j
    · rw [h3 j hij, key]
      ring
    · rw [z32 j hj hij, val_off hij, add_zero]
      exact zero _ _ _ fun k hk hk' => hij (cl32 _ _ _ hk hk')
  · intro j hj
    by_cases hij : c33.Has i j
    · rw [h4 j hij, key]
      ring
    · rw [z33 j hj hij, val_off hij, add_zero]
      exact zero _ _ _ fun k hk hk' => hij (cl33 _ _ _ hk hk' hj)
  · rw [h5]
    have e : subAll (c31.cols i) (fun j => w j * (w j / d1 j)) (aD i) =
        subAll (c31.cols i) (fun k => val c31 L31 i k * d1 k * val c31 L31 i k) (aD i) := by
      apply subAll_congr
      intro k hk
      rw [Csr.mem_cols] at hk
      rw [← h2 k hk, hw k hk]
    rw [e, subAll_eq_sub_sum, sum_map_cols g31]
    · ring
    · intro k hk
      rw [val_off hk, mul_zero]

end

end Ctldl
