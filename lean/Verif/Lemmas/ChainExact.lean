import Verif.Lemmas.Chain
import Mathlib.Algebra.BigOperators.Ring.Finset
import Mathlib.Tactic.Ring

/-! # The assembled product `L D Lᵀ` of a chain of blocks with an outer block row -/

namespace Ctldl

open Finset

variable {K : Type}

/-- Size of a block of the chain, the outer one being the last. -/
def chainN (X : ChainPat) (M p : Nat) : Nat := if p ≤ M then X.n p else X.nO

/-- Pivots of a block. -/
def chainD [Zero K] (V : ChainVals K) (M p : Nat) : Nat → K := if p ≤ M then V.d p else V.g

/-- Symmetric matrix with given lower triangle and diagonal. -/
def symOf (a : Nat → Nat → K) (aD : Nat → K) (i j : Nat) : K :=
  if i = j then aD i else if j < i then a i j else a j i

/-- Block `(p, q)`, `q ≤ p`, of the assembled matrix. -/
def chainLow [Zero K] (I : ChainInput K) (M p q i j : Nat) : K :=
  if p = q then (if p ≤ M then symOf (I.a p) (I.aD p) i j else symOf I.h I.hD i j)
  else if p = M + 1 then I.c q i j
  else if p = q + 1 then I.b q i j
  else 0

/-- Block `(p, q)` of the assembled matrix. -/
def chainA [Zero K] (I : ChainInput K) (M p q i j : Nat) : K :=
  if q ≤ p then chainLow I M p q i j else chainLow I M q p j i

variable [Field K]

/-- Block `(p, q)` of the assembled unit lower triangular matrix. -/
def chainL (X : ChainPat) (V : ChainVals K) (M p q i j : Nat) : K :=
  if p = q then unitLower (if p ≤ M then V.l X p else V.e X) i j
  else if p = M + 1 then V.o X q i j
  else if p = q + 1 then V.s X q i j
  else 0

/-- The assembled product. -/
def chainLdlt (X : ChainPat) (V : ChainVals K) (M p q i j : Nat) : K :=
  ∑ r ∈ range (M + 2), ∑ k ∈ range (chainN X M r), chainL X V M p r i k * chainD V M r k * chainL X V M q r j k

theorem chainLdlt_symm (X : ChainPat) (V : ChainVals K) (M p q i j : Nat) :
    chainLdlt X V M p q i j = chainLdlt X V M q p j i := by
  unfold chainLdlt
  exact sum_congr rfl fun r _ => sum_congr rfl fun k _ => by ring

theorem sum_prev {m q : Nat} {F : Nat → K} (hq : q < m) (h : ∀ r < m, r ≠ q → r + 1 ≠ q → F r = 0) :
    ∑ r ∈ range m, F r = (match q with | 0 => 0 | q' + 1 => F q') + F q := by
  cases q with
  | zero =>
    have := sum_eq_single (s := range m) (f := F) 0 (fun r hr h0 => h r (mem_range.mp hr) h0 (by omega))
      (fun h => absurd (mem_range.mpr hq) h)
    rw [this, zero_add]
  | succ q' =>
    rw [sum_eq_add_of_mem q' (q' + 1) (mem_range.mpr (by omega)) (mem_range.mpr hq) (by omega)]
    intro r hr h0
    exact h r (mem_range.mp hr) h0.2 (by omega)

/-- The product of a row with the transposed unit lower triangular matrix. -/
theorem sum_mul_unitLower {n : Nat} {u d : Nat → K} {l : Nat → Nat → K} (hl : ∀ i j, i ≤ j → l i j = 0) {j : Nat}
    (hj : j < n) :
    ∑ k ∈ range n, u k * d k * unitLower l j k = ∑ k ∈ range n, u k * d k * l j k + u j * d j := by
  have : ∀ k ∈ range n, u k * d k * unitLower l j k = u k * d k * l j k + if k = j then u j * d j else 0 := by
    intro k _
    rw [unitLower_eq hl]
    by_cases h : k = j
    · subst h
      simp
      ring
    · have h' : ¬ j = k := Ne.symm h
      simp [h, h']
  rw [sum_congr rfl this, sum_add_distrib, sum_ite_eq', if_pos (mem_range.mpr hj)]

theorem chainL_self {X : ChainPat} {V : ChainVals K} {M p : Nat} (hp : p ≤ M) (i j : Nat) :
    chainL X V M p p i j = unitLower (V.l X p) i j := by
  simp [chainL, hp]

theorem chainL_outer {X : ChainPat} {V : ChainVals K} {M q : Nat} (hq : q ≤ M) (i j : Nat) :
    chainL X V M (M + 1) q i j = V.o X q i j := by
  unfold chainL
  rw [if_neg (by omega), if_pos rfl]

theorem chainL_outer_self {X : ChainPat} {V : ChainVals K} {M : Nat} (i j : Nat) :
    chainL X V M (M + 1) (M + 1) i j = unitLower (V.e X) i j := by
  simp [chainL]

theorem chainL_next {X : ChainPat} {V : ChainVals K} {M q : Nat} (hq : q < M) (i j : Nat) :
    chainL X V M (q + 1) q i j = V.s X q i j := by
  unfold chainL
  rw [if_neg (by omega), if_neg (by omega), if_pos rfl]

theorem chainL_zero {X : ChainPat} {V : ChainVals K} {M p q : Nat} (h1 : p ≠ q) (h2 : p ≤ M) (h3 : p ≠ q + 1)
    (i j : Nat) : chainL X V M p q i j = 0 := by
  unfold chainL
  rw [if_neg h1, if_neg (by omega), if_neg h3]

theorem chainN_le {X : ChainPat} {M p : Nat} (h : p ≤ M) : chainN X M p = X.n p := by simp [chainN, h]

theorem chainN_outer {X : ChainPat} {M : Nat} : chainN X M (M + 1) = X.nO := by simp [chainN]

theorem chainD_le {V : ChainVals K} {M p : Nat} (h : p ≤ M) : chainD V M p = V.d p := by simp [chainD, h]

theorem chainD_outer {V : ChainVals K} {M : Nat} : chainD V M (M + 1) = V.g := by simp [chainD]

/-- Contributions of earlier blocks in the sums below. -/
theorem chainLdlt_prev {X : ChainPat} {V : ChainVals K} {M p q : Nat} (hq : q ≤ M) (hp : p = q ∨ p = M + 1)
    (i j : Nat) :
    chainLdlt X V M p q i j =
      prevSum X.n (fun r => if p = q then V.s X r i else V.o X r i) V.d (fun r => V.s X r j) q +
      ∑ k ∈ range (X.n q), chainL X V M p q i k * V.d q k * unitLower (V.l X q) j k := by
  unfold chainLdlt
  rw [sum_prev (q := q) (by omega)]
  · congr 1
    · cases q with
      | zero => rfl
      | succ r =>
        simp only [prevSum]
        rw [chainN_le (by omega), chainD_le (by omega)]
        refine sum_congr rfl fun k _ => ?_
        rw [chainL_next (q := r) (by omega)]
        rcases hp with rfl | rfl
        · rw [if_pos rfl, chainL_next (by omega)]
        · rw [if_neg (by omega), chainL_outer (by omega)]
    · rw [chainN_le hq, chainD_le hq]
      exact sum_congr rfl fun k _ => by rw [chainL_self hq]
  · intro r hr h1 h2
    apply sum_eq_zero
    intro k _
    rw [chainL_zero (p := q) (q := r) (by omega) hq (by omega), mul_zero]

theorem chainLdlt_exact {X : ChainPat} {M : Nat} (hX : X.Ok M) {V : ChainVals K} {I : ChainInput K}
    {reg : K → Nat → K} {R : Nat → Nat → Prop} (h : ChainExact X M V I reg R) :
    ∃ δ : Nat → Nat → K, (∀ p ≤ M + 1, ∀ i < chainN X M p, R p i → chainD V M p i = reg (δ p i) i) ∧
      ∀ p ≤ M + 1, ∀ q ≤ M + 1, ∀ i < chainN X M p, ∀ j < chainN X M q, R p i → R q j →
        chainLdlt X V M p q i j = chainA I M p q i j + if p = q ∧ i = j then chainD V M p i - δ p i else 0 := by
  have lD : ∀ p ≤ M, ∀ i j, i ≤ j → V.l X p i j = 0 := fun p hp i j hij => val_off fun hh => by
    have := hX.lowD p hp i j hh
    omega
  have lE : ∀ i j, i ≤ j → V.e X i j = 0 := fun i j hij => val_off fun hh => by
    have := hX.lowE i j hh
    omega
  have hδ : ∀ p i, ∃ δ, p ≤ M + 1 → i < chainN X M p → R p i → chainD V M p i = reg δ i ∧
      chainLdlt X V M p p i i = chainA I M p p i i + (chainD V M p i - δ) := by
    intro p i
    by_cases hc : p ≤ M + 1 ∧ i < chainN X M p ∧ R p i
    · obtain ⟨hp, hi, hR⟩ := hc
      by_cases hpM : p ≤ M
      · rw [chainN_le hpM] at hi
        obtain ⟨δ, h1, h2⟩ := h.e1D p hpM i hi hR
        refine ⟨δ, fun _ _ _ => ⟨by rw [chainD_le hpM]; exact h1, ?_⟩⟩
        rw [chainLdlt_prev hpM (Or.inl rfl), chainD_le hpM]
        have e1 : chainA I M p p i i = I.aD p i := by simp [chainA, chainLow, symOf, hpM]
        rw [e1, ← h2]
        have e2 : ∑ k ∈ range (X.n p), chainL X V M p p i k * V.d p k * unitLower (V.l X p) i k =
            ldlt (X.n p) (V.l X p) (V.d p) i i := by
          unfold ldlt
          exact sum_congr rfl fun k _ => by rw [chainL_self hpM]
        rw [e2, ldlt_self (lD p hpM) hi]
        simp only [if_true]
        ring
      · obtain rfl : p = M + 1 := by omega
        rw [chainN_outer] at hi
        obtain ⟨δ, h1, h2⟩ := h.e4D i hi hR
        refine ⟨δ, fun _ _ _ => ⟨by rw [chainD_outer]; exact h1, ?_⟩⟩
        have e1 : chainA I M (M + 1) (M + 1) i i = I.hD i := by simp [chainA, chainLow, symOf]
        rw [chainD_outer, e1, ← h2]
        unfold chainLdlt
        rw [sum_range_succ, chainN_outer, chainD_outer]
        have e2 : ∑ k ∈ range X.nO, chainL X V M (M + 1) (M + 1) i k * V.g k * chainL X V M (M + 1) (M + 1) i k =
            ldlt X.nO (V.e X) V.g i i := by
          unfold ldlt
          exact sum_congr rfl fun k _ => by rw [chainL_outer_self]
        have e3 : ∑ r ∈ range (M + 1), ∑ k ∈ range (chainN X M r),
            chainL X V M (M + 1) r i k * chainD V M r k * chainL X V M (M + 1) r i k =
            ∑ p ∈ range (M + 1), ∑ k ∈ range (X.n p), V.o X p i k * V.d p k * V.o X p i k := by
          refine sum_congr rfl fun r hr => ?_
          have hr' : r ≤ M := by have := mem_range.mp hr; omega
          rw [chainN_le hr', chainD_le hr']
          exact sum_congr rfl fun k _ => by rw [chainL_outer hr']
        rw [e2, e3, ldlt_self lE hi]
        ring
    · exact ⟨0, fun h1 h2 h3 => absurd ⟨h1, h2, h3⟩ hc⟩
  choose δ hδ using hδ
  refine ⟨δ, fun p hp i hi hR => (hδ p i hp hi hR).1, ?_⟩
  -- the lower triangle
  have low : ∀ p ≤ M + 1, ∀ q ≤ p, ∀ i < chainN X M p, ∀ j < chainN X M q, R p i → (p = q → j < i) →
      chainLdlt X V M p q i j = chainA I M p q i j := by
    intro p hp q hq i hi j hj hR hij
    have eA : chainA I M p q i j = chainLow I M p q i j := by simp [chainA, hq]
    rw [eA]
    unfold chainLow
    by_cases hpq : p = q
    · subst hpq
      have hji := hij rfl
      rw [if_pos rfl]
      have es : ∀ (a : Nat → Nat → K) aD, symOf a aD i j = a i j := by
        intro a aD
        unfold symOf
        rw [if_neg (by omega), if_pos hji]
      rw [es, es]
      by_cases hpM : p ≤ M
      · rw [chainN_le hpM] at hi
        rw [if_pos hpM, ← h.e1 p hpM i hi hR j hji, chainLdlt_prev hpM (Or.inl rfl)]
        have e2 : ∑ k ∈ range (X.n p), chainL X V M p p i k * V.d p k * unitLower (V.l X p) j k =
            ldlt (X.n p) (V.l X p) (V.d p) i j := by
          unfold ldlt
          exact sum_congr rfl fun k _ => by rw [chainL_self hpM]
        rw [e2, ldlt_lt (lD p hpM) hi hji]
        simp only [if_true]
        ring
      · obtain rfl : p = M + 1 := by omega
        rw [chainN_outer] at hi
        rw [if_neg hpM, ← h.e4 i hi hR j hji]
        unfold chainLdlt
        rw [sum_range_succ, chainN_outer, chainD_outer]
        have e2 : ∑ k ∈ range X.nO, chainL X V M (M + 1) (M + 1) i k * V.g k * chainL X V M (M + 1) (M + 1) j k =
            ldlt X.nO (V.e X) V.g i j := by
          unfold ldlt
          exact sum_congr rfl fun k _ => by rw [chainL_outer_self, chainL_outer_self]
        have e3 : ∑ r ∈ range (M + 1), ∑ k ∈ range (chainN X M r),
            chainL X V M (M + 1) r i k * chainD V M r k * chainL X V M (M + 1) r j k =
            ∑ p ∈ range (M + 1), ∑ k ∈ range (X.n p), V.o X p i k * V.d p k * V.o X p j k := by
          refine sum_congr rfl fun r hr => ?_
          have hr' : r ≤ M := by have := mem_range.mp hr; omega
          rw [chainN_le hr', chainD_le hr']
          exact sum_congr rfl fun k _ => by rw [chainL_outer hr', chainL_outer hr']
        rw [e2, e3, ldlt_lt lE hi hji]
        ring
    · rw [if_neg hpq]
      have hqM : q ≤ M := by omega
      rw [chainN_le hqM] at hj
      by_cases hpM : p = M + 1
      · rw [if_pos hpM]
        subst hpM
        rw [chainN_outer] at hi
        rw [← h.e3 q hqM i hi hR j hj, chainLdlt_prev hqM (Or.inr rfl)]
        have e2 : ∑ k ∈ range (X.n q), chainL X V M (M + 1) q i k * V.d q k * unitLower (V.l X q) j k =
            ∑ k ∈ range (X.n q), V.o X q i k * V.d q k * unitLower (V.l X q) j k :=
          sum_congr rfl fun k _ => by rw [chainL_outer hqM]
        rw [e2, sum_mul_unitLower (lD q hqM) hj]
        simp only [if_neg hpq]
        ring
      · rw [if_neg hpM]
        by_cases hn : p = q + 1
        · rw [if_pos hn]
          subst hn
          rw [chainN_le (by omega)] at hi
          rw [← h.e2 q (by omega) i hi hR j hj, ← sum_mul_unitLower (lD q hqM) hj]
          unfold chainLdlt
          rw [sum_eq_single q]
          · rw [chainN_le hqM, chainD_le hqM]
            exact sum_congr rfl fun k _ => by rw [chainL_self hqM, chainL_next (by omega)]
          · intro r _ hr
            apply sum_eq_zero
            intro k _
            by_cases hr2 : q = r + 1
            · rw [chainL_zero (p := q + 1) (q := r) (by omega) (by omega) (by omega), zero_mul, zero_mul]
            · rw [chainL_zero (p := q) (q := r) (by omega) (by omega) (by omega), mul_zero]
          · intro hh
            exact absurd (mem_range.mpr (by omega)) hh
        · rw [if_neg hn]
          unfold chainLdlt
          apply sum_eq_zero
          intro r _
          apply sum_eq_zero
          intro k _
          by_cases hr : q = r ∨ q = r + 1
          · rw [chainL_zero (p := p) (q := r) (by omega) (by omega) (by omega), zero_mul, zero_mul]
          · rw [chainL_zero (p := q) (q := r) (by omega) (by omega) (by omega), mul_zero]
  intro p hp q hq i hi j hj hR hR'
  by_cases hd : p = q ∧ i = j
  · rw [if_pos hd]
    obtain ⟨rfl, rfl⟩ := hd
    exact (hδ p i hp hi hR).2
  · rw [if_neg hd, add_zero]
    rcases Nat.lt_trichotomy q p with hlt | rfl | hlt
    · exact low p hp q (by omega) i hi j hj hR (fun h => by omega)
    · rcases Nat.lt_trichotomy j i with hji | rfl | hji
      · exact low q hp q (Nat.le_refl _) i hi j hj hR (fun _ => hji)
      · exact absurd ⟨rfl, rfl⟩ hd
      · rw [chainLdlt_symm, low q hp q (Nat.le_refl _) j hj i hi hR' (fun _ => hji)]
        have : ∀ (a : Nat → Nat → K) aD, symOf a aD j i = symOf a aD i j := by
          intro a aD
          unfold symOf
          rw [if_neg (by omega), if_pos hji, if_neg (by omega), if_neg (by omega)]
        simp [chainA, chainLow, this]
    · rw [chainLdlt_symm, low q hq p (by omega) j hj i hi hR' (fun h => by omega)]
      unfold chainA
      rw [if_pos (by omega), if_neg (by omega)]

end Ctldl
