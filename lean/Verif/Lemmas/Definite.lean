import Verif.Lemmas.Triangular
import Mathlib.Algebra.Order.Field.Basic
import Mathlib.Algebra.Order.BigOperators.Group.Finset
import Mathlib.Tactic.Linarith
import Mathlib.Tactic.Positivity

/-! # Pivots of `L D Lᵀ` and leading principal submatrices, definiteness and quasidefiniteness -/

namespace Ctldl

open Finset

section

variable {ι K : Type} [Field K]

/-- A system with a unit triangular matrix has a solution. -/
theorem triangular_surj {r : ι → ι → Prop} (wf : WellFounded r) (s : Finset ι) {l : ι → ι → K}
    (hl : ∀ x ∈ s, ∀ y ∈ s, l x y ≠ 0 → r y x) (b : ι → K) :
    ∃ w : ι → K, ∀ x ∈ s, w x + ∑ y ∈ s, l x y * w y = b x := by
  classical
  let F : (x : ι) → ((y : ι) → r y x → K) → K := fun x ih => b x - ∑ y ∈ s, if h : r y x then l x y * ih y h else 0
  refine ⟨wf.fix F, fun x hx => ?_⟩
  rw [wf.fix_eq]
  have : ∑ y ∈ s, (if h : r y x then l x y * wf.fix F y else 0) = ∑ y ∈ s, l x y * wf.fix F y := by
    refine sum_congr rfl fun y hy => ?_
    by_cases h : r y x
    · rw [dif_pos h]
    · rw [dif_neg h]
      by_cases hz : l x y = 0
      · rw [hz, zero_mul]
      · exact absurd (hl x hx y hy hz) h
  show b x - ∑ y ∈ s, (if h : r y x then l x y * wf.fix F y else 0) + _ = b x
  rw [this]
  ring

variable [DecidableEq ι] {s : Finset ι} {rk : ι → Nat} {u : ι → ι → K} {d : ι → K} {A : ι → ι → K}

/-- Unit lower triangular with respect to an order of the indices. -/
structure UnitLower (s : Finset ι) (rk : ι → Nat) (u : ι → ι → K) : Prop where
  inj : ∀ x ∈ s, ∀ y ∈ s, rk x = rk y → x = y
  one : ∀ x ∈ s, u x x = 1
  zero : ∀ x ∈ s, ∀ y ∈ s, rk x < rk y → u x y = 0

/-- Up to index `k`, `L D Lᵀ` is `A`. -/
def LdltUpTo (s : Finset ι) (rk : ι → Nat) (u : ι → ι → K) (d : ι → K) (A : ι → ι → K) (k : ι) : Prop :=
  ∀ i ∈ s, rk i ≤ rk k → ∀ j ∈ s, rk j ≤ rk k → ∑ r ∈ s, u i r * d r * u j r = A i j

theorem UnitLower.mono (hu : UnitLower s rk u) {t : Finset ι} (h : t ⊆ s) : UnitLower t rk u :=
  ⟨fun x hx y hy => hu.inj x (h hx) y (h hy), fun x hx => hu.one x (h hx), fun x hx y hy => hu.zero x (h hx) y (h hy)⟩

/-- A sum over a column, split into the diagonal and the part below it. -/
theorem UnitLower.col_sum (hu : UnitLower s rk u) (w : ι → K) {x : ι} (hx : x ∈ s) :
    ∑ y ∈ s, u y x * w y = w x + ∑ y ∈ s, (if rk x < rk y then u y x else 0) * w y := by
  rw [← add_sum_erase s _ hx, hu.one x hx, one_mul, ← add_sum_erase s (fun y => (if rk x < rk y then u y x else 0) * w y) hx]
  rw [if_neg (lt_irrefl _), zero_mul, zero_add]
  congr 1
  refine sum_congr rfl fun y hy => ?_
  obtain ⟨hne, hy⟩ := mem_erase.mp hy
  by_cases h : rk x < rk y
  · rw [if_pos h]
  · rw [if_neg h, hu.zero y hy x hx]
    have := mt (hu.inj y hy x hx) hne
    omega

theorem UnitLower.row_sum (hu : UnitLower s rk u) (w : ι → K) {x : ι} (hx : x ∈ s) :
    ∑ y ∈ s, u x y * w y = w x + ∑ y ∈ s, (if rk y < rk x then u x y else 0) * w y := by
  rw [← add_sum_erase s _ hx, hu.one x hx, one_mul, ← add_sum_erase s (fun y => (if rk y < rk x then u x y else 0) * w y) hx]
  rw [if_neg (lt_irrefl _), zero_mul, zero_add]
  congr 1
  refine sum_congr rfl fun y hy => ?_
  obtain ⟨hne, hy⟩ := mem_erase.mp hy
  by_cases h : rk y < rk x
  · rw [if_pos h]
  · rw [if_neg h, hu.zero x hx y hy]
    have := mt (hu.inj y hy x hx) hne
    omega

theorem wf_down (rk : ι → Nat) (B : Nat) : WellFounded fun y x => B - rk y < B - rk x :=
  (measure fun y => B - rk y).wf

theorem UnitLower.col_inj (hu : UnitLower s rk u) {w : ι → K} (h : ∀ x ∈ s, ∑ y ∈ s, u y x * w y = 0) :
    ∀ x ∈ s, w x = 0 := by
  refine triangular_inj (wf_down rk (s.sup rk)) s (l := fun x y => if rk x < rk y then u y x else 0) ?_ ?_
  · intro x _ y hy hne
    have : rk x < rk y := by
      by_contra hc
      exact hne (if_neg hc)
    have := le_sup (f := rk) hy
    omega
  · intro x hx
    rw [← hu.col_sum w hx]
    exact h x hx

theorem UnitLower.row_inj (hu : UnitLower s rk u) {w : ι → K} (h : ∀ x ∈ s, ∑ y ∈ s, u x y * w y = 0) :
    ∀ x ∈ s, w x = 0 := by
  refine triangular_inj (measure rk).wf s (l := fun x y => if rk y < rk x then u x y else 0) ?_ ?_
  · intro x _ y _ hne
    by_contra hc
    exact hne (if_neg hc)
  · intro x hx
    rw [← hu.row_sum w hx]
    exact h x hx

/-- The part up to an index. -/
def upTo (s : Finset ι) (rk : ι → Nat) (k : ι) : Finset ι := s.filter fun i => rk i ≤ rk k

omit [DecidableEq ι] in
theorem mem_upTo {k i : ι} : i ∈ upTo s rk k ↔ i ∈ s ∧ rk i ≤ rk k := mem_filter

omit [DecidableEq ι] in
theorem sum_upTo {k : ι} {F : ι → K} (h : ∀ i ∈ s, rk k < rk i → F i = 0) : ∑ i ∈ upTo s rk k, F i = ∑ i ∈ s, F i := by
  refine sum_subset (filter_subset _ _) fun i hi hn => h i hi ?_
  by_contra hc
  exact hn (mem_upTo.mpr ⟨hi, by omega⟩)

theorem LdltUpTo.upTo {k : ι} (hu : UnitLower s rk u) (hA : LdltUpTo s rk u d A k) {i j : ι} (hi : i ∈ upTo s rk k)
    (hj : j ∈ upTo s rk k) : ∑ r ∈ upTo s rk k, u i r * d r * u j r = A i j := by
  obtain ⟨hi, hi'⟩ := mem_upTo.mp hi
  obtain ⟨hj, hj'⟩ := mem_upTo.mp hj
  rw [← hA i hi hi' j hj hj']
  refine sum_upTo fun r hr hlt => ?_
  rw [hu.zero i hi r hr (by omega), zero_mul, zero_mul]

/-- A vector which the leading principal submatrix maps to a multiple of the last unit vector, the factor being the
pivot. -/
theorem LdltUpTo.exists_conj (hu : UnitLower s rk u) {k : ι} (hk : k ∈ s) (hA : LdltUpTo s rk u d A k) :
    ∃ x : ι → K, x k = 1 ∧ (∀ j ∈ s, rk k < rk j → x j = 0) ∧
      ∀ i ∈ s, rk i ≤ rk k → ∑ j ∈ s, A i j * x j = if i = k then d k else 0 := by
  have hut := hu.mono (t := Ctldl.upTo s rk k) (filter_subset _ _)
  obtain ⟨w, hw⟩ := triangular_surj (wf_down rk (s.sup rk)) (Ctldl.upTo s rk k)
    (l := fun x y => if rk x < rk y then u y x else 0) (fun x _ y hy hne => by
      have : rk x < rk y := by
        by_contra hc
        exact hne (if_neg hc)
      have := le_sup (f := rk) (mem_upTo.mp hy).1
      omega) (fun i => if i = k then 1 else 0)
  have hkt : k ∈ Ctldl.upTo s rk k := mem_upTo.mpr ⟨hk, le_refl _⟩
  have hcol : ∀ r ∈ Ctldl.upTo s rk k, ∑ j ∈ Ctldl.upTo s rk k, u j r * w j = if r = k then 1 else 0 := by
    intro r hr
    rw [hut.col_sum w hr]
    exact hw r hr
  refine ⟨fun j => if rk j ≤ rk k then w j else 0, ?_, ?_, ?_⟩
  · have := hw k hkt
    rw [if_pos rfl, sum_eq_zero, add_zero] at this
    · simpa using this
    · intro y hy
      have := (mem_upTo.mp hy).2
      rw [if_neg (by omega), zero_mul]
  · intro j _ hlt
    exact if_neg (by omega)
  · intro i hi hik
    have hit : i ∈ Ctldl.upTo s rk k := mem_upTo.mpr ⟨hi, hik⟩
    rw [← sum_upTo (rk := rk) (k := k) (fun j _ hlt => by beta_reduce; rw [if_neg (by omega), mul_zero])]
    have : ∑ j ∈ Ctldl.upTo s rk k, A i j * (if rk j ≤ rk k then w j else 0) =
        ∑ j ∈ Ctldl.upTo s rk k, (∑ r ∈ Ctldl.upTo s rk k, u i r * d r * u j r) * w j := by
      refine sum_congr rfl fun j hj => ?_
      rw [hA.upTo hu hit hj, if_pos (mem_upTo.mp hj).2]
    rw [this, ldlt_mul]
    have : ∀ r ∈ Ctldl.upTo s rk k, u i r * (d r * ∑ j ∈ Ctldl.upTo s rk k, u j r * w j) =
        if r = k then u i k * d k else 0 := by
      intro r hr
      rw [hcol r hr]
      by_cases h : r = k
      · subst h
        simp
      · simp [h]
    rw [sum_congr rfl this, sum_ite_eq', if_pos hkt]
    by_cases h : i = k
    · subst h
      rw [if_pos rfl, hu.one i hi, one_mul]
    · rw [if_neg h, hu.zero i hi k hk, zero_mul]
      have := mt (hu.inj i hi k hk) h
      omega

/-- The leading principal submatrix up to `k` is regular. -/
def LeadingRegular (s : Finset ι) (rk : ι → Nat) (A : ι → ι → K) (k : ι) : Prop :=
  ∀ x : ι → K, (∀ i ∈ s, rk i ≤ rk k → ∑ j ∈ upTo s rk k, A i j * x j = 0) → ∀ i ∈ s, rk i ≤ rk k → x i = 0

theorem LdltUpTo.regular (hu : UnitLower s rk u) {k : ι} (hA : LdltUpTo s rk u d A k)
    (hd : ∀ i ∈ s, rk i ≤ rk k → d i ≠ 0) : LeadingRegular s rk A k := by
  intro x hx i hi hik
  have hut := hu.mono (t := Ctldl.upTo s rk k) (filter_subset _ _)
  refine hut.col_inj (w := x) (fun r hr => ?_) i (mem_upTo.mpr ⟨hi, hik⟩)
  have := hut.row_inj (w := fun r => d r * ∑ j ∈ Ctldl.upTo s rk k, u j r * x j) (fun i hi => ?_) r hr
  · obtain ⟨h1, h2⟩ := mem_upTo.mp hr
    exact (mul_eq_zero.mp this).resolve_left (hd r h1 h2)
  · rw [← ldlt_mul]
    obtain ⟨h1, h2⟩ := mem_upTo.mp hi
    rw [← hx i h1 h2]
    exact sum_congr rfl fun j hj => by rw [hA.upTo hu hi hj]

/-- No pivot is zero iff all leading principal submatrices are regular. -/
theorem pivots_ne_zero_iff (hu : UnitLower s rk u)
    (hX : ∀ k ∈ s, (∀ j ∈ s, rk j < rk k → d j ≠ 0) → LdltUpTo s rk u d A k) :
    (∀ k ∈ s, d k ≠ 0) ↔ ∀ k ∈ s, LeadingRegular s rk A k := by
  constructor
  · intro hd k hk
    exact (hX k hk fun j hj _ => hd j hj).regular hu fun i hi _ => hd i hi
  · intro hr
    have : ∀ n, ∀ k ∈ s, rk k = n → d k ≠ 0 := by
      intro n
      induction n using Nat.strong_induction_on with
      | _ n ih =>
        rintro k hk rfl h0
        obtain ⟨x, h1, h2, h3⟩ := (hX k hk fun j hj hlt => ih (rk j) hlt j hj rfl).exists_conj hu hk
        have := hr k hk x (fun i hi hik => by
          rw [sum_upTo (fun j hj hlt => by rw [h2 j hj hlt, mul_zero]), h3 i hi hik]
          split
          · exact h0
          · rfl) k hk (le_refl _)
        rw [h1] at this
        exact one_ne_zero this
    exact fun k hk => this _ k hk rfl

variable [LinearOrder K] [IsStrictOrderedRing K]

/-- Definiteness with prescribed signs of the rows determines the signs of the pivots, which are bounded away from zero
and hence not regularized. -/
theorem pivots_sign (hu : UnitLower s rk u) {reg : K → ι → K}
    (hX : ∀ k ∈ s, (∀ j ∈ s, rk j < rk k → d j ≠ 0) → ∃ δ : ι → K, (∀ i ∈ s, rk i ≤ rk k → d i = reg (δ i) i) ∧
      LdltUpTo s rk u d (fun i j => A i j + if i = j then d i - δ i else 0) k) {σ : ι → K} (h1σ : ∀ i, |σ i| = 1)
    {μ : K} (hμ : 0 ≤ μ) (hreg : ∀ x i, μ < |x| → reg x i = x)
    (hσ : ∀ x : ι → K, (∃ i ∈ s, x i ≠ 0) → μ * ∑ i ∈ s, x i ^ 2 < ∑ i ∈ s, ∑ j ∈ s, σ i * x i * A i j * x j) :
    ∀ k ∈ s, μ < σ k * d k ∧ LdltUpTo s rk u d A k := by
  have : ∀ n, ∀ k ∈ s, rk k = n → μ < σ k * d k ∧ LdltUpTo s rk u d A k := by
    intro n
    induction n using Nat.strong_induction_on with
    | _ n ih =>
      rintro k hk rfl
      obtain ⟨δ, hδ, hL⟩ := hX k hk fun j hj hlt h0 => by
        have := (ih (rk j) hlt j hj rfl).1
        rw [h0, mul_zero] at this
        exact absurd this (not_lt.mpr hμ)
      have hlow : ∀ j ∈ s, rk j < rk k → d j - δ j = 0 := by
        intro j hj hlt
        have e1 := (ih (rk j) hlt j hj rfl).2 j hj (le_refl _) j hj (le_refl _)
        have e2 := hL j hj hlt.le j hj hlt.le
        beta_reduce at e2
        rw [if_pos rfl, e1] at e2
        linear_combination -e2
      obtain ⟨x, h1, h2, h3⟩ := hL.exists_conj hu hk
      have hrow : ∀ i ∈ s, rk i ≤ rk k → ∑ j ∈ s, A i j * x j = if i = k then δ k else 0 := by
        intro i hi hik
        have := h3 i hi hik
        have e : ∀ j ∈ s, (A i j + if i = j then d i - δ i else 0) * x j =
            A i j * x j + if i = j then (d i - δ i) * x i else 0 := by
          intro j _
          by_cases h : i = j
          · subst h
            simp only [if_true]
            ring
          · simp only [if_neg h]
            ring
        rw [sum_congr rfl e, sum_add_distrib, sum_ite_eq, if_pos hi] at this
        by_cases h : i = k
        · subst h
          rw [if_pos rfl] at this ⊢
          rw [h1] at this
          linear_combination this
        · have hlt : rk i < rk k := lt_of_le_of_ne hik (mt (hu.inj i hi k hk) h)
          rw [if_neg h] at this ⊢
          rw [hlow i hi hlt] at this
          linear_combination this
      have hform := hσ x ⟨k, hk, by rw [h1]; exact one_ne_zero⟩
      have e : ∀ i ∈ s, ∑ j ∈ s, σ i * x i * A i j * x j = if i = k then σ k * δ k else 0 := by
        intro i hi
        by_cases hik : rk i ≤ rk k
        · have : ∑ j ∈ s, σ i * x i * A i j * x j = σ i * x i * ∑ j ∈ s, A i j * x j := by
            rw [mul_sum]
            exact sum_congr rfl fun j _ => by ring
          rw [this, hrow i hi hik]
          by_cases h : i = k
          · subst h
            rw [if_pos rfl, if_pos rfl, h1, mul_one]
          · rw [if_neg h, if_neg h, mul_zero]
        · rw [h2 i hi (by omega), if_neg (show ¬ i = k from fun h => hik (by rw [h]))]
          exact sum_eq_zero fun j _ => by ring
      rw [sum_congr rfl e, sum_ite_eq', if_pos hk] at hform
      have hsq : 1 ≤ ∑ i ∈ s, x i ^ 2 := by
        refine le_trans ?_ (single_le_sum (fun i _ => sq_nonneg (x i)) hk)
        rw [h1, one_pow]
      have hlt : μ < σ k * δ k := lt_of_le_of_lt (le_mul_of_one_le_right hμ hsq) hform
      have habs : μ < |δ k| := by
        refine lt_of_lt_of_le hlt ((le_abs_self _).trans ?_)
        rw [abs_mul, h1σ, one_mul]
      have hd : d k = δ k := by rw [hδ k hk (le_refl _), hreg _ _ habs]
      refine ⟨by rw [hd]; exact hlt, fun i hi hik j hj hjk => ?_⟩
      rw [hL i hi hik j hj hjk]
      beta_reduce
      by_cases h : i = j
      · subst h
        rw [if_pos rfl]
        rcases lt_or_eq_of_le hik with hlt | heq
        · rw [hlow i hi hlt, add_zero]
        · rw [hu.inj i hi k hk heq, hd, sub_self, add_zero]
      · rw [if_neg h, add_zero]
  exact fun k hk => this _ k hk rfl

omit [DecidableEq ι] in
/-- Quasidefiniteness is definiteness with signs. -/
theorem quasi_sign (S : ι → Prop) [DecidablePred S] (μ : K) (hsymm : ∀ i ∈ s, ∀ j ∈ s, A i j = A j i)
    (hpos : ∀ x : ι → K, (∃ i ∈ s, x i ≠ 0) → (∀ i ∈ s, ¬ S i → x i = 0) →
      μ * ∑ i ∈ s, x i ^ 2 < ∑ i ∈ s, ∑ j ∈ s, x i * A i j * x j)
    (hneg : ∀ x : ι → K, (∃ i ∈ s, x i ≠ 0) → (∀ i ∈ s, S i → x i = 0) →
      ∑ i ∈ s, ∑ j ∈ s, x i * A i j * x j < -(μ * ∑ i ∈ s, x i ^ 2))
    (x : ι → K) (hx : ∃ i ∈ s, x i ≠ 0) :
    μ * ∑ i ∈ s, x i ^ 2 < ∑ i ∈ s, ∑ j ∈ s, (if S i then 1 else -1) * x i * A i j * x j := by
  let y : ι → K := fun i => if S i then x i else 0
  let z : ι → K := fun i => if S i then 0 else x i
  have hxy : ∀ i, x i = y i + z i := by
    intro i
    by_cases h : S i <;> simp [y, z, h]
  have hσ : ∀ i, (if S i then (1 : K) else -1) * x i = y i - z i := by
    intro i
    by_cases h : S i <;> simp [y, z, h]
  have hq : ∑ i ∈ s, ∑ j ∈ s, (if S i then 1 else -1) * x i * A i j * x j =
      ∑ i ∈ s, ∑ j ∈ s, y i * A i j * y j - ∑ i ∈ s, ∑ j ∈ s, z i * A i j * z j := by
    have hcross : ∑ i ∈ s, ∑ j ∈ s, y i * A i j * z j = ∑ i ∈ s, ∑ j ∈ s, z i * A i j * y j := by
      rw [sum_comm]
      exact sum_congr rfl fun i hi => sum_congr rfl fun j hj => by rw [hsymm j hj i hi]; ring
    have : ∑ i ∈ s, ∑ j ∈ s, (if S i then 1 else -1) * x i * A i j * x j =
        ∑ i ∈ s, ∑ j ∈ s, y i * A i j * y j + ∑ i ∈ s, ∑ j ∈ s, y i * A i j * z j -
          ∑ i ∈ s, ∑ j ∈ s, z i * A i j * y j - ∑ i ∈ s, ∑ j ∈ s, z i * A i j * z j := by
      simp only [← sum_add_distrib, ← sum_sub_distrib]
      refine sum_congr rfl fun i _ => sum_congr rfl fun j _ => ?_
      rw [hσ i, hxy j]
      ring
    rw [this, hcross]
    ring
  have hs : ∑ i ∈ s, x i ^ 2 = ∑ i ∈ s, y i ^ 2 + ∑ i ∈ s, z i ^ 2 := by
    rw [← sum_add_distrib]
    refine sum_congr rfl fun i _ => ?_
    by_cases h : S i <;> simp [y, z, h]
  rw [hq, hs]
  have hy : μ * ∑ i ∈ s, y i ^ 2 ≤ ∑ i ∈ s, ∑ j ∈ s, y i * A i j * y j := by
    by_cases h : ∃ i ∈ s, y i ≠ 0
    · exact (hpos y h fun i _ hn => if_neg hn).le
    · push Not at h
      rw [sum_eq_zero (f := fun i => y i ^ 2) fun i hi => by rw [h i hi]; ring, mul_zero]
      exact (sum_eq_zero fun i hi => sum_eq_zero fun j hj => by rw [h i hi]; ring).ge
  have hz : ∑ i ∈ s, ∑ j ∈ s, z i * A i j * z j ≤ -(μ * ∑ i ∈ s, z i ^ 2) := by
    by_cases h : ∃ i ∈ s, z i ≠ 0
    · exact (hneg z h fun i _ hn => if_pos hn).le
    · push Not at h
      rw [sum_eq_zero (f := fun i => z i ^ 2) fun i hi => by rw [h i hi]; ring, mul_zero, neg_zero]
      exact (sum_eq_zero fun i hi => sum_eq_zero fun j hj => by rw [h i hi]; ring).le
  obtain ⟨i, hi, hne⟩ := hx
  by_cases hS : S i
  · have := hpos y ⟨i, hi, by simpa [y, hS] using hne⟩ fun i _ hn => if_neg hn
    linarith
  · have := hneg z ⟨i, hi, by simpa [z, hS] using hne⟩ fun i _ hn => if_pos hn
    linarith

/-- Positive pivots make `L D Lᵀ` positive definite. -/
theorem posDef_of_pivots (hu : UnitLower s rk u) (hA : ∀ i ∈ s, ∀ j ∈ s, ∑ r ∈ s, u i r * d r * u j r = A i j)
    (hd : ∀ k ∈ s, 0 < d k) (x : ι → K) (hx : ∃ i ∈ s, x i ≠ 0) : 0 < ∑ i ∈ s, ∑ j ∈ s, x i * A i j * x j := by
  have e : ∑ i ∈ s, ∑ j ∈ s, x i * A i j * x j = ∑ r ∈ s, d r * (∑ j ∈ s, u j r * x j) ^ 2 := by
    have : ∀ i ∈ s, ∑ j ∈ s, x i * A i j * x j = ∑ r ∈ s, x i * (u i r * (d r * ∑ j ∈ s, u j r * x j)) := by
      intro i hi
      rw [← mul_sum, ← ldlt_mul, mul_sum]
      exact sum_congr rfl fun j hj => by rw [hA i hi j hj]; ring
    rw [sum_congr rfl this, sum_comm]
    refine sum_congr rfl fun r _ => ?_
    have : ∀ i ∈ s, x i * (u i r * (d r * ∑ j ∈ s, u j r * x j)) = d r * (∑ j ∈ s, u j r * x j) * (u i r * x i) :=
      fun i _ => by ring
    rw [sum_congr rfl this, ← mul_sum]
    ring
  rw [e]
  refine sum_pos' (fun r hr => mul_nonneg (hd r hr).le (sq_nonneg _)) ?_
  by_contra hc
  push Not at hc
  obtain ⟨i, hi, hne⟩ := hx
  refine hne (hu.col_inj (w := x) (fun r hr => ?_) i hi)
  have := hc r hr
  have h0 := mul_nonneg (hd r hr).le (sq_nonneg (∑ j ∈ s, u j r * x j))
  have h1 := le_antisymm this h0
  rcases mul_eq_zero.mp h1 with h | h
  · exact absurd h (hd r hr).ne'
  · exact pow_eq_zero_iff (two_ne_zero) |>.mp h

end

end Ctldl
