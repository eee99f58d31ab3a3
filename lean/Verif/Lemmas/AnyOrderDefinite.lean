import Verif.Lemmas.AnyOrderRows
import Verif.Lemmas.DefiniteRounding
import Verif.Lemmas.ForwardQuasiArrowhead

/-! # Pivots of definite and quasidefinite matrices from bounds of the backward error -/

namespace Ctldl

open Finset

variable {F : Type} [Field F] [LinearOrder F] [IsStrictOrderedRing F]

variable {P : Nat → Nat → Prop} {n : Nat} {A L : Nat → Nat → F} {D x : Nat → F} {γ e : F}

/-- The computed factors are close to the matrix, where `x` are the pivots before regularization. -/
def NearFactors (n : Nat) (A L : Nat → Nat → F) (D x : Nat → F) (γ e : F) : Prop :=
  ∀ i < n, ∀ j < n, |A i j - (ldlt n L D i j + if i = j then x i - D i else 0)| ≤
    γ * (ldlt n (fun a b => |L a b|) (fun a => |D a|) i j + if i = j then |x i| - |D i| else 0) + e

theorem abs_unitLower (l : Nat → Nat → F) (a b : Nat) : |unitLower l a b| = unitLower (fun a b => |l a b|) a b := by
  unfold unitLower
  split
  · exact abs_one
  · rfl

theorem unitLower_of_pattern (hP : ∀ i j, P i j → j < i) (hL0 : ∀ i j, ¬ P i j → L i j = 0) :
    UnitLower (range n) (fun i => i) (unitLower L) := by
  refine ⟨fun x _ y _ h => h, fun x _ => unitLower_self x, fun x _ y _ h => ?_⟩
  rw [unitLower_ne (by omega)]
  exact hL0 x y fun hh => by
    have := hP x y hh
    omega

theorem card_col_pattern (hL0 : ∀ i j, ¬ P i j → L i j = 0) (j : Nat) :
    ({i ∈ range n | unitLower L i j ≠ 0} : Finset Nat).card ≤ (columnEntriesOf P n j).length + 1 := by
  classical
  have h1 : ({i ∈ range n | unitLower L i j ≠ 0} : Finset Nat) ⊆ insert j (columnEntriesOf P n j).toFinset := by
    intro i hi
    obtain ⟨h1, h2⟩ := mem_filter.mp hi
    by_cases hij : i = j
    · exact mem_insert.mpr (Or.inl hij)
    · rw [unitLower_ne hij] at h2
      refine mem_insert.mpr (Or.inr (List.mem_toFinset.mpr ?_))
      have h3 : P i j := by
        by_contra hn
        exact h2 (hL0 i j hn)
      simp [columnEntriesOf, h3, mem_range.mp h1]
  exact (card_le_card h1).trans ((card_insert_le _ _).trans (Nat.add_le_add_right (List.toFinset_card_le _) 1))

theorem card_row_pattern (hP : ∀ i j, P i j → j < i) (hL0 : ∀ i j, ¬ P i j → L i j = 0) (i : Nat) :
    ({j ∈ range n | unitLower L i j ≠ 0} : Finset Nat).card ≤ (rowEntriesOf P i).length + 1 := by
  classical
  have h1 : ({j ∈ range n | unitLower L i j ≠ 0} : Finset Nat) ⊆ insert i (rowEntriesOf P i).toFinset := by
    intro j hj
    obtain ⟨h1, h2⟩ := mem_filter.mp hj
    by_cases hij : j = i
    · exact mem_insert.mpr (Or.inl hij)
    · rw [unitLower_ne (Ne.symm hij)] at h2
      refine mem_insert.mpr (Or.inr (List.mem_toFinset.mpr ?_))
      have h3 : P i j := by
        by_contra hn
        exact h2 (hL0 i j hn)
      simp [rowEntriesOf, h3, hP i j h3]
  exact (card_le_card h1).trans ((card_insert_le _ _).trans (Nat.add_le_add_right (List.toFinset_card_le _) 1))

/-- The factors without regularization. -/
theorem NearFactors.exact (h : NearFactors n A L D x γ e) (hx : ∀ i < n, D i = x i) {i j : Nat} (hi : i < n) (hj : j < n) :
    |A i j - ldlt n L D i j| ≤ γ * ldlt n (fun a b => |L a b|) (fun a => |D a|) i j + e := by
  have := h i hi j hj
  rwa [hx i hi, sub_self, sub_self, ite_self, add_zero, add_zero] at this

/-- Definite matrices. -/
theorem NearFactors.definite (h : NearFactors n A L D x γ e) (hP : ∀ i j, P i j → j < i)
    (hL0 : ∀ i j, ¬ P i j → L i j = 0) (hγ0 : 0 ≤ γ) (he : 0 ≤ e) {c : Nat}
    (hc : ∀ j < n, (columnEntriesOf P n j).length < c) (hγ : (2 * c + 1) * γ ≤ 1) (hγ1 : γ < 1) {μ : F} (hμ : 0 ≤ μ)
    (hreg : ∀ i < n, μ < x i → D i = x i)
    (hpd : PosDef (range n) μ fun i j => A i j - if i = j then definiteMargin c n γ e (A i i) else 0) :
    (∀ i < n, μ < D i ∧ D i = x i) ∧ ∀ i < n, ∀ j < n,
      ldlt n (fun a b => |L a b|) (fun a => |D a|) i j ≤ ((A i i + A j j) / 2 + e) / (1 - γ) ∧
      |A i j - ldlt n L D i j| ≤ γ / (1 - γ) * ((A i i + A j j) / 2 + e) + e := by
  have key := approx_pivots_pos (s := range n) (rk := fun i => i) (u := unitLower L) (d := D) (p := x) (A := A) (c := c)
    (unitLower_of_pattern hP hL0) hγ0 he hμ (fun i hi j hj => by
      simp only [abs_unitLower]
      exact h i (mem_range.mp hi) j (mem_range.mp hj)) (fun i hi => hreg i (mem_range.mp hi))
    (fun r hr => (card_col_pattern hL0 r).trans (hc r (mem_range.mp hr))) hγ hγ1 (by rwa [card_range])
  have hD : ∀ i < n, μ < D i ∧ D i = x i := fun i hi => by
    obtain ⟨h1, h2⟩ := key i (mem_range.mpr hi)
    exact ⟨h2 ▸ h1, h2⟩
  refine ⟨hD, fun i hi j hj => ?_⟩
  have h1 := approx_stable (s := range n) (u := unitLower L) (d := D) (A := A) hγ0 hγ1
    (fun i hi => (hμ.trans_lt (hD i (mem_range.mp hi)).1).le) (fun i hi j hj => by
      simp only [abs_unitLower]
      exact h.exact (fun i hi => (hD i hi).2) (mem_range.mp hi) (mem_range.mp hj)) (mem_range.mpr hi) (mem_range.mpr hj)
  simp only [abs_unitLower] at h1
  exact h1

/-- Quasidefinite matrices. -/
theorem NearFactors.quasidefinite (h : NearFactors n A L D x γ e) (hP : ∀ i j, P i j → j < i)
    (hL0 : ∀ i j, ¬ P i j → L i j = 0) (hA : ∀ i j, A i j = A j i) (hγ0 : 0 ≤ γ) (he : 0 ≤ e) {c r : Nat}
    (hc : ∀ j < n, (columnEntriesOf P n j).length < c) (hr : ∀ i < n, (rowEntriesOf P i).length ≤ r)
    (hγ : 2 * γ ≤ 1) {μ : F} (hμ : 0 < μ) {S : Nat → Prop}
    (hreg : ∀ i < n, μ < |x i| → D i = x i) {ρ β : F} (hq : QuasiDef (range n) S (2 * μ) A)
    (hρ : ∀ i < n, ∑ j ∈ range n, |A i j| ≤ ρ) (hβ : 6 * ρ ^ 2 ≤ β * μ)
    (hsmall : γ * quasiGrowth r c μ β + n * e ≤ μ) :
    (∀ i < n, (S i → μ < D i) ∧ (¬ S i → D i < -μ) ∧ |D i| ≤ β ∧ D i = x i) ∧
    (∀ i < n, ∀ j < n, |L i j| ≤ β / μ) ∧
    (∀ i < n, ∑ j ∈ range n, ldlt n (fun a b => |L a b|) (fun a => |D a|) i j ≤ quasiGrowth r c μ β ∧
      ∑ j ∈ range n, unitLower (fun a b => |L a b|) i j * |D j| ≤ (r + 1) * β) ∧
    ∀ i < n, ∑ j ∈ range n, |A i j - ldlt n L D i j| ≤ γ * quasiGrowth r c μ β + n * e := by
  have hu := unitLower_of_pattern (n := n) hP hL0
  have hn : ∀ i ∈ range n, ({j ∈ range n | unitLower L i j ≠ 0} : Finset Nat).card ≤ r + 1 := fun i hi =>
    (card_row_pattern hP hL0 i).trans (Nat.add_le_add_right (hr i (mem_range.mp hi)) 1)
  have hcc : ∀ j ∈ range n, ({i ∈ range n | unitLower L i j ≠ 0} : Finset Nat).card ≤ c := fun j hj =>
    (card_col_pattern hL0 j).trans (hc j (mem_range.mp hj))
  have key := approx_pivots_quasi (s := range n) (rk := fun i => i) (u := unitLower L) (d := D) (p := x) (A := A)
    (n := r + 1) (c := c) (σ := rowSign S) hu hγ0 (by linarith) he hμ (fun i hi j hj => by
      simp only [abs_unitLower]
      exact h i (mem_range.mp hi) j (mem_range.mp hj)) (rowSign_abs S)
    (fun i hi hlt => hreg i (mem_range.mp hi) (by
      have h1 := hlt.trans_le (le_abs_self _)
      rwa [abs_mul, rowSign_abs, one_mul] at h1))
    (hq.signed fun i _ j _ => hA i j) (fun i hi => hρ i (mem_range.mp hi)) hn hcc hβ (by
      rw [card_range]
      push_cast
      exact hsmall)
  have hβ0 : 0 ≤ β := by
    have : 0 ≤ β * μ := le_trans (by positivity) hβ
    exact nonneg_of_mul_nonneg_left this hμ
  have hD : ∀ i < n, (S i → μ < D i) ∧ (¬ S i → D i < -μ) ∧ |D i| ≤ β ∧ D i = x i := fun i hi => by
    obtain ⟨h1, h2, h3⟩ := key i (mem_range.mpr hi)
    have h4 := h3 i (mem_range.mpr hi)
    rw [hu.one i (mem_range.mpr hi), one_mul] at h4
    obtain ⟨h5, h6⟩ := rowSign_lt (h2 ▸ h1)
    exact ⟨h5, h6, h4, h2⟩
  have habs : ∀ i < n, μ < |D i| := fun i hi => by
    by_cases hS : S i
    · exact ((hD i hi).1 hS).trans_le (le_abs_self _)
    · have := (hD i hi).2.1 hS
      exact lt_of_lt_of_le (by linarith) (neg_le_abs _)
  have hU : ∀ i ∈ range n, ∀ j ∈ range n, |unitLower L i j| ≤ β / μ := fun i hi j hj => by
    rw [le_div_iff₀ hμ]
    have h1 := (key i hi).2.2 j hj
    rw [abs_mul] at h1
    exact (mul_le_mul_of_nonneg_left (habs j (mem_range.mp hj)).le (abs_nonneg _)).trans h1
  have hsum : ∀ i < n, ∑ j ∈ range n, ldlt n (fun a b => |L a b|) (fun a => |D a|) i j ≤ quasiGrowth r c μ β ∧
      ∑ j ∈ range n, unitLower (fun a b => |L a b|) i j * |D j| ≤ (r + 1) * β := by
    intro i hi
    have hcard : ({t ∈ range n | unitLower L i t * D t ≠ 0} : Finset Nat).card ≤ r + 1 :=
      (card_le_card fun t ht => mem_filter.mpr
        ⟨(mem_filter.mp ht).1, left_ne_zero_of_mul (mem_filter.mp ht).2⟩).trans (hn i (mem_range.mpr hi))
    have h2 := sum_le_card (s := range n) (x := fun k => unitLower L i k * D k) (n := r + 1) hβ0
      (fun t ht => (key i (mem_range.mpr hi)).2.2 t ht) hcard
    have h1 := row_sum_le (s := range n) (u := unitLower L) (w := fun k => unitLower L i k * D k) (n := r + 1) (c := c) hβ0
      (div_nonneg hβ0 hμ.le) (fun t ht => (key i (mem_range.mpr hi)).2.2 t ht) hU
      hcard hcc
    push_cast at h1 h2
    simp only [abs_mul, abs_unitLower] at h1 h2
    exact ⟨h1, h2⟩
  refine ⟨hD, fun i hi j hj => ?_, hsum, fun i hi => ?_⟩
  · by_cases hij : i = j
    · rw [hL0 i j fun hp => absurd (hP i j hp) (by omega), abs_zero]
      exact div_nonneg hβ0 hμ.le
    · have := hU i (mem_range.mpr hi) j (mem_range.mpr hj)
      rwa [unitLower_ne hij] at this
  · refine (sum_le_sum fun j hj => h.exact (fun i hi => (hD i hi).2.2.2) hi (mem_range.mp hj)).trans ?_
    rw [sum_add_distrib, ← mul_sum, sum_const, card_range, nsmul_eq_mul]
    exact add_le_add (mul_le_mul_of_nonneg_left (hsum i hi).1 hγ0) le_rfl

/-- Residuals from bounds for factorization and substitution. -/
theorem near_residual {A M H : Nat → Nat → F} {b y : Nat → F} {γ γ' E : F} {e : F} {i : Nat}
    (h1 : ∀ j < n, |A i j - M i j| ≤ γ * H i j + e)
    (h2 : |b i - ∑ j ∈ range n, M i j * y j| ≤ γ' * ∑ j ∈ range n, H i j * |y j| + E) :
    |b i - ∑ j ∈ range n, A i j * y j| ≤ (γ + γ') * ∑ j ∈ range n, H i j * |y j| + (E + e * ∑ j ∈ range n, |y j|) := by
  have e1 : b i - ∑ j ∈ range n, A i j * y j =
      (b i - ∑ j ∈ range n, M i j * y j) - ∑ j ∈ range n, (A i j - M i j) * y j := by
    simp only [sub_mul, sum_sub_distrib]
    ring
  have h3 : |∑ j ∈ range n, (A i j - M i j) * y j| ≤ γ * ∑ j ∈ range n, H i j * |y j| + e * ∑ j ∈ range n, |y j| := by
    refine (abs_sum_le_sum_abs _ _).trans ?_
    rw [mul_sum, mul_sum, ← sum_add_distrib]
    refine sum_le_sum fun j hj => ?_
    rw [abs_mul]
    refine (mul_le_mul_of_nonneg_right (h1 j (mem_range.mp hj)) (abs_nonneg _)).trans_eq ?_
    ring
  rw [e1]
  refine (abs_sub _ _).trans ((add_le_add h2 h3).trans_eq ?_)
  ring

/-- Residuals of systems with quasidefinite matrices. -/
theorem quasi_residual {K : Type} [Zero K] [Add K] [Sub K] [Mul K] [Div K] (R : RoundingAdd K F) {m h₁ q₁ h₂ q₂ : Nat}
    {Quot : K → K → K → Prop} {A L : Nat → Nat → K} {D b y : Nat → K} (hP : ∀ i j, P i j → j < i)
    (hL0 : ∀ i j, ¬ P i j → L i j = 0) (hQ : ∀ j < n, R.Divides m Quot (D j)) (hst : ∀ i < n, ∀ j, P i j → R.stored (L i j))
    (hσ : R.σ ≤ R.η) (hγ0 : 0 ≤ γ) (he : 0 ≤ e) {c r : Nat} {μ β Y : F}
    (hE : ∀ i < n, ∀ j < n, |R.v (A i j) - ldlt n (fun a b => R.v (L a b)) (fun a => R.v (D a)) i j| ≤
      γ * ldlt n (fun a b => |R.v (L a b)|) (fun a => |R.v (D a)|) i j + e)
    (h3 : ∀ i < n, ∑ j ∈ range n, ldlt n (fun a b => |R.v (L a b)|) (fun a => |R.v (D a)|) i j ≤ quasiGrowth r c μ β ∧
      ∑ j ∈ range n, unitLower (fun a b => |R.v (L a b)|) i j * |R.v (D j)| ≤ (r + 1) * β)
    (hs : SolveWith Quot P n h₁ q₁ h₂ q₂ L D b y) (hy : ∀ i < n, R.fin (y i) ∧ |R.v (y i)| ≤ Y) : ∀ i < n,
    |R.v (b i) - ∑ j ∈ range n, R.v (A i j) * R.v (y j)| ≤
      (γ + R.gamma (h₁ + h₂ + m + 2)) * (quasiGrowth r c μ β * Y) +
      (R.growth (h₁ + h₂ + m + 2) * (q₁ * R.η + (r + 1) * β * ((q₂ + 1) * R.η)) + n * e * Y) := by
  intro i hi
  have h5 := hs.err R hQ hP hL0 hst (fun i hi => (hy i hi).1) hσ i hi
  have h6 := near_residual (n := n) (A := fun i j => R.v (A i j)) (b := fun i => R.v (b i)) (y := fun j => R.v (y j)) (i := i)
    (fun j hj => hE i hi j hj) h5
  have hY : 0 ≤ Y := (abs_nonneg _).trans (hy i hi).2
  have h7 : ∑ j ∈ range n, |R.v (y j)| ≤ n * Y := by
    refine (sum_le_sum fun j hj => (hy j (mem_range.mp hj)).2).trans_eq ?_
    rw [sum_const, card_range, nsmul_eq_mul]
  have h8 : ∑ j ∈ range n, ldlt n (fun a b => |R.v (L a b)|) (fun a => |R.v (D a)|) i j * |R.v (y j)| ≤
      quasiGrowth r c μ β * Y := by
    refine (sum_le_sum fun j hj => mul_le_mul_of_nonneg_left (hy j (mem_range.mp hj)).2 ?_).trans ?_
    · refine sum_nonneg fun k _ => mul_nonneg (mul_nonneg ?_ (abs_nonneg _)) ?_
      · rw [← abs_unitLower]
        exact abs_nonneg _
      · rw [← abs_unitLower]
        exact abs_nonneg _
    · rw [← sum_mul]
      exact mul_le_mul_of_nonneg_right (h3 i hi).1 hY
  have h9 : ∑ j ∈ range n, unitLower (fun a b => |R.v (L a b)|) i j * (|R.v (D j)| * ((q₂ + 1) * R.η)) ≤
      (r + 1) * β * ((q₂ + 1) * R.η) := by
    simp only [← mul_assoc]
    rw [← sum_mul, ← sum_mul]
    have hη := R.η_nonneg
    have hq2 : (0 : F) ≤ q₂ + 1 := by positivity
    exact mul_le_mul_of_nonneg_right (mul_le_mul_of_nonneg_right (h3 i hi).2 hq2) hη
  refine h6.trans (add_le_add (mul_le_mul_of_nonneg_left h8 (add_nonneg hγ0 (R.gamma_nonneg _))) (add_le_add
    (mul_le_mul_of_nonneg_left (add_le_add le_rfl h9) (R.growth_pos _).le) ?_))
  refine (mul_le_mul_of_nonneg_left h7 he).trans_eq ?_
  ring

end Ctldl
