import Verif.Lemmas.AnyOrderDefinite
import Verif.Props.Reciprocal

/-! # C93: definite and quasidefinite matrices with sums in any order and reciprocals -/

namespace Ctldl

open Finset

set_option linter.unusedSectionVars false

variable {K F : Type} [Zero K] [Add K] [Sub K] [Mul K] [Div K] [Field F] [LinearOrder F] [IsStrictOrderedRing F]

private theorem definite_any (R : RoundingAdd K F) {m : Nat} {Quot : K → K → K → Prop} (hm : 1 ≤ m) (P : Nat → Nat → Prop)
    (n h q : Nat) (A L : Nat → Nat → K) (D : Nat → K) (reg : K → Nat → K)
    (hr : FormulasWith Quot P n h q A L D reg)
    (hP : ∀ i j, P i j → j < i)
    (hfill : ∀ i j k, P i k → P j k → j < i → P i j) (hA : ∀ i j, A i j = A j i)
    (hA0 : ∀ i j, j < i → ¬ P i j → A i j = 0) (hL0 : ∀ i j, ¬ P i j → L i j = 0)
    (hfin : ∀ i < n, R.fin (D i) ∧ ∀ x, D i = reg x i → R.fin x)
    (hQ : ∀ j < n, R.Divides m Quot (D j))
    (ε : F) (h0 : R.σ ≤ ε) (hε : ∀ i j, P i j → R.η * ((1 + |R.v (D j)|) * (1 + |R.v (L i j)|)) ≤ ε) (hσ : R.σ ≤ R.η)
    (c : Nat) (hc : ∀ j < n, (columnEntriesOf P n j).length < c)
    (γ e : F) (hγe : γ = R.gamma (h + (m + 1)) ∧ e = R.growth (h + (m + 1)) * ((q + 1) * ε))
    (hγ : (2 * c + 1) * γ ≤ 1) (hγ1 : γ < 1) (μ : F) (hμ : 0 ≤ μ) (hreg : ∀ x i, R.fin x → μ < R.v x → reg x i = x)
    (hpd : PosDef (range n) μ fun i j => R.v (A i j) - if i = j then definiteMargin c n γ e (R.v (A i i)) else 0) :
    (∀ i < n, μ < R.v (D i)) ∧
    (∀ i < n, ∀ j < n, |R.v (A i j) - ldlt n (fun a b => R.v (L a b)) (fun a => R.v (D a)) i j| ≤
      γ / (1 - γ) * ((R.v (A i i) + R.v (A j j)) / 2 + e) + e) ∧
    ∀ (h₁ q₁ h₂ q₂ : Nat) (b y : Nat → K), SolveWith Quot P n h₁ q₁ h₂ q₂ L D b y → (∀ i < n, R.fin (y i)) → ∀ i < n,
      |R.v (b i) - ∑ j ∈ range n, R.v (A i j) * R.v (y j)| ≤
        (γ + R.gamma (h₁ + h₂ + m + 2)) *
          ∑ j ∈ range n, ((R.v (A i i) + R.v (A j j)) / 2 + e) / (1 - γ) * |R.v (y j)| +
        (R.growth (h₁ + h₂ + m + 2) * (q₁ * R.η + ∑ j ∈ range n,
          unitLower (fun a b => |R.v (L a b)|) i j * (|R.v (D j)| * ((q₂ + 1) * R.η))) + e * ∑ j ∈ range n, |R.v (y j)|) := by
  obtain ⟨rfl, rfl⟩ := hγe
  obtain ⟨x, hx, hE⟩ := hr.apx R hm hQ hP hfill hA hA0 hL0 hfin h0 hε
  have hL0' : ∀ i j, ¬ P i j → R.v (L i j) = 0 := fun i j hn => by rw [hL0 i j hn, R.v_zero]
  have hε0 : 0 ≤ ε := R.σ_nonneg.trans h0
  have hγ0 := R.gamma_nonneg (h + (m + 1))
  have he : 0 ≤ R.growth (h + (m + 1)) * ((q + 1) * ε) := mul_nonneg (R.growth_pos _).le (by positivity)
  have hN : NearFactors n (fun i j => R.v (A i j)) (fun i j => R.v (L i j)) (fun i => R.v (D i)) (fun i => R.v (x i))
      (R.gamma (h + (m + 1))) (R.growth (h + (m + 1)) * ((q + 1) * ε)) := fun i hi j hj => (hE i hi j hj).err
  obtain ⟨h1, h2⟩ := hN.definite hP hL0' hγ0 he hc hγ hγ1 hμ (fun i hi hlt => by
    have := hx i hi
    rw [hreg (x i) i ((hfin i hi).2 _ this) hlt] at this
    beta_reduce
    rw [this]) hpd
  refine ⟨fun i hi => (h1 i hi).1, fun i hi j hj => (h2 i hi j hj).2, fun h₁ q₁ h₂ q₂ b y hs hy i hi => ?_⟩
  have h3 := hs.err R hQ hP hL0 (fun i hi j hj => hr.stored hQ hP hi hj) hy hσ i hi
  have h4 := near_residual (n := n) (A := fun i j => R.v (A i j)) (b := fun i => R.v (b i)) (y := fun j => R.v (y j)) (i := i)
    (fun j hj => hN.exact (fun i hi => (h1 i hi).2) hi hj) h3
  refine h4.trans (add_le_add (mul_le_mul_of_nonneg_left (sum_le_sum fun j hj => ?_)
    (add_nonneg hγ0 (R.gamma_nonneg _))) le_rfl)
  exact mul_le_mul_of_nonneg_right (h2 i hi j (mem_range.mp hj)).1 (abs_nonneg _)

private theorem quasidefinite_any (R : RoundingAdd K F) {m : Nat} {Quot : K → K → K → Prop} (hm : 1 ≤ m) (P : Nat → Nat → Prop)
    (n h q : Nat) (A L : Nat → Nat → K) (D : Nat → K) (reg : K → Nat → K)
    (hr : FormulasWith Quot P n h q A L D reg)
    (hP : ∀ i j, P i j → j < i)
    (hfill : ∀ i j k, P i k → P j k → j < i → P i j) (hA : ∀ i j, A i j = A j i)
    (hA0 : ∀ i j, j < i → ¬ P i j → A i j = 0) (hL0 : ∀ i j, ¬ P i j → L i j = 0)
    (hfin : ∀ i < n, R.fin (D i) ∧ ∀ x, D i = reg x i → R.fin x)
    (hQ : ∀ j < n, R.Divides m Quot (D j))
    (ε : F) (h0 : R.σ ≤ ε) (hε : ∀ i j, P i j → R.η * ((1 + |R.v (D j)|) * (1 + |R.v (L i j)|)) ≤ ε) (hσ : R.σ ≤ R.η)
    (c : Nat) (hc : ∀ j < n, (columnEntriesOf P n j).length < c) (r : Nat) (hrow : ∀ i < n, (rowEntriesOf P i).length ≤ r)
    (γ e : F) (hγe : γ = R.gamma (h + (m + 1)) ∧ e = R.growth (h + (m + 1)) * ((q + 1) * ε))
    (hγ : 2 * γ ≤ 1) (μ ρ β : F) (hμ : 0 < μ) (hreg : ∀ x i, R.fin x → μ < |R.v x| → reg x i = x)
    (S : Nat → Prop) (hq : QuasiDef (range n) S (2 * μ) fun i j => R.v (A i j))
    (hρ : ∀ i < n, ∑ j ∈ range n, |R.v (A i j)| ≤ ρ) (hβ : 6 * ρ ^ 2 ≤ β * μ)
    (hsmall : γ * quasiGrowth r c μ β + n * e ≤ μ) :
    (∀ i < n, (S i → μ < R.v (D i)) ∧ (¬ S i → R.v (D i) < -μ) ∧ |R.v (D i)| ≤ β) ∧
    (∀ i < n, ∀ j < n, |R.v (L i j)| ≤ β / μ) ∧
    (∀ i < n, ∑ j ∈ range n, |R.v (A i j) - ldlt n (fun a b => R.v (L a b)) (fun a => R.v (D a)) i j| ≤
      γ * quasiGrowth r c μ β + n * e) ∧
    ∀ (h₁ q₁ h₂ q₂ : Nat) (b y : Nat → K) (Y : F), SolveWith Quot P n h₁ q₁ h₂ q₂ L D b y →
      (∀ i < n, R.fin (y i) ∧ |R.v (y i)| ≤ Y) → ∀ i < n,
      |R.v (b i) - ∑ j ∈ range n, R.v (A i j) * R.v (y j)| ≤
        (γ + R.gamma (h₁ + h₂ + m + 2)) * (quasiGrowth r c μ β * Y) +
        (R.growth (h₁ + h₂ + m + 2) * (q₁ * R.η + (r + 1) * β * ((q₂ + 1) * R.η)) + n * e * Y) := by
  obtain ⟨rfl, rfl⟩ := hγe
  obtain ⟨x, hx, hE⟩ := hr.apx R hm hQ hP hfill hA hA0 hL0 hfin h0 hε
  have hL0' : ∀ i j, ¬ P i j → R.v (L i j) = 0 := fun i j hn => by rw [hL0 i j hn, R.v_zero]
  have hε0 : 0 ≤ ε := R.σ_nonneg.trans h0
  have hγ0 := R.gamma_nonneg (h + (m + 1))
  have he : 0 ≤ R.growth (h + (m + 1)) * ((q + 1) * ε) := mul_nonneg (R.growth_pos _).le (by positivity)
  have hN : NearFactors n (fun i j => R.v (A i j)) (fun i j => R.v (L i j)) (fun i => R.v (D i)) (fun i => R.v (x i))
      (R.gamma (h + (m + 1))) (R.growth (h + (m + 1)) * ((q + 1) * ε)) := fun i hi j hj => (hE i hi j hj).err
  obtain ⟨h1, h2, h3, h4⟩ := hN.quasidefinite hP hL0' (fun i j => by beta_reduce; rw [hA]) hγ0 he hc hrow hγ hμ
    (fun i hi hlt => by
      have := hx i hi
      rw [hreg (x i) i ((hfin i hi).2 _ this) hlt] at this
      beta_reduce
      rw [this]) hq hρ hβ hsmall
  refine ⟨fun i hi => ⟨(h1 i hi).1, (h1 i hi).2.1, (h1 i hi).2.2.1⟩, h2, h4, fun h₁ q₁ h₂ q₂ b y Y hs hy i hi => ?_⟩
  exact quasi_residual R hP hL0 hQ (fun i hi j hj => hr.stored hQ hP hi hj) hσ hγ0 he
    (fun i hi j hj => hN.exact (fun i hi => (h1 i hi).2.2.2) hi hj) h3 hs hy i hi

/-- C93: let the factorization of a matrix which is positive definite by a margin be computed with sums in any order and with
any of the divisions replaced by products with reciprocals. If all pivots are finite, then they are positive, the
regularization changes nothing, the product of the factors is close to the matrix, and systems are solved with small
residuals, all in terms of the given matrix. -/
theorem C93_definite (R : RoundingAdd K F) (hst : ∀ a, R.stored a) (one : K) (P : Nat → Nat → Prop)
    (n h q : Nat) (A L : Nat → Nat → K) (D : Nat → K) (reg : K → Nat → K)
    (hr : FormulasWith (QuotientOrReciprocal one) P n h q A L D reg)
    (hP : ∀ i j, P i j → j < i)
    (hfill : ∀ i j k, P i k → P j k → j < i → P i j) (hA : ∀ i j, A i j = A j i)
    (hA0 : ∀ i j, j < i → ¬ P i j → A i j = 0) (hL0 : ∀ i j, ¬ P i j → L i j = 0)
    (hfin : ∀ i < n, R.fin (D i) ∧ ∀ x, D i = reg x i → R.fin x) (hrec : ∀ i < n, R.AccurateReciprocal one (D i))
    (ε : F) (h0 : R.σ ≤ ε) (hε : ∀ i j, P i j → R.η * ((1 + |R.v (D j)|) * (1 + |R.v (L i j)|)) ≤ ε) (hσ : R.σ ≤ R.η)
    (c : Nat) (hc : ∀ j < n, (columnEntriesOf P n j).length < c)
    (γ e : F) (hγe : γ = R.gamma (h + 3) ∧ e = R.growth (h + 3) * ((q + 1) * ε))
    (hγ : (2 * c + 1) * γ ≤ 1) (hγ1 : γ < 1) (μ : F) (hμ : 0 ≤ μ) (hreg : ∀ x i, R.fin x → μ < R.v x → reg x i = x)
    (hpd : PosDef (range n) μ fun i j => R.v (A i j) - if i = j then definiteMargin c n γ e (R.v (A i i)) else 0) :
    (∀ i < n, μ < R.v (D i)) ∧
    (∀ i < n, ∀ j < n, |R.v (A i j) - ldlt n (fun a b => R.v (L a b)) (fun a => R.v (D a)) i j| ≤
      γ / (1 - γ) * ((R.v (A i i) + R.v (A j j)) / 2 + e) + e) ∧
    ∀ (h₁ q₁ h₂ q₂ : Nat) (b y : Nat → K), SolveWith (QuotientOrReciprocal one) P n h₁ q₁ h₂ q₂ L D b y → (∀ i < n, R.fin (y i)) → ∀ i < n,
      |R.v (b i) - ∑ j ∈ range n, R.v (A i j) * R.v (y j)| ≤
        (γ + R.gamma (h₁ + h₂ + 4)) *
          ∑ j ∈ range n, ((R.v (A i i) + R.v (A j j)) / 2 + e) / (1 - γ) * |R.v (y j)| +
        (R.growth (h₁ + h₂ + 4) * (q₁ * R.η + ∑ j ∈ range n,
          unitLower (fun a b => |R.v (L a b)|) i j * (|R.v (D j)| * ((q₂ + 1) * R.η))) + e * ∑ j ∈ range n, |R.v (y j)|) :=
  definite_any R (by decide) P n h q A L D reg hr hP hfill hA hA0 hL0 hfin
    (fun j hj => divides_recip hst (hfin j hj).1 (hrec j hj)) ε h0 hε hσ c hc γ e hγe hγ hγ1 μ hμ hreg hpd

/-- C93: the same with divisions, with one rounding error less, and for all arithmetics. -/
theorem C93_definite_divisions (R : RoundingAdd K F) (P : Nat → Nat → Prop)
    (n h q : Nat) (A L : Nat → Nat → K) (D : Nat → K) (reg : K → Nat → K)
    (hr : ReorderedFormulas P n h q A L D reg)
    (hP : ∀ i j, P i j → j < i)
    (hfill : ∀ i j k, P i k → P j k → j < i → P i j) (hA : ∀ i j, A i j = A j i)
    (hA0 : ∀ i j, j < i → ¬ P i j → A i j = 0) (hL0 : ∀ i j, ¬ P i j → L i j = 0)
    (hfin : ∀ i < n, R.fin (D i) ∧ ∀ x, D i = reg x i → R.fin x)
    (ε : F) (h0 : R.σ ≤ ε) (hε : ∀ i j, P i j → R.η * ((1 + |R.v (D j)|) * (1 + |R.v (L i j)|)) ≤ ε) (hσ : R.σ ≤ R.η)
    (c : Nat) (hc : ∀ j < n, (columnEntriesOf P n j).length < c)
    (γ e : F) (hγe : γ = R.gamma (h + 2) ∧ e = R.growth (h + 2) * ((q + 1) * ε))
    (hγ : (2 * c + 1) * γ ≤ 1) (hγ1 : γ < 1) (μ : F) (hμ : 0 ≤ μ) (hreg : ∀ x i, R.fin x → μ < R.v x → reg x i = x)
    (hpd : PosDef (range n) μ fun i j => R.v (A i j) - if i = j then definiteMargin c n γ e (R.v (A i i)) else 0) :
    (∀ i < n, μ < R.v (D i)) ∧
    (∀ i < n, ∀ j < n, |R.v (A i j) - ldlt n (fun a b => R.v (L a b)) (fun a => R.v (D a)) i j| ≤
      γ / (1 - γ) * ((R.v (A i i) + R.v (A j j)) / 2 + e) + e) ∧
    ∀ (h₁ q₁ h₂ q₂ : Nat) (b y : Nat → K), ReorderedSolve P n h₁ q₁ h₂ q₂ L D b y → (∀ i < n, R.fin (y i)) → ∀ i < n,
      |R.v (b i) - ∑ j ∈ range n, R.v (A i j) * R.v (y j)| ≤
        (γ + R.gamma (h₁ + h₂ + 3)) *
          ∑ j ∈ range n, ((R.v (A i i) + R.v (A j j)) / 2 + e) / (1 - γ) * |R.v (y j)| +
        (R.growth (h₁ + h₂ + 3) * (q₁ * R.η + ∑ j ∈ range n,
          unitLower (fun a b => |R.v (L a b)|) i j * (|R.v (D j)| * ((q₂ + 1) * R.η))) + e * ∑ j ∈ range n, |R.v (y j)|) :=
  definite_any R le_rfl P n h q A L D reg hr hP hfill hA hA0 hL0 hfin
    (fun j hj => Rounding.divides_div (hfin j hj).1) ε h0 hε hσ c hc γ e hγe hγ hγ1 μ hμ hreg hpd

/-- C93: let the factorization of a matrix which is quasidefinite by a margin be computed with sums in any order and with any
of the divisions replaced by products with reciprocals. If all pivots are finite, then they have the right signs and
exceed the margin, the regularization changes nothing, the factors are bounded, their product is close to the matrix, and
systems are solved with small residuals, all in terms of the given matrix. -/
theorem C93_quasidefinite (R : RoundingAdd K F) (hst : ∀ a, R.stored a) (one : K) (P : Nat → Nat → Prop)
    (n h q : Nat) (A L : Nat → Nat → K) (D : Nat → K) (reg : K → Nat → K)
    (hr : FormulasWith (QuotientOrReciprocal one) P n h q A L D reg)
    (hP : ∀ i j, P i j → j < i)
    (hfill : ∀ i j k, P i k → P j k → j < i → P i j) (hA : ∀ i j, A i j = A j i)
    (hA0 : ∀ i j, j < i → ¬ P i j → A i j = 0) (hL0 : ∀ i j, ¬ P i j → L i j = 0)
    (hfin : ∀ i < n, R.fin (D i) ∧ ∀ x, D i = reg x i → R.fin x) (hrec : ∀ i < n, R.AccurateReciprocal one (D i))
    (ε : F) (h0 : R.σ ≤ ε) (hε : ∀ i j, P i j → R.η * ((1 + |R.v (D j)|) * (1 + |R.v (L i j)|)) ≤ ε) (hσ : R.σ ≤ R.η)
    (c : Nat) (hc : ∀ j < n, (columnEntriesOf P n j).length < c) (r : Nat) (hrow : ∀ i < n, (rowEntriesOf P i).length ≤ r)
    (γ e : F) (hγe : γ = R.gamma (h + 3) ∧ e = R.growth (h + 3) * ((q + 1) * ε))
    (hγ : 2 * γ ≤ 1) (μ ρ β : F) (hμ : 0 < μ) (hreg : ∀ x i, R.fin x → μ < |R.v x| → reg x i = x)
    (S : Nat → Prop) (hq : QuasiDef (range n) S (2 * μ) fun i j => R.v (A i j))
    (hρ : ∀ i < n, ∑ j ∈ range n, |R.v (A i j)| ≤ ρ) (hβ : 6 * ρ ^ 2 ≤ β * μ)
    (hsmall : γ * quasiGrowth r c μ β + n * e ≤ μ) :
    (∀ i < n, (S i → μ < R.v (D i)) ∧ (¬ S i → R.v (D i) < -μ) ∧ |R.v (D i)| ≤ β) ∧
    (∀ i < n, ∀ j < n, |R.v (L i j)| ≤ β / μ) ∧
    (∀ i < n, ∑ j ∈ range n, |R.v (A i j) - ldlt n (fun a b => R.v (L a b)) (fun a => R.v (D a)) i j| ≤
      γ * quasiGrowth r c μ β + n * e) ∧
    ∀ (h₁ q₁ h₂ q₂ : Nat) (b y : Nat → K) (Y : F), SolveWith (QuotientOrReciprocal one) P n h₁ q₁ h₂ q₂ L D b y →
      (∀ i < n, R.fin (y i) ∧ |R.v (y i)| ≤ Y) → ∀ i < n,
      |R.v (b i) - ∑ j ∈ range n, R.v (A i j) * R.v (y j)| ≤
        (γ + R.gamma (h₁ + h₂ + 4)) * (quasiGrowth r c μ β * Y) +
        (R.growth (h₁ + h₂ + 4) * (q₁ * R.η + (r + 1) * β * ((q₂ + 1) * R.η)) + n * e * Y) :=
  quasidefinite_any R (by decide) P n h q A L D reg hr hP hfill hA hA0 hL0 hfin
    (fun j hj => divides_recip hst (hfin j hj).1 (hrec j hj)) ε h0 hε hσ c hc r hrow γ e hγe hγ μ ρ β hμ hreg S hq hρ hβ hsmall

/-- C93: the same with divisions, with one rounding error less, and for all arithmetics. -/
theorem C93_quasidefinite_divisions (R : RoundingAdd K F) (P : Nat → Nat → Prop)
    (n h q : Nat) (A L : Nat → Nat → K) (D : Nat → K) (reg : K → Nat → K)
    (hr : ReorderedFormulas P n h q A L D reg)
    (hP : ∀ i j, P i j → j < i)
    (hfill : ∀ i j k, P i k → P j k → j < i → P i j) (hA : ∀ i j, A i j = A j i)
    (hA0 : ∀ i j, j < i → ¬ P i j → A i j = 0) (hL0 : ∀ i j, ¬ P i j → L i j = 0)
    (hfin : ∀ i < n, R.fin (D i) ∧ ∀ x, D i = reg x i → R.fin x)
    (ε : F) (h0 : R.σ ≤ ε) (hε : ∀ i j, P i j → R.η * ((1 + |R.v (D j)|) * (1 + |R.v (L i j)|)) ≤ ε) (hσ : R.σ ≤ R.η)
    (c : Nat) (hc : ∀ j < n, (columnEntriesOf P n j).length < c) (r : Nat) (hrow : ∀ i < n, (rowEntriesOf P i).length ≤ r)
    (γ e : F) (hγe : γ = R.gamma (h + 2) ∧ e = R.growth (h + 2) * ((q + 1) * ε))
    (hγ : 2 * γ ≤ 1) (μ ρ β : F) (hμ : 0 < μ) (hreg : ∀ x i, R.fin x → μ < |R.v x| → reg x i = x)
    (S : Nat → Prop) (hq : QuasiDef (range n) S (2 * μ) fun i j => R.v (A i j))
    (hρ : ∀ i < n, ∑ j ∈ range n, |R.v (A i j)| ≤ ρ) (hβ : 6 * ρ ^ 2 ≤ β * μ)
    (hsmall : γ * quasiGrowth r c μ β + n * e ≤ μ) :
    (∀ i < n, (S i → μ < R.v (D i)) ∧ (¬ S i → R.v (D i) < -μ) ∧ |R.v (D i)| ≤ β) ∧
    (∀ i < n, ∀ j < n, |R.v (L i j)| ≤ β / μ) ∧
    (∀ i < n, ∑ j ∈ range n, |R.v (A i j) - ldlt n (fun a b => R.v (L a b)) (fun a => R.v (D a)) i j| ≤
      γ * quasiGrowth r c μ β + n * e) ∧
    ∀ (h₁ q₁ h₂ q₂ : Nat) (b y : Nat → K) (Y : F), ReorderedSolve P n h₁ q₁ h₂ q₂ L D b y →
      (∀ i < n, R.fin (y i) ∧ |R.v (y i)| ≤ Y) → ∀ i < n,
      |R.v (b i) - ∑ j ∈ range n, R.v (A i j) * R.v (y j)| ≤
        (γ + R.gamma (h₁ + h₂ + 3)) * (quasiGrowth r c μ β * Y) +
        (R.growth (h₁ + h₂ + 3) * (q₁ * R.η + (r + 1) * β * ((q₂ + 1) * R.η)) + n * e * Y) :=
  quasidefinite_any R le_rfl P n h q A L D reg hr hP hfill hA hA0 hL0 hfin
    (fun j hj => Rounding.divides_div (hfin j hj).1) ε h0 hε hσ c hc r hrow γ e hγe hγ μ ρ β hμ hreg S hq hρ hβ hsmall

/-! ### Cases meeting the hypotheses -/

/-- A double precision number. -/
private def d (x : ℚ) : Double := .ofRat .binary64 false x

theorem thirds_lower : ∀ i j, thirdsP i j → j < i := fun i j h => by
  have := h.1
  have := h.2
  omega

theorem thirds_fill : ∀ i j k, thirdsP i k → thirdsP j k → j < i → thirdsP i j := fun i j k h h' hji => by
  have := h.1
  have := h'.1
  omega

theorem thirds_symm (t : Double) : ∀ i j, thirdsA t i j = thirdsA t j i := fun i j => by
  unfold thirdsA
  rw [max_comm i j]
  by_cases hij : i = j
  · rw [hij]
  · rw [if_neg hij, if_neg (Ne.symm hij)]

theorem thirds_zero (t : Double) : ∀ i j, j < i → ¬ thirdsP i j → thirdsA t i j = 0 := fun i j hji h => by
  unfold thirdsA
  rw [if_neg (by omega), if_neg (fun h' => h ⟨by omega, by omega⟩)]
  decide +kernel

theorem thirds_off (l : Double) : ∀ i j, ¬ thirdsP i j → thirdsL l i j = 0 := fun i j h => by
  unfold thirdsL
  rw [if_neg h]
  decide +kernel

theorem thirds_col : ∀ j < 2, (columnEntriesOf thirdsP 2 j).length < 2 := fun j hj => by
  obtain rfl | rfl : j = 0 ∨ j = 1 := by omega
  · simp [columnEntriesOf, thirdsP, List.range_succ]
  · simp [columnEntriesOf, thirdsP]

theorem thirds_row : ∀ i < 2, (rowEntriesOf thirdsP i).length ≤ 1 := fun i hi => by
  unfold rowEntriesOf
  exact (List.length_filter_le _ _).trans (by rw [List.length_range]; omega)

private theorem two_posDef {a b c μ : ℚ} {A : Nat → Nat → ℚ} (h0 : A 0 0 = a) (h1 : A 1 1 = c) (h2 : A 0 1 = b)
    (h3 : A 1 0 = b) (ha : μ < a) (hc : b ^ 2 < (a - μ) * (c - μ)) : PosDef (range 2) μ A := by
  rintro x ⟨k, hk, hne⟩
  simp only [sum_range_succ, sum_range_zero, zero_add, h0, h1, h2, h3]
  have h4 : 0 < a - μ := by linarith
  suffices 0 < (a - μ) * (x 0 * a * x 0 + x 0 * b * x 1 + (x 1 * b * x 0 + x 1 * c * x 1) - μ * (x 0 ^ 2 + x 1 ^ 2)) by
    have := (mul_pos_iff_of_pos_left h4).mp this
    linarith
  have e1 : (a - μ) * (x 0 * a * x 0 + x 0 * b * x 1 + (x 1 * b * x 0 + x 1 * c * x 1) - μ * (x 0 ^ 2 + x 1 ^ 2)) =
      ((a - μ) * x 0 + b * x 1) ^ 2 + ((a - μ) * (c - μ) - b ^ 2) * x 1 ^ 2 := by ring
  rw [e1]
  by_cases hx : x 1 = 0
  · have hx0 : x 0 ≠ 0 := by
      have := mem_range.mp hk
      obtain rfl | rfl : k = 0 ∨ k = 1 := by omega
      · exact hne
      · exact absurd hx hne
    rw [hx]
    have : 0 < ((a - μ) * x 0) ^ 2 := by positivity
    simpa using this
  · have h5 : 0 < ((a - μ) * (c - μ) - b ^ 2) * x 1 ^ 2 := mul_pos (by linarith) (by positivity)
    have := sq_nonneg ((a - μ) * x 0 + b * x 1)
    linarith

private theorem two {p : Nat → Prop} (h : ∀ i ∈ List.range 2, p i) : ∀ i < 2, p i := fun i hi => h i (List.mem_range.mpr hi)

private theorem thirds_small {t l : Double} (h : doubleR.η * ((1 + |doubleR.v (thirdsD t l 0)|) * (1 + |doubleR.v (thirdsL l 1 0)|)) ≤
    2 ^ (-1070 : Int)) : ∀ i j, thirdsP i j →
      doubleR.η * ((1 + |doubleR.v (thirdsD t l j)|) * (1 + |doubleR.v (thirdsL l i j)|)) ≤ 2 ^ (-1070 : Int) := by
  rintro i j ⟨rfl, rfl⟩
  exact h

/-- The hypotheses are met by a definite matrix whose factor is computed with a reciprocal. -/
example : (∀ i < 2, 1 < (thirdsD (d 20) viaReciprocal i).toRat) ∧ ∀ i < 2,
    |(thirdsB i).toRat - ∑ j ∈ range 2, (thirdsA (d 20) i j).toRat * (thirdsX (d 20) j).toRat| ≤
      (doubleR.gamma (1 + 3) + doubleR.gamma (1 + 1 + 4)) * ∑ j ∈ range 2,
        (((thirdsA (d 20) i i).toRat + (thirdsA (d 20) j j).toRat) / 2 +
          doubleR.growth (1 + 3) * (((1 : Nat) + 1) * 2 ^ (-1070 : Int))) / (1 - doubleR.gamma (1 + 3)) *
          |(thirdsX (d 20) j).toRat| +
      (doubleR.growth (1 + 1 + 4) * ((1 : Nat) * doubleR.η + ∑ j ∈ range 2,
        unitLower (fun a b => |(thirdsL viaReciprocal a b).toRat|) i j *
          (|(thirdsD (d 20) viaReciprocal j).toRat| * (((1 : Nat) + 1) * doubleR.η))) +
        doubleR.growth (1 + 3) * (((1 : Nat) + 1) * 2 ^ (-1070 : Int)) * ∑ j ∈ range 2, |(thirdsX (d 20) j).toRat|) := by
  have hfin : ∀ i < 2, (thirdsD (d 20) viaReciprocal i).Finite ∧ (thirdsX (d 20) i).Finite ∧
      |(thirdsD (d 20) viaReciprocal i).toRat| ≤ 2 ^ (1022 : Int) := two (by decide +kernel)
  have h := C93_definite (Binary.roundingAdd .binary64) (fun _ => trivial) (d 1) thirdsP 2 1 1 (thirdsA (d 20))
    (thirdsL viaReciprocal) (thirdsD (d 20) viaReciprocal) regularizationNone
    (thirds_formulas _ _ _ (Or.inr (Or.inl rfl))) thirds_lower thirds_fill (thirds_symm _) (thirds_zero _) (thirds_off _)
    (fun i hi => ⟨(hfin i hi).1, fun x hx => (show thirdsD (d 20) viaReciprocal i = x from hx) ▸ (hfin i hi).1⟩)
    (fun i hi => C92_reciprocal .binary64 _ _ (by decide +kernel) (hfin i hi).1 (hfin i hi).2.2)
    (2 ^ (-1070 : Int)) (two_zpow_pos _).le (thirds_small (by decide +kernel)) (Binary.roundingAdd .binary64).η_nonneg
    2 thirds_col _ _ ⟨rfl, rfl⟩ (by decide +kernel) (by decide +kernel) 1 (by decide) (fun _ _ _ _ => rfl)
    (two_posDef rfl rfl rfl (by decide +kernel) (by decide +kernel) (by decide +kernel))
  exact ⟨h.1, h.2.2 1 1 1 1 thirdsB (thirdsX (d 20)) (thirds_solve _) fun i hi => (hfin i hi).2.1⟩

/-- The same with a division. -/
example : ∀ i < 2, 1 < (thirdsD (d 20) (d 5 / d 3) i).toRat := by
  have hfin : ∀ i < 2, (thirdsD (d 20) (d 5 / d 3) i).Finite := two (by decide +kernel)
  exact (C93_definite_divisions (Binary.roundingAdd .binary64) thirdsP 2 1 1 (thirdsA (d 20))
    (thirdsL (d 5 / d 3)) (thirdsD (d 20) (d 5 / d 3)) regularizationNone
    (thirds_formulas _ _ _ rfl) thirds_lower thirds_fill (thirds_symm _) (thirds_zero _) (thirds_off _)
    (fun i hi => ⟨hfin i hi, fun x hx => (show thirdsD (d 20) (d 5 / d 3) i = x from hx) ▸ hfin i hi⟩)
    (2 ^ (-1070 : Int)) (two_zpow_pos _).le (thirds_small (by decide +kernel)) (Binary.roundingAdd .binary64).η_nonneg
    2 thirds_col _ _ ⟨rfl, rfl⟩ (by decide +kernel) (by decide +kernel) 1 (by decide) (fun _ _ _ _ => rfl)
    (two_posDef rfl rfl rfl (by decide +kernel) (by decide +kernel) (by decide +kernel))).1

theorem thirds_quasi : QuasiDef (range 2) (fun i => i = 0) (2 * 1) fun i j => (thirdsA (.ofRat .binary64 false (-20)) i j).toRat := by
  have e0 : (thirdsA (.ofRat .binary64 false (-20)) 0 0).toRat = 3 := by decide +kernel
  have e1 : (thirdsA (.ofRat .binary64 false (-20)) 1 1).toRat = -20 := by decide +kernel
  constructor
  · rintro x ⟨k, hk, hne⟩ h0
    have h1 : x 1 = 0 := h0 1 (by decide) (by decide)
    have hx : x 0 ≠ 0 := by
      have := mem_range.mp hk
      obtain rfl | rfl : k = 0 ∨ k = 1 := by omega
      · exact hne
      · exact absurd h1 hne
    have h2 : 0 < x 0 ^ 2 := by positivity
    simp only [sum_range_succ, sum_range_zero, zero_add, h1, e0]
    linarith
  · rintro x ⟨k, hk, hne⟩ h0
    have h1 : x 0 = 0 := h0 0 (by decide) rfl
    have hx : x 1 ≠ 0 := by
      have := mem_range.mp hk
      obtain rfl | rfl : k = 0 ∨ k = 1 := by omega
      · exact absurd h1 hne
      · exact hne
    have h2 : 0 < x 1 ^ 2 := by positivity
    simp only [sum_range_succ, sum_range_zero, zero_add, h1, e1]
    linarith

/-- The hypotheses are met by a quasidefinite matrix whose factor is computed with a reciprocal. -/
example : 1 < (thirdsD (d (-20)) viaReciprocal 0).toRat ∧ (thirdsD (d (-20)) viaReciprocal 1).toRat < -1 ∧ ∀ i < 2,
    |(thirdsB i).toRat - ∑ j ∈ range 2, (thirdsA (d (-20)) i j).toRat * (thirdsX (d (-20)) j).toRat| ≤
      (doubleR.gamma (1 + 3) + doubleR.gamma (1 + 1 + 4)) * (quasiGrowth 1 2 1 3750 * 3) +
      (doubleR.growth (1 + 1 + 4) * ((1 : Nat) * doubleR.η + ((1 : Nat) + 1) * 3750 * (((1 : Nat) + 1) * doubleR.η)) +
        (2 : Nat) * (doubleR.growth (1 + 3) * (((1 : Nat) + 1) * 2 ^ (-1070 : Int))) * 3) := by
  have hfin : ∀ i < 2, (thirdsD (d (-20)) viaReciprocal i).Finite ∧ ((thirdsX (d (-20)) i).Finite ∧
      |(thirdsX (d (-20)) i).toRat| ≤ 3) ∧ |(thirdsD (d (-20)) viaReciprocal i).toRat| ≤ 2 ^ (1022 : Int) :=
    two (by decide +kernel)
  have h := C93_quasidefinite (Binary.roundingAdd .binary64) (fun _ => trivial) (d 1) thirdsP 2 1 1 (thirdsA (d (-20)))
    (thirdsL viaReciprocal) (thirdsD (d (-20)) viaReciprocal) regularizationNone
    (thirds_formulas _ _ _ (Or.inr (Or.inl rfl))) thirds_lower thirds_fill (thirds_symm _) (thirds_zero _) (thirds_off _)
    (fun i hi => ⟨(hfin i hi).1, fun x hx => (show thirdsD (d (-20)) viaReciprocal i = x from hx) ▸ (hfin i hi).1⟩)
    (fun i hi => C92_reciprocal .binary64 _ _ (by decide +kernel) (hfin i hi).1 (hfin i hi).2.2)
    (2 ^ (-1070 : Int)) (two_zpow_pos _).le (thirds_small (by decide +kernel)) (Binary.roundingAdd .binary64).η_nonneg
    2 thirds_col 1 thirds_row _ _ ⟨rfl, rfl⟩ (by decide +kernel) 1 25 3750 (by decide) (fun _ _ _ _ => rfl) (fun i => i = 0)
    thirds_quasi (two (by decide +kernel)) (by norm_num) (by decide +kernel)
  exact ⟨(h.1 0 (by decide)).1 rfl, (h.1 1 (by decide)).2.1 (by decide),
    h.2.2.2 1 1 1 1 thirdsB (thirdsX (d (-20))) 3 (thirds_solve _) fun i hi => (hfin i hi).2.1⟩

/-- The same with a division. -/
example : 1 < (thirdsD (d (-20)) (d 5 / d 3) 0).toRat ∧ (thirdsD (d (-20)) (d 5 / d 3) 1).toRat < -1 := by
  have hfin : ∀ i < 2, (thirdsD (d (-20)) (d 5 / d 3) i).Finite := two (by decide +kernel)
  have h := C93_quasidefinite_divisions (Binary.roundingAdd .binary64) thirdsP 2 1 1 (thirdsA (d (-20)))
    (thirdsL (d 5 / d 3)) (thirdsD (d (-20)) (d 5 / d 3)) regularizationNone
    (thirds_formulas _ _ _ rfl) thirds_lower thirds_fill (thirds_symm _) (thirds_zero _) (thirds_off _)
    (fun i hi => ⟨hfin i hi, fun x hx => (show thirdsD (d (-20)) (d 5 / d 3) i = x from hx) ▸ hfin i hi⟩)
    (2 ^ (-1070 : Int)) (two_zpow_pos _).le (thirds_small (by decide +kernel)) (Binary.roundingAdd .binary64).η_nonneg
    2 thirds_col 1 thirds_row _ _ ⟨rfl, rfl⟩ (by decide +kernel) 1 25 3750 (by decide) (fun _ _ _ _ => rfl) (fun i => i = 0)
    thirds_quasi (two (by decide +kernel)) (by norm_num) (by decide +kernel)
  exact ⟨(h.1 0 (by decide)).1 rfl, (h.1 1 (by decide)).2.1 (by decide)⟩

end Ctldl
