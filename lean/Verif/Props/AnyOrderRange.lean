import Verif.Lemmas.AnyOrderSolve
import Verif.Props.AnyOrderDefinite
import Verif.Spec.AnyOrderRange

/-! # C94: quasidefinite matrices with sums in any order and reciprocals do not overflow -/

namespace Ctldl

open Finset

set_option linter.unusedSectionVars false

variable {K F : Type} [Zero K] [Add K] [Sub K] [Mul K] [Div K] [Field F] [LinearOrder F] [IsStrictOrderedRing F]

private theorem finite_any (R : RoundingAdd K F) {m : Nat} {Quot : K → K → K → Prop} (hm : 1 ≤ m) (P : Nat → Nat → Prop)
    (n h q r c : Nat) (A L : Nat → Nat → K) (D : Nat → K) (reg : K → Nat → K) (Ω ρ μ β ε : F)
    (hr : FormulasWith Quot P n h q A L D reg) (hP : ∀ i j, P i j → j < i)
    (hfill : ∀ i j k, P i k → P j k → j < i → P i j) (hA : ∀ i j, A i j = A j i)
    (hA0 : ∀ i j, j < i → ¬ P i j → A i j = 0) (hL0 : ∀ i j, ¬ P i j → L i j = 0)
    (hfin : ∀ i < n, ∀ j < n, R.fin (A i j)) (hR : R.AmpleAny (m + 1) n h q r c Ω ρ μ β ε)
    (hQ : ∀ d, R.fin d → μ < |R.v d| → |R.v d| ≤ β → R.Divides m Quot d)
    (hQf : ∀ a d y, Quot a d y → R.fin a → R.fin d → μ < |R.v d| → |R.v d| ≤ β → 2 * |R.v a| ≤ μ * Ω → R.fin y)
    (hc : ∀ j < n, (columnEntriesOf P n j).length < c) (hrow : ∀ i < n, (rowEntriesOf P i).length ≤ r)
    (hreg : ∀ x i, R.fin x → μ < |R.v x| → reg x i = x)
    (S : Nat → Prop) (hq : QuasiDef (range n) S (2 * μ) fun i j => R.v (A i j))
    (hρ : ∀ i < n, ∑ j ∈ range n, |R.v (A i j)| ≤ ρ) :
    (∀ i < n, R.fin (D i) ∧ (S i → μ < R.v (D i)) ∧ (¬ S i → R.v (D i) < -μ) ∧ |R.v (D i)| ≤ β) ∧
    (∀ i < n, ∀ j, P i j → R.fin (L i j) ∧ |R.v (L i j)| ≤ β / μ) ∧
    (∀ i < n, ∑ j ∈ range n, |R.v (A i j) - ldlt n (fun a b => R.v (L a b)) (fun a => R.v (D a)) i j| ≤
      R.gamma (h + (m + 1)) * quasiGrowth r c μ β + n * (R.growth (h + (m + 1)) * ((q + 1) * ε))) ∧
    ∀ (h₁ q₁ h₂ q₂ : Nat) (b y : Nat → K) (Y : F), SolveWith Quot P n h₁ q₁ h₂ q₂ L D b y →
      (∀ i < n, R.fin (y i) ∧ |R.v (y i)| ≤ Y) → ∀ i < n,
      |R.v (b i) - ∑ j ∈ range n, R.v (A i j) * R.v (y j)| ≤
        (R.gamma (h + (m + 1)) + R.gamma (h₁ + h₂ + m + 2)) * (quasiGrowth r c μ β * Y) +
        (R.growth (h₁ + h₂ + m + 2) * (q₁ * R.η + (r + 1) * β * ((q₂ + 1) * R.η)) +
          n * (R.growth (h + (m + 1)) * ((q + 1) * ε)) * Y) := by
  obtain ⟨w, H⟩ := hr.anyQuasi hm hP hfill hA hA0 hL0 hfin hR hQ hQf hc hrow hreg hq hρ
  have hγ0 := R.gamma_nonneg (h + (m + 1))
  have hN := H.near
  obtain ⟨h1, h2, h3, h4⟩ := hN.quasidefinite hP H.zero_v (fun i j => by rw [hA]) hγ0 H.e_nonneg.1 hc hrow hR.gamma hR.pos
    (fun _ _ _ => rfl) hq hρ hR.bound hR.accuracy
  refine ⟨fun i hi => ⟨(H.all_rows i hi).fin, (h1 i hi).1, (h1 i hi).2.1, (h1 i hi).2.2.1⟩, fun i hi j hj => ?_, h4, ?_⟩
  · have := hP i j hj
    exact ⟨((H.all_rows i hi).ent j hj).1, h2 i hi j (by omega)⟩
  · intro h₁ q₁ h₂ q₂ b y Y hs hy
    exact quasi_residual R hP hL0 (fun j hj => hQ _ (H.all_rows j hj).fin (H.all_rows j hj).pos (H.all_rows j hj).le)
      (fun _ _ _ _ => hR.stored _) hR.sub hγ0 H.e_nonneg.1 (fun i hi j hj => hN.exact (fun _ _ => rfl) hi hj) h3 hs hy

/-- C94: let the factorization of a matrix which is quasidefinite by a margin be computed with sums in any order and with any
of the divisions replaced by products with reciprocals. If precision and range suffice, then nothing overflows, the pivots have
the right signs and exceed the margin, the regularization changes nothing, the factors are bounded, their product is close
to the matrix, and systems are solved with small residuals, all in terms of the given matrix. -/
theorem C94_quasidefinite (R : RoundingAdd K F) (one : K) (P : Nat → Nat → Prop)
    (n h q r c : Nat) (A L : Nat → Nat → K) (D : Nat → K) (reg : K → Nat → K) (Ω ρ μ β ε : F)
    (hr : FormulasWith (QuotientOrReciprocal one) P n h q A L D reg) (hP : ∀ i j, P i j → j < i)
    (hfill : ∀ i j k, P i k → P j k → j < i → P i j) (hA : ∀ i j, A i j = A j i)
    (hA0 : ∀ i j, j < i → ¬ P i j → A i j = 0) (hL0 : ∀ i j, ¬ P i j → L i j = 0)
    (hfin : ∀ i < n, ∀ j < n, R.fin (A i j)) (hR : R.AmpleAny 3 n h q r c Ω ρ μ β ε)
    (hone : R.fin one ∧ R.v one = 1) (hΩ : 1 ≤ μ * Ω)
    (hrec : ∀ d, R.fin d → |R.v d| ≤ β → R.AccurateReciprocal one d)
    (hc : ∀ j < n, (columnEntriesOf P n j).length < c) (hrow : ∀ i < n, (rowEntriesOf P i).length ≤ r)
    (hreg : ∀ x i, R.fin x → μ < |R.v x| → reg x i = x)
    (S : Nat → Prop) (hq : QuasiDef (range n) S (2 * μ) fun i j => R.v (A i j))
    (hρ : ∀ i < n, ∑ j ∈ range n, |R.v (A i j)| ≤ ρ) :
    (∀ i < n, R.fin (D i) ∧ (S i → μ < R.v (D i)) ∧ (¬ S i → R.v (D i) < -μ) ∧ |R.v (D i)| ≤ β) ∧
    (∀ i < n, ∀ j, P i j → R.fin (L i j) ∧ |R.v (L i j)| ≤ β / μ) ∧
    (∀ i < n, ∑ j ∈ range n, |R.v (A i j) - ldlt n (fun a b => R.v (L a b)) (fun a => R.v (D a)) i j| ≤
      R.gamma (h + 3) * quasiGrowth r c μ β + n * (R.growth (h + 3) * ((q + 1) * ε))) ∧
    ∀ (h₁ q₁ h₂ q₂ : Nat) (b y : Nat → K) (Y : F), SolveWith (QuotientOrReciprocal one) P n h₁ q₁ h₂ q₂ L D b y →
      (∀ i < n, R.fin (y i) ∧ |R.v (y i)| ≤ Y) → ∀ i < n,
      |R.v (b i) - ∑ j ∈ range n, R.v (A i j) * R.v (y j)| ≤
        (R.gamma (h + 3) + R.gamma (h₁ + h₂ + 4)) * (quasiGrowth r c μ β * Y) +
        (R.growth (h₁ + h₂ + 4) * (q₁ * R.η + (r + 1) * β * ((q₂ + 1) * R.η)) +
          n * (R.growth (h + 3) * ((q + 1) * ε)) * Y) := by
  refine finite_any R (m := 2) (by decide) P n h q r c A L D reg Ω ρ μ β ε hr hP hfill hA hA0 hL0 hfin hR
    (fun d hd _ hβ => divides_recip hR.stored hd (hrec d hd hβ)) (fin_recip hR hone hΩ hrec) hc hrow hreg S hq hρ

/-- C94: the same with divisions, with one rounding error less. -/
theorem C94_divisions (R : RoundingAdd K F) (P : Nat → Nat → Prop)
    (n h q r c : Nat) (A L : Nat → Nat → K) (D : Nat → K) (reg : K → Nat → K) (Ω ρ μ β ε : F)
    (hr : ReorderedFormulas P n h q A L D reg) (hP : ∀ i j, P i j → j < i)
    (hfill : ∀ i j k, P i k → P j k → j < i → P i j) (hA : ∀ i j, A i j = A j i)
    (hA0 : ∀ i j, j < i → ¬ P i j → A i j = 0) (hL0 : ∀ i j, ¬ P i j → L i j = 0)
    (hfin : ∀ i < n, ∀ j < n, R.fin (A i j)) (hR : R.AmpleAny 2 n h q r c Ω ρ μ β ε)
    (hc : ∀ j < n, (columnEntriesOf P n j).length < c) (hrow : ∀ i < n, (rowEntriesOf P i).length ≤ r)
    (hreg : ∀ x i, R.fin x → μ < |R.v x| → reg x i = x)
    (S : Nat → Prop) (hq : QuasiDef (range n) S (2 * μ) fun i j => R.v (A i j))
    (hρ : ∀ i < n, ∑ j ∈ range n, |R.v (A i j)| ≤ ρ) :
    (∀ i < n, R.fin (D i) ∧ (S i → μ < R.v (D i)) ∧ (¬ S i → R.v (D i) < -μ) ∧ |R.v (D i)| ≤ β) ∧
    (∀ i < n, ∀ j, P i j → R.fin (L i j) ∧ |R.v (L i j)| ≤ β / μ) ∧
    (∀ i < n, ∑ j ∈ range n, |R.v (A i j) - ldlt n (fun a b => R.v (L a b)) (fun a => R.v (D a)) i j| ≤
      R.gamma (h + 2) * quasiGrowth r c μ β + n * (R.growth (h + 2) * ((q + 1) * ε))) ∧
    ∀ (h₁ q₁ h₂ q₂ : Nat) (b y : Nat → K) (Y : F), ReorderedSolve P n h₁ q₁ h₂ q₂ L D b y →
      (∀ i < n, R.fin (y i) ∧ |R.v (y i)| ≤ Y) → ∀ i < n,
      |R.v (b i) - ∑ j ∈ range n, R.v (A i j) * R.v (y j)| ≤
        (R.gamma (h + 2) + R.gamma (h₁ + h₂ + 3)) * (quasiGrowth r c μ β * Y) +
        (R.growth (h₁ + h₂ + 3) * (q₁ * R.η + (r + 1) * β * ((q₂ + 1) * R.η)) +
          n * (R.growth (h + 2) * ((q + 1) * ε)) * Y) := by
  refine finite_any R (m := 1) le_rfl P n h q r c A L D reg Ω ρ μ β ε hr hP hfill hA hA0 hL0 hfin hR
    (fun d hd _ _ => Rounding.divides_div hd) (fin_quotient hR) hc hrow hreg S hq hρ

/-- C94: the range has to suffice for the reciprocals. With the pivot 2⁻¹⁰²⁴, which is exact, the quotient of the pivot and itself is
one, but the product with its reciprocal is not finite. -/
theorem C94_reciprocal_overflow : ∃ one a d y z : Double, one.toRat = 1 ∧ a.Finite ∧ d.Finite ∧ d.toRat = 2 ^ (-1024 : Int) ∧
    QuotientOrReciprocal one a d y ∧ y.Finite ∧ y.toRat = 1 ∧ QuotientOrReciprocal one a d z ∧ ¬ z.Finite :=
  ⟨.ofRat .binary64 false 1, .ofRat .binary64 false (2 ^ (-1024 : Int)), .ofRat .binary64 false (2 ^ (-1024 : Int)), _, _,
    by decide +kernel, by decide +kernel, by decide +kernel, by decide +kernel, Or.inl rfl, by decide +kernel, by decide +kernel,
    Or.inr (Or.inl rfl), by decide +kernel⟩

/-! ### Cases meeting the hypotheses -/

/-- A double precision number. -/
private def d (x : ℚ) : Double := .ofRat .binary64 false x

private theorem two {p : Nat → Prop} (h : ∀ i ∈ List.range 2, p i) : ∀ i < 2, p i := fun i hi => h i (List.mem_range.mpr hi)

theorem thirds_ample {m : Nat} (h1 : 2 * doubleR.gamma (1 + m) ≤ 1)
    (h2 : doubleR.gamma (1 + m) * quasiGrowth 1 2 1 3750 + (2 : Nat) * (doubleR.growth (1 + m) * (((1 : Nat) + 1) * 2 ^ (-1040 : Int))) ≤ 1) :
    (Binary.roundingAdd .binary64).AmpleAny m 2 1 1 1 2 (2 ^ (1023 : Int)) 25 1 3750 (2 ^ (-1040 : Int)) where
  range := Binary.rangeAdd (by decide)
  stored _ := trivial
  pos := by decide
  bound := by norm_num
  unit := by decide +kernel
  sub := (Binary.roundingAdd .binary64).η_nonneg
  small := by decide +kernel
  gamma := h1
  accuracy := h2
  max := by decide +kernel
  max_sum := by decide +kernel
  max_div := by decide +kernel

/-- The hypotheses are met by a quasidefinite matrix, without looking at its factors. -/
example (l : Double) (D : Nat → Double)
    (hr : FormulasWith (QuotientOrReciprocal (d 1)) thirdsP 2 1 1 (thirdsA (d (-20))) (thirdsL l) D regularizationNone) :
    l.Finite ∧ (D 0).Finite ∧ (D 1).Finite ∧ 1 < (D 0).toRat ∧ (D 1).toRat < -1 := by
  have h := C94_quasidefinite (Binary.roundingAdd .binary64) (d 1) thirdsP 2 1 1 1 2 (thirdsA (d (-20))) (thirdsL l) D
    regularizationNone (2 ^ (1023 : Int)) 25 1 3750 (2 ^ (-1040 : Int)) hr thirds_lower thirds_fill (thirds_symm _)
    (thirds_zero _) (thirds_off _) (fun i hi j hj => by
      have : ∀ i ∈ List.range 2, ∀ j ∈ List.range 2, (thirdsA (d (-20)) i j).Finite := by decide +kernel
      exact this i (List.mem_range.mpr hi) j (List.mem_range.mpr hj))
    (thirds_ample (by decide +kernel) (by decide +kernel)) (show (d 1).Finite ∧ (d 1).toRat = 1 by decide +kernel) (by decide +kernel)
    (fun d hd hβ => C92_reciprocal .binary64 _ _ (by decide +kernel) hd (hβ.trans (by decide +kernel)))
    thirds_col thirds_row (fun _ _ _ _ => rfl) (fun i => i = 0) thirds_quasi (two (by decide +kernel))
  exact ⟨(h.2.1 1 (by decide) 0 ⟨rfl, rfl⟩).1, (h.1 0 (by decide)).1, (h.1 1 (by decide)).1, (h.1 0 (by decide)).2.1 rfl,
    (h.1 1 (by decide)).2.2.1 (by decide)⟩

/-- The formulas with a reciprocal are such formulas. -/
example : ∃ l D, FormulasWith (QuotientOrReciprocal (d 1)) thirdsP 2 1 1 (thirdsA (d (-20))) (thirdsL l) D regularizationNone :=
  ⟨viaReciprocal, thirdsD (d (-20)) viaReciprocal, thirds_formulas _ _ _ (Or.inr (Or.inl rfl))⟩

/-- The same with a division. -/
example : (thirdsD (d (-20)) (d 5 / d 3) 1).Finite ∧ (thirdsD (d (-20)) (d 5 / d 3) 1).toRat < -1 := by
  have h := C94_divisions (Binary.roundingAdd .binary64) thirdsP 2 1 1 1 2 (thirdsA (d (-20))) (thirdsL (d 5 / d 3))
    (thirdsD (d (-20)) (d 5 / d 3))
    regularizationNone (2 ^ (1023 : Int)) 25 1 3750 (2 ^ (-1040 : Int)) (thirds_formulas _ _ _ rfl) thirds_lower thirds_fill
    (thirds_symm _) (thirds_zero _) (thirds_off _) (fun i hi j hj => by
      have : ∀ i ∈ List.range 2, ∀ j ∈ List.range 2, (thirdsA (d (-20)) i j).Finite := by decide +kernel
      exact this i (List.mem_range.mpr hi) j (List.mem_range.mpr hj))
    (thirds_ample (by decide +kernel) (by decide +kernel))
    thirds_col thirds_row (fun _ _ _ _ => rfl) (fun i => i = 0) thirds_quasi (two (by decide +kernel))
  exact ⟨(h.1 1 (by decide)).1, (h.1 1 (by decide)).2.2.1 (by decide)⟩

end Ctldl
