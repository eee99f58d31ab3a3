import Verif.Props.AnyOrderRange

/-! # C95: quasidefinite systems are solved without overflow with sums in any order and reciprocals -/

namespace Ctldl

open Finset

set_option linter.unusedSectionVars false

variable {K F : Type} [Zero K] [Add K] [Sub K] [Mul K] [Div K] [Field F] [LinearOrder F] [IsStrictOrderedRing F]

private theorem solved_any (R : RoundingAdd K F) {m : Nat} {Quot : K → K → K → Prop} {P : Nat → Nat → Prop}
    {n h q r c h₁ q₁ h₂ q₂ : Nat} {A L w : Nat → Nat → K} {D b x : Nat → K} {S : Nat → Prop} {Ω ρ μ β ε s B Y Z X : F}
    (H : AnyQuasi R Quot P m n h q A L w D r c S Ω ρ μ β ε (R.gamma (h + (m + 1))) (R.growth (h + (m + 1)) * ((q + 1) * ε)))
    (hS : R.AmpleAnySolve n h₁ q₁ h₂ q₂ r c Ω μ β s B Y Z X)
    (hb : ∀ i < n, R.fin (b i) ∧ |R.v (b i)| ≤ B) (hx : SolveWith Quot P n h₁ q₁ h₂ q₂ L D b x) :
    (∀ i < n, R.fin (x i) ∧ |R.v (x i)| ≤ X) ∧
    (∀ i < n, |R.v (b i) - ∑ j ∈ range n, R.v (A i j) * R.v (x j)| ≤ R.anyResidual m n h q h₁ q₁ h₂ q₂ r c μ β ε X) ∧
    ∀ z : Nat → F, (∀ i < n, ∑ j ∈ range n, R.v (A i j) * z j = R.v (b i)) →
      (2 * μ) ^ 2 * ∑ i ∈ range n, (R.v (x i) - z i) ^ 2 ≤ n * R.anyResidual m n h q h₁ q₁ h₂ q₂ r c μ β ε X ^ 2 := by
  have h1 := H.solved hS hb hx
  have hγ0 := R.gamma_nonneg (h + (m + 1))
  have hN := H.near
  obtain ⟨-, -, h3, -⟩ := hN.quasidefinite H.lower H.zero_v (fun i j => by rw [H.symm]) hγ0 H.e_nonneg.1 H.col H.row H.gamma
    H.pos (fun _ _ _ => rfl) H.qd H.rows H.bound H.accuracy
  have h2 := quasi_residual R H.lower H.zero
    (fun j hj => H.divides _ (H.all_rows j hj).fin (H.all_rows j hj).pos (H.all_rows j hj).le)
    (fun _ _ _ _ => H.stored _) H.sub hγ0 H.e_nonneg.1 (fun i hi j hj => hN.exact (fun _ _ => rfl) hi hj) h3 hx h1
  refine ⟨h1, h2, fun z hz => ?_⟩
  have hμ := H.pos
  have := (H.qd.signed fun i _ j _ => by rw [H.symm]).error (rowSign_abs S) (by linarith)
    (b := fun i => R.v (b i)) (x := fun i => R.v (x i)) (z := z)
    (fun i hi => h2 i (mem_range.mp hi)) (fun i hi => hz i (mem_range.mp hi))
  rwa [card_range] at this

/-- C95: let a system with a matrix which is quasidefinite by a margin be factorized and solved with sums in any order and with any
of the divisions replaced by products with reciprocals. If precision and range suffice, then the solution is finite and bounded,
its residual is small, and it is close to the exact solution, all in terms of the given matrix and right-hand side. -/
theorem C95_quasidefinite (R : RoundingAdd K F) (one : K) (P : Nat → Nat → Prop)
    (n h q h₁ q₁ h₂ q₂ r c : Nat) (A L : Nat → Nat → K) (D b x : Nat → K) (reg : K → Nat → K) (Ω ρ μ β ε s B Y Z X : F)
    (hr : FormulasWith (QuotientOrReciprocal one) P n h q A L D reg)
    (hx : SolveWith (QuotientOrReciprocal one) P n h₁ q₁ h₂ q₂ L D b x) (hP : ∀ i j, P i j → j < i)
    (hfill : ∀ i j k, P i k → P j k → j < i → P i j) (hA : ∀ i j, A i j = A j i)
    (hA0 : ∀ i j, j < i → ¬ P i j → A i j = 0) (hL0 : ∀ i j, ¬ P i j → L i j = 0)
    (hfin : ∀ i < n, ∀ j < n, R.fin (A i j)) (hb : ∀ i < n, R.fin (b i) ∧ |R.v (b i)| ≤ B)
    (hR : R.AmpleAny 3 n h q r c Ω ρ μ β ε) (hS : R.AmpleAnySolve n h₁ q₁ h₂ q₂ r c Ω μ β s B Y Z X)
    (hone : R.fin one ∧ R.v one = 1) (hΩ : 1 ≤ μ * Ω)
    (hrec : ∀ d, R.fin d → |R.v d| ≤ β → R.AccurateReciprocal one d)
    (hc : ∀ j < n, (columnEntriesOf P n j).length < c) (hrow : ∀ i < n, (rowEntriesOf P i).length ≤ r)
    (hreg : ∀ x i, R.fin x → μ < |R.v x| → reg x i = x)
    (S : Nat → Prop) (hq : QuasiDef (range n) S (2 * μ) fun i j => R.v (A i j))
    (hρ : ∀ i < n, ∑ j ∈ range n, |R.v (A i j)| ≤ ρ) :
    (∀ i < n, R.fin (x i) ∧ |R.v (x i)| ≤ X) ∧
    (∀ i < n, |R.v (b i) - ∑ j ∈ range n, R.v (A i j) * R.v (x j)| ≤ R.anyResidual 2 n h q h₁ q₁ h₂ q₂ r c μ β ε X) ∧
    ∀ z : Nat → F, (∀ i < n, ∑ j ∈ range n, R.v (A i j) * z j = R.v (b i)) →
      (2 * μ) ^ 2 * ∑ i ∈ range n, (R.v (x i) - z i) ^ 2 ≤ n * R.anyResidual 2 n h q h₁ q₁ h₂ q₂ r c μ β ε X ^ 2 := by
  obtain ⟨w, H⟩ := hr.anyQuasi (m := 2) (by decide) hP hfill hA hA0 hL0 hfin hR
    (fun d hd _ hβ => divides_recip hR.stored hd (hrec d hd hβ)) (fin_recip hR hone hΩ hrec) hc hrow hreg hq hρ
  exact solved_any R H hS hb hx

/-- C95: the same with divisions, with one rounding error less. -/
theorem C95_divisions (R : RoundingAdd K F) (P : Nat → Nat → Prop)
    (n h q h₁ q₁ h₂ q₂ r c : Nat) (A L : Nat → Nat → K) (D b x : Nat → K) (reg : K → Nat → K) (Ω ρ μ β ε s B Y Z X : F)
    (hr : ReorderedFormulas P n h q A L D reg) (hx : ReorderedSolve P n h₁ q₁ h₂ q₂ L D b x) (hP : ∀ i j, P i j → j < i)
    (hfill : ∀ i j k, P i k → P j k → j < i → P i j) (hA : ∀ i j, A i j = A j i)
    (hA0 : ∀ i j, j < i → ¬ P i j → A i j = 0) (hL0 : ∀ i j, ¬ P i j → L i j = 0)
    (hfin : ∀ i < n, ∀ j < n, R.fin (A i j)) (hb : ∀ i < n, R.fin (b i) ∧ |R.v (b i)| ≤ B)
    (hR : R.AmpleAny 2 n h q r c Ω ρ μ β ε) (hS : R.AmpleAnySolve n h₁ q₁ h₂ q₂ r c Ω μ β s B Y Z X)
    (hc : ∀ j < n, (columnEntriesOf P n j).length < c) (hrow : ∀ i < n, (rowEntriesOf P i).length ≤ r)
    (hreg : ∀ x i, R.fin x → μ < |R.v x| → reg x i = x)
    (S : Nat → Prop) (hq : QuasiDef (range n) S (2 * μ) fun i j => R.v (A i j))
    (hρ : ∀ i < n, ∑ j ∈ range n, |R.v (A i j)| ≤ ρ) :
    (∀ i < n, R.fin (x i) ∧ |R.v (x i)| ≤ X) ∧
    (∀ i < n, |R.v (b i) - ∑ j ∈ range n, R.v (A i j) * R.v (x j)| ≤ R.anyResidual 1 n h q h₁ q₁ h₂ q₂ r c μ β ε X) ∧
    ∀ z : Nat → F, (∀ i < n, ∑ j ∈ range n, R.v (A i j) * z j = R.v (b i)) →
      (2 * μ) ^ 2 * ∑ i ∈ range n, (R.v (x i) - z i) ^ 2 ≤ n * R.anyResidual 1 n h q h₁ q₁ h₂ q₂ r c μ β ε X ^ 2 := by
  obtain ⟨w, H⟩ := hr.anyQuasi (m := 1) le_rfl hP hfill hA hA0 hL0 hfin hR
    (fun d hd _ _ => Rounding.divides_div hd) (fin_quotient hR) hc hrow hreg hq hρ
  exact solved_any R H hS hb hx

/-- C95: the range has to suffice for all orders. What is left of 2¹⁰²³ when 2¹⁰²³ is subtracted twice is finite in one order, and not
finite in another one. -/
theorem C95_order_overflow : ∃ a y z : Double, a.Finite ∧ a.toRat = 2 ^ (1023 : Int) ∧ LeftOver 2 2 a [0, 1] (fun _ => a) y ∧
    y.Finite ∧ y.toRat = -2 ^ (1023 : Int) ∧ LeftOver 2 2 a [0, 1] (fun _ => a) z ∧ ¬ z.Finite :=
  ⟨.ofRat .binary64 false (2 ^ (1023 : Int)), _, _, by decide +kernel, by decide +kernel,
    ⟨.sub (.sub (.term none) (.term (some 0))) (.term (some 1)), rfl, List.Perm.refl _, by decide, Or.inl (by decide), rfl⟩,
    by decide +kernel, by decide +kernel,
    ⟨.sub (.term none) (.add (.term (some 0)) (.term (some 1))), rfl, List.Perm.refl _, by decide, Or.inl (by decide), rfl⟩,
    by decide +kernel⟩

/-! ### Cases meeting the hypotheses -/

/-- A double precision number. -/
private def d (x : ℚ) : Double := .ofRat .binary64 false x

private theorem two {p : Nat → Prop} (h : ∀ i ∈ List.range 2, p i) : ∀ i < 2, p i := fun i hi => h i (List.mem_range.mpr hi)

private theorem thirds_ample_solve : (Binary.roundingAdd .binary64).AmpleAnySolve 2 1 1 1 1 1 2 (2 ^ (1023 : Int)) 1 3750 2 7
    120000 240001 (8 * 10 ^ 9) where
  nonneg := by decide
  root := by norm_num
  gamma_forward := by decide +kernel
  gamma_backward := by decide +kernel
  condition_forward := by decide +kernel
  condition_backward := by decide +kernel
  forward := by decide +kernel
  diagonal := by decide +kernel
  backward := by decide +kernel
  max_forward := by decide +kernel
  divide := by decide +kernel
  max_backward := by decide +kernel

private theorem thirds_finite : ∀ i < 2, ∀ j < 2, (thirdsA (d (-20)) i j).Finite := fun i hi j hj => by
  have : ∀ i ∈ List.range 2, ∀ j ∈ List.range 2, (thirdsA (d (-20)) i j).Finite := by decide +kernel
  exact this i (List.mem_range.mpr hi) j (List.mem_range.mpr hj)

private theorem thirds_rhs : ∀ i < 2, (thirdsB i).Finite ∧ |(thirdsB i).toRat| ≤ 7 := two (by decide +kernel)

/-- The hypotheses are met by a quasidefinite system, without looking at its factors and its solution. -/
example (l : Double) (D x : Nat → Double)
    (hr : FormulasWith (QuotientOrReciprocal (d 1)) thirdsP 2 1 1 (thirdsA (d (-20))) (thirdsL l) D regularizationNone)
    (hx : SolveWith (QuotientOrReciprocal (d 1)) thirdsP 2 1 1 1 1 (thirdsL l) D thirdsB x) :
    ∀ i < 2, (x i).Finite ∧ |(x i).toRat| ≤ 8 * 10 ^ 9 :=
  (C95_quasidefinite (Binary.roundingAdd .binary64) (d 1) thirdsP 2 1 1 1 1 1 1 1 2 (thirdsA (d (-20))) (thirdsL l) D thirdsB x
    regularizationNone (2 ^ (1023 : Int)) 25 1 3750 (2 ^ (-1040 : Int)) 2 7 120000 240001 (8 * 10 ^ 9) hr hx thirds_lower
    thirds_fill (thirds_symm _) (thirds_zero _) (thirds_off _) thirds_finite thirds_rhs
    (thirds_ample (by decide +kernel) (by decide +kernel)) thirds_ample_solve
    (show (d 1).Finite ∧ (d 1).toRat = 1 by decide +kernel) (by decide +kernel)
    (fun d hd hβ => C92_reciprocal .binary64 _ _ (by decide +kernel) hd (hβ.trans (by decide +kernel)))
    thirds_col thirds_row (fun _ _ _ _ => rfl) (fun i => i = 0) thirds_quasi (two (by decide +kernel))).1

/-- There are such factors and such a solution. -/
example : FormulasWith (QuotientOrReciprocal (d 1)) thirdsP 2 1 1 (thirdsA (d (-20))) (thirdsL viaReciprocal)
      (thirdsD (d (-20)) viaReciprocal) regularizationNone ∧
    SolveWith (QuotientOrReciprocal (d 1)) thirdsP 2 1 1 1 1 (thirdsL viaReciprocal) (thirdsD (d (-20)) viaReciprocal) thirdsB
      (thirdsX (d (-20))) :=
  ⟨thirds_formulas _ _ _ (Or.inr (Or.inl rfl)), thirds_solve _⟩

/-- The same with divisions. -/
example (D x : Nat → Double) (l : Double)
    (hr : ReorderedFormulas thirdsP 2 1 1 (thirdsA (d (-20))) (thirdsL l) D regularizationNone)
    (hx : ReorderedSolve thirdsP 2 1 1 1 1 (thirdsL l) D thirdsB x) : ∀ i < 2, (x i).Finite ∧ |(x i).toRat| ≤ 8 * 10 ^ 9 :=
  (C95_divisions (Binary.roundingAdd .binary64) thirdsP 2 1 1 1 1 1 1 1 2 (thirdsA (d (-20))) (thirdsL l) D thirdsB x
    regularizationNone (2 ^ (1023 : Int)) 25 1 3750 (2 ^ (-1040 : Int)) 2 7 120000 240001 (8 * 10 ^ 9) hr hx thirds_lower
    thirds_fill (thirds_symm _) (thirds_zero _) (thirds_off _) thirds_finite thirds_rhs
    (thirds_ample (by decide +kernel) (by decide +kernel)) thirds_ample_solve
    thirds_col thirds_row (fun _ _ _ _ => rfl) (fun i => i = 0) thirds_quasi (two (by decide +kernel))).1

end Ctldl
