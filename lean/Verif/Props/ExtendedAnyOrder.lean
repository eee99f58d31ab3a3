import Verif.Lemmas.ExtendedAdd
import Verif.Props.AnyOrderSolve
import Verif.Props.Extended

/-! # C96: quasidefinite systems with sums in any order, reciprocals and extended precision -/

namespace Ctldl

open Finset

/-- C96: let a system with a matrix which is quasidefinite by a margin be factorized and solved with sums in any order, with any
of the divisions replaced by products with reciprocals, and with any intermediate results kept with extended precision. If precision
and range of the type suffice, then pivots, factor and solution are finite and bounded, the pivots have the right signs, the residual
of the solution is small, and the solution is close to the exact one. -/
theorem C96_quasidefinite (fmt ext : Format) (hw : fmt.Wider ext) (hp : 2 ≤ fmt.precision) (C : Excess)
    (one : Extended fmt ext C) (P : Nat → Nat → Prop) (n h q h₁ q₁ h₂ q₂ r c : Nat) (A L : Nat → Nat → Extended fmt ext C)
    (D b x : Nat → Extended fmt ext C) (reg : Extended fmt ext C → Nat → Extended fmt ext C) (Ω ρ μ β ε s B Y Z X : ℚ)
    (hr : FormulasWith (QuotientOrReciprocal one) P n h q A L D reg)
    (hx : SolveWith (QuotientOrReciprocal one) P n h₁ q₁ h₂ q₂ L D b x) (hP : ∀ i j, P i j → j < i)
    (hfill : ∀ i j k, P i k → P j k → j < i → P i j) (hA : ∀ i j, A i j = A j i)
    (hA0 : ∀ i j, j < i → ¬ P i j → A i j = 0) (hL0 : ∀ i j, ¬ P i j → L i j = 0)
    (hfin : ∀ i < n, ∀ j < n, (A i j).Finite) (hb : ∀ i < n, (b i).Finite ∧ |(b i).toRat| ≤ B)
    (hR : (Extended.roundingAdd fmt ext C hw hp).AmpleAny 3 n h q r c Ω ρ μ β ε)
    (hS : (Extended.roundingAdd fmt ext C hw hp).AmpleAnySolve n h₁ q₁ h₂ q₂ r c Ω μ β s B Y Z X)
    (hone : one.Finite ∧ one.toRat = 1) (hΩ : 1 ≤ μ * Ω)
    (hβ : β ≤ 2 ^ (1 - fmt.minExp - fmt.precision)) (hβ' : β ≤ 2 ^ (1 - ext.minExp - ext.precision))
    (hc : ∀ j < n, (columnEntriesOf P n j).length < c) (hrow : ∀ i < n, (rowEntriesOf P i).length ≤ r)
    (hreg : ∀ x i, x.Finite → μ < |x.toRat| → reg x i = x)
    (S : Nat → Prop) (hq : QuasiDef (range n) S (2 * μ) fun i j => (A i j).toRat)
    (hρ : ∀ i < n, ∑ j ∈ range n, |(A i j).toRat| ≤ ρ) :
    (∀ i < n, (D i).Finite ∧ (S i → μ < (D i).toRat) ∧ (¬ S i → (D i).toRat < -μ) ∧ |(D i).toRat| ≤ β) ∧
    (∀ i < n, ∀ j, P i j → (L i j).Finite ∧ |(L i j).toRat| ≤ β / μ) ∧
    (∀ i < n, (x i).Finite ∧ |(x i).toRat| ≤ X) ∧
    (∀ i < n, |(b i).toRat - ∑ j ∈ range n, (A i j).toRat * (x j).toRat| ≤
      (Extended.roundingAdd fmt ext C hw hp).anyResidual 2 n h q h₁ q₁ h₂ q₂ r c μ β ε X) ∧
    ∀ z : Nat → ℚ, (∀ i < n, ∑ j ∈ range n, (A i j).toRat * z j = (b i).toRat) →
      (2 * μ) ^ 2 * ∑ i ∈ range n, ((x i).toRat - z i) ^ 2 ≤
        n * (Extended.roundingAdd fmt ext C hw hp).anyResidual 2 n h q h₁ q₁ h₂ q₂ r c μ β ε X ^ 2 := by
  have hrec : ∀ d : Extended fmt ext C, d.Finite → |d.toRat| ≤ β → (Extended.roundingAdd fmt ext C hw hp).AccurateReciprocal one d :=
    fun d hd h => Extended.accurateReciprocal hw hp hone.2 hd (h.trans hβ) (h.trans hβ')
  have h1 := C94_quasidefinite (Extended.roundingAdd fmt ext C hw hp) one P n h q r c A L D reg Ω ρ μ β ε hr hP hfill hA hA0 hL0 hfin
    hR hone hΩ hrec hc hrow hreg S hq hρ
  exact ⟨h1.1, h1.2.1, C95_quasidefinite (Extended.roundingAdd fmt ext C hw hp) one P n h q h₁ q₁ h₂ q₂ r c A L D b x reg Ω ρ μ β ε s
    B Y Z X hr hx hP hfill hA hA0 hL0 hfin hb hR hS hone hΩ hrec hc hrow hreg S hq hρ⟩

/-! ### A case meeting the hypotheses: doubles evaluated with the precision and range of the x87 processor -/

private theorem two {p : Nat → Prop} (h : ∀ i ∈ List.range 2, p i) : ∀ i < 2, p i := fun i hi => h i (List.mem_range.mpr hi)

/-- Witness: a matrix with two rows. -/
def keptA (i j : Nat) : Kept := if i = j then if i = 0 then kept 3 else kept (-20) else if max i j = 1 then kept 5 else 0

/-- Witness: the entry of the factor, the number 5 times the reciprocal of 3. -/
def keptEntry : Kept := kept 5 * (kept 1 / kept 3)

/-- Witness: the factor. -/
def keptL (i j : Nat) : Kept := if thirdsP i j then keptEntry else 0

/-- Witness: the pivots. -/
def keptD (i : Nat) : Kept := if i = 0 then kept 3 else kept (-20) - keptEntry * kept 5

/-- Witness: a right-hand side. -/
def keptB (i : Nat) : Kept := if i = 0 then kept 7 else kept 1

/-- Witness: the right-hand side after forward substitution. -/
def keptY (i : Nat) : Kept := if i = 0 then kept 7 else kept 1 - keptEntry * kept 7

/-- Witness: the solution, which is computed with sums beginning with a negative number. -/
def keptX (i : Nat) : Kept :=
  if i = 0 then (0 - keptEntry * (keptY 1 / keptD 1)) + kept 7 * (kept 1 / kept 3) else keptY 1 / keptD 1

private theorem common_none (i j : Nat) (h : j ≠ 1) : commonEntriesOf thirdsP i j = [] := by
  unfold commonEntriesOf
  simp [thirdsP, h]

private theorem row_one : rowEntriesOf thirdsP 1 = [0] := by
  unfold rowEntriesOf
  simp [thirdsP]

theorem kept_formulas : FormulasWith (QuotientOrReciprocal (kept 1)) thirdsP 2 1 1 keptA keptL keptD regularizationNone := by
  intro i hi
  refine ⟨fun j => if i = 0 then kept 3 else if j = 0 then kept 5 else kept (-20) - keptEntry * kept 5, ?_, ?_, ?_⟩
  · intro j hj
    by_cases h1 : j = 1
    · subst h1
      obtain rfl : i = 1 := hj.elim (fun h => absurd h.2 (by decide)) Eq.symm
      refine ⟨fun _ => keptEntry * kept 5, fun k hk _ => Or.inl ?_, ?_⟩
      · obtain ⟨-, rfl⟩ := hk
        rfl
      · rw [common_self, row_one]
        exact leftOver_inOrder (a := kept (-20)) (ks := [0]) (f := fun _ => keptEntry * kept 5) (h := 1) (by decide)
    · refine ⟨fun _ => 0, fun k _ hk => absurd hk.1 h1, ?_⟩
      rw [common_none i j h1]
      have h3 : LeftOver 1 1 (keptA i j) [] (fun _ => 0) (keptA i j) := leftOver_inOrder (ks := []) (Nat.zero_le _)
      rcases hj with ⟨rfl, rfl⟩ | rfl
      · exact h3
      · obtain rfl : j = 0 := by omega
        exact h3
  · rintro j ⟨rfl, rfl⟩
    exact Or.inr (Or.inl rfl)
  · unfold keptD regularizationNone
    by_cases h3 : i = 0
    · simp only [if_pos h3]
    · simp only [if_neg h3]

theorem kept_solve : SolveWith (QuotientOrReciprocal (kept 1)) thirdsP 2 1 1 2 2 keptL keptD keptB keptX := by
  have two : ∀ {p : Nat → Prop}, p 0 → p 1 → ∀ i < 2, p i := fun h0 h1 i hi => by
    obtain rfl | rfl : i = 0 ∨ i = 1 := by omega
    · exact h0
    · exact h1
  have r0 : rowEntriesOf thirdsP 0 = [] := by rw [← common_self, common_none 0 0 (by decide)]
  have c0 : columnEntriesOf thirdsP 2 0 = [1] := by simp [columnEntriesOf, thirdsP, List.range_succ]
  have c1 : columnEntriesOf thirdsP 2 1 = [] := by simp [columnEntriesOf, thirdsP]
  refine ⟨keptY, fun i => if i = 0 then kept 7 * (kept 1 / kept 3) else keptY 1 / keptD 1, two ?_ ?_,
    two (Or.inr (Or.inl rfl)) (Or.inl rfl), two ?_ ?_⟩
  · rw [r0]
    exact leftOver_inOrder (a := kept 7) (ks := []) (Nat.zero_le _)
  · rw [row_one]
    exact leftOver_inOrder (a := kept 1) (ks := [0]) (f := fun j => keptL 1 j * keptY j) (h := 1) (by decide)
  · rw [c0]
    exact ⟨.add (.sub .zero (.term (some 1))) (.term none), rfl, List.Perm.refl _, by decide, Or.inl (by decide), rfl⟩
  · rw [c1]
    exact leftOver_inOrder (a := keptY 1 / keptD 1) (ks := []) (Nat.zero_le _)

/-- Witness: the arithmetic. -/
abbrev keptAdd : RoundingAdd Kept ℚ := Extended.roundingAdd .binary64 .x87 someKept Format.double_x87 (by decide)

private theorem kept_ample : keptAdd.AmpleAny 3 2 1 1 1 2 (2 ^ (1023 : Int)) 25 1 3750 (2 ^ (-1040 : Int)) where
  range := Extended.rangeAdd (fmt := .binary64) (ext := .x87) Format.double_x87 (by decide) (by decide)
  stored _ := trivial
  pos := by decide
  bound := by norm_num
  unit := by decide +kernel
  sub := by decide +kernel
  small := by decide +kernel
  gamma := by decide +kernel
  accuracy := by decide +kernel
  max := by decide +kernel
  max_sum := by decide +kernel
  max_div := by decide +kernel

private theorem kept_ample_solve : keptAdd.AmpleAnySolve 2 1 1 2 2 1 2 (2 ^ (1023 : Int)) 1 3750 2 7 120000 240001
    (8 * 10 ^ 9) where
  nonneg := by decide
  root := by norm_num
  gamma_forward := by decide +kernel
  gamma_backward := by decide +kernel
  condition_forward := by decide +kernel
  condition_backward := by decide +kernel
  forward := by decide +kernel
  diagonal := by decide +kernel
  backward := by decide +kernel
  max_forward := by decide +kernel
  divide := by decide +kernel
  max_backward := by decide +kernel

private theorem kept_quasi : QuasiDef (range 2) (fun i => i = 0) (2 * 1) fun i j => (keptA i j).toRat := by
  have e : ∀ i j, (keptA i j).toRat = (thirdsA (.ofRat .binary64 false (-20)) i j).toRat := fun i j => by
    unfold keptA thirdsA
    split
    · split
      · decide +kernel
      · decide +kernel
    · split
      · decide +kernel
      · decide +kernel
  simp only [e]
  exact thirds_quasi

/-- The hypotheses are met by a system which is solved with reciprocals, with extended precision, and with the sums of the backward
substitution in another order. -/
example : (keptD 1).Finite ∧ (keptD 1).toRat < -1 ∧ ∀ i < 2, (keptX i).Finite ∧ |(keptX i).toRat| ≤ 8 * 10 ^ 9 := by
  have h := C96_quasidefinite .binary64 .x87 Format.double_x87 (by decide) someKept (kept 1) thirdsP 2 1 1 1 1 2 2 1 2 keptA keptL
    keptD keptB keptX regularizationNone (2 ^ (1023 : Int)) 25 1 3750 (2 ^ (-1040 : Int)) 2 7 120000 240001 (8 * 10 ^ 9)
    kept_formulas kept_solve thirds_lower thirds_fill
    (fun i j => by
      unfold keptA
      by_cases h : i = j
      · subst h
        rfl
      · rw [if_neg h, if_neg (Ne.symm h), max_comm])
    (fun i j hji hn => by
      unfold keptA
      rw [if_neg (by omega), if_neg fun hm => hn ⟨by omega, by omega⟩])
    (fun i j hn => if_neg hn)
    (fun i hi j hj => by
      have : ∀ i ∈ List.range 2, ∀ j ∈ List.range 2, (keptA i j).Finite := by decide +kernel
      exact this i (List.mem_range.mpr hi) j (List.mem_range.mpr hj))
    (two (by decide +kernel)) kept_ample kept_ample_solve (by decide +kernel) (by decide +kernel) (by decide +kernel)
    (by decide +kernel) thirds_col thirds_row (fun _ _ _ _ => rfl) (fun i => i = 0) kept_quasi (two (by decide +kernel))
  exact ⟨(h.1 1 (by decide)).1, (h.1 1 (by decide)).2.2.1 (by decide), h.2.2.1⟩

end Ctldl
