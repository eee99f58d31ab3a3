import Verif.Lemmas.EnvironmentAdd
import Verif.Lemmas.EnvironmentLift
import Verif.Props.AnyOrderSolve
import Verif.Props.Environment

/-! # C97: quasidefinite systems with sums in any order and with reciprocals, in all floating point environments

The options which allow compilers to change the order of sums (`-ffast-math`) also let the processor replace subnormal numbers by
zero. -/

namespace Ctldl

open Finset

/-- C97, for numbers with the information whether a result which contributed to them was too large: with the assumptions of
`C97_quasidefinite`, no operation overflows, so that no direction replaces a result which is too large by a finite number. -/
theorem C97_overflow (fmt : Format) (hp : 2 ≤ fmt.precision) (e : Environment)
    (one : Flagged fmt e) (P : Nat → Nat → Prop) (n h q h₁ q₁ h₂ q₂ r c : Nat) (A L : Nat → Nat → Flagged fmt e)
    (D b x : Nat → Flagged fmt e) (reg : Flagged fmt e → Nat → Flagged fmt e) (Ω ρ μ β ε s B Y Z X : ℚ)
    (hr : FormulasWith (QuotientOrReciprocal one) P n h q A L D reg)
    (hx : SolveWith (QuotientOrReciprocal one) P n h₁ q₁ h₂ q₂ L D b x) (hP : ∀ i j, P i j → j < i)
    (hfill : ∀ i j k, P i k → P j k → j < i → P i j) (hA : ∀ i j, A i j = A j i)
    (hA0 : ∀ i j, j < i → ¬ P i j → A i j = 0) (hL0 : ∀ i j, ¬ P i j → L i j = 0)
    (hfin : ∀ i < n, ∀ j < n, (A i j).Finite) (hb : ∀ i < n, (b i).Finite ∧ |(b i).toRat| ≤ B)
    (hR : (Flagged.roundingAdd fmt e hp).AmpleAny 3 n h q r c Ω ρ μ β ε)
    (hS : (Flagged.roundingAdd fmt e hp).AmpleAnySolve n h₁ q₁ h₂ q₂ r c Ω μ β s B Y Z X)
    (hone : one.Finite ∧ one.toRat = 1) (hΩ : 1 ≤ μ * Ω)
    (hβ : β * fmt.smallestNormal ≤ 1)
    (hc : ∀ j < n, (columnEntriesOf P n j).length < c) (hrow : ∀ i < n, (rowEntriesOf P i).length ≤ r)
    (hreg : ∀ x i, x.Finite → μ < |x.toRat| → reg x i = x)
    (S : Nat → Prop) (hq : QuasiDef (range n) S (2 * μ) fun i j => (A i j).toRat)
    (hρ : ∀ i < n, ∑ j ∈ range n, |(A i j).toRat| ≤ ρ) :
    (∀ i < n, (D i).Finite ∧ (S i → μ < (D i).toRat) ∧ (¬ S i → (D i).toRat < -μ) ∧ |(D i).toRat| ≤ β) ∧
    (∀ i < n, ∀ j, P i j → (L i j).Finite ∧ |(L i j).toRat| ≤ β / μ) ∧
    (∀ i < n, (x i).Finite ∧ |(x i).toRat| ≤ X) ∧
    (∀ i < n, |(b i).toRat - ∑ j ∈ range n, (A i j).toRat * (x j).toRat| ≤
      (Flagged.roundingAdd fmt e hp).anyResidual 2 n h q h₁ q₁ h₂ q₂ r c μ β ε X) ∧
    ∀ z : Nat → ℚ, (∀ i < n, ∑ j ∈ range n, (A i j).toRat * z j = (b i).toRat) →
      (2 * μ) ^ 2 * ∑ i ∈ range n, ((x i).toRat - z i) ^ 2 ≤
        n * (Flagged.roundingAdd fmt e hp).anyResidual 2 n h q h₁ q₁ h₂ q₂ r c μ β ε X ^ 2 := by
  have hrec : ∀ d : Flagged fmt e, d.Finite → |d.toRat| ≤ β → (Flagged.roundingAdd fmt e hp).AccurateReciprocal one d :=
    fun d hd h => Flagged.accurateReciprocal hp hone.2 hd ((mul_le_mul_of_nonneg_right h (two_zpow_pos _).le).trans hβ)
  have h1 := C94_quasidefinite (Flagged.roundingAdd fmt e hp) one P n h q r c A L D reg Ω ρ μ β ε hr hP hfill hA hA0 hL0 hfin
    hR hone hΩ hrec hc hrow hreg S hq hρ
  exact ⟨h1.1, h1.2.1, C95_quasidefinite (Flagged.roundingAdd fmt e hp) one P n h q h₁ q₁ h₂ q₂ r c A L D b x reg Ω ρ μ β ε s
    B Y Z X hr hx hP hfill hA hA0 hL0 hfin hb hR hS hone hΩ hrec hc hrow hreg S hq hρ⟩

/-- C97: let a system with a matrix which is quasidefinite by a margin be factorized and solved with sums in any order and with any
of the divisions replaced by products with reciprocals, in any floating point environment: with any rounding direction, and with or
without subnormal numbers replaced by zero. If precision and range of the type suffice, then pivots, factor and solution are
finite and bounded, the pivots have the right signs, the residual of the solution is small, and the solution is close to the
exact one. -/
theorem C97_quasidefinite (fmt : Format) (hp : 2 ≤ fmt.precision) (e : Environment)
    (one : Directed fmt e) (P : Nat → Nat → Prop) (n h q h₁ q₁ h₂ q₂ r c : Nat) (A L : Nat → Nat → Directed fmt e)
    (D b x : Nat → Directed fmt e) (reg : Directed fmt e → Nat → Directed fmt e) (Ω ρ μ β ε s B Y Z X : ℚ)
    (hr : FormulasWith (QuotientOrReciprocal one) P n h q A L D reg)
    (hx : SolveWith (QuotientOrReciprocal one) P n h₁ q₁ h₂ q₂ L D b x) (hP : ∀ i j, P i j → j < i)
    (hfill : ∀ i j k, P i k → P j k → j < i → P i j) (hA : ∀ i j, A i j = A j i)
    (hA0 : ∀ i j, j < i → ¬ P i j → A i j = 0) (hL0 : ∀ i j, ¬ P i j → L i j = 0)
    (hfin : ∀ i < n, ∀ j < n, (A i j).value.Finite) (hb : ∀ i < n, (b i).value.Finite ∧ |(b i).toRat| ≤ B)
    (hR : (Flagged.roundingAdd fmt e hp).AmpleAny 3 n h q r c Ω ρ μ β ε)
    (hS : (Flagged.roundingAdd fmt e hp).AmpleAnySolve n h₁ q₁ h₂ q₂ r c Ω μ β s B Y Z X)
    (hone : one.value.Finite ∧ one.toRat = 1) (hΩ : 1 ≤ μ * Ω)
    (hβ : β * fmt.smallestNormal ≤ 1)
    (hc : ∀ j < n, (columnEntriesOf P n j).length < c) (hrow : ∀ i < n, (rowEntriesOf P i).length ≤ r)
    (hreg : ∀ x i, x.value.Finite → μ < |x.toRat| → reg x i = x)
    (S : Nat → Prop) (hq : QuasiDef (range n) S (2 * μ) fun i j => (A i j).toRat)
    (hρ : ∀ i < n, ∑ j ∈ range n, |(A i j).toRat| ≤ ρ) :
    (∀ i < n, (D i).value.Finite ∧ (S i → μ < (D i).toRat) ∧ (¬ S i → (D i).toRat < -μ) ∧ |(D i).toRat| ≤ β) ∧
    (∀ i < n, ∀ j, P i j → (L i j).value.Finite ∧ |(L i j).toRat| ≤ β / μ) ∧
    (∀ i < n, (x i).value.Finite ∧ |(x i).toRat| ≤ X) ∧
    (∀ i < n, |(b i).toRat - ∑ j ∈ range n, (A i j).toRat * (x j).toRat| ≤
      (Flagged.roundingAdd fmt e hp).anyResidual 2 n h q h₁ q₁ h₂ q₂ r c μ β ε X) ∧
    ∀ z : Nat → ℚ, (∀ i < n, ∑ j ∈ range n, (A i j).toRat * z j = (b i).toRat) →
      (2 * μ) ^ 2 * ∑ i ∈ range n, ((x i).toRat - z i) ^ 2 ≤
        n * (Flagged.roundingAdd fmt e hp).anyResidual 2 n h q h₁ q₁ h₂ q₂ r c μ β ε X ^ 2 := by
  obtain ⟨L', D', hL, hD, hL', hr'⟩ := Flagged.lift_formulas hP hL0 hr
  obtain ⟨x', hx', hs'⟩ := Flagged.lift_solve hP hL hD hx
  have eD : ∀ i < n, (D' i).toRat = (D i).toRat := fun i hi => congrArg Directed.toRat (hD i hi)
  have eL : ∀ i j, (L' i j).toRat = (L i j).toRat := fun i j => congrArg Directed.toRat (hL i j)
  have ex : ∀ i, (x' i).toRat = (x i).toRat := fun i => congrArg Directed.toRat (hx' i)
  obtain ⟨h1, h2, h3, h4, h5⟩ := C97_overflow fmt hp e (.given one) P n h q h₁ q₁ h₂ q₂ r c (fun i j => .given (A i j)) L' D'
    (fun i => .given (b i)) x' (Flagged.lift reg) Ω ρ μ β ε s B Y Z X hr' hs' hP hfill (fun i j => congrArg _ (hA i j))
    (fun i j hji hn => congrArg _ (hA0 i j hji hn)) hL' (fun i hi j hj => ⟨hfin i hi j hj, rfl⟩)
    (fun i hi => ⟨⟨(hb i hi).1, rfl⟩, (hb i hi).2⟩) hR hS ⟨⟨hone.1, rfl⟩, hone.2⟩ hΩ hβ hc hrow
    (fun a i h1 h2 => by
      have h3 := hreg a.value i h1.1 h2
      rw [Flagged.lift, h3])
    S hq hρ
  simp only [ex] at h3 h4 h5
  refine ⟨fun i hi => ?_, fun i hi j hj => ?_, fun i hi => ⟨?_, (h3 i hi).2⟩, h4, h5⟩
  · have h6 := h1 i hi
    rw [eD i hi] at h6
    exact ⟨hD i hi ▸ h6.1.1, h6.2⟩
  · have h6 := h2 i hi j hj
    rw [eL] at h6
    exact ⟨hL i j ▸ h6.1.1, h6.2⟩
  · exact hx' i ▸ (h3 i hi).1.1

/-- C97: pivots have to be so small that their reciprocals are not subnormal (`hβ`). Otherwise, if subnormal numbers are replaced
by zero, the quotient of two numbers may be one and the product with the reciprocal zero. -/
theorem C97_reciprocal_flushed : ∃ one a d : Directed .binary64 ⟨.nearest, true⟩, one.toRat = 1 ∧ a.value.Finite ∧ d.value.Finite ∧
    (a / d).toRat = 1 ∧ (a * (one / d)).toRat = 0 ∧ ∀ y, y = a / d ∨ y = a * (one / d) → QuotientOrReciprocal one a d y :=
  ⟨⟨.ofRat .binary64 false 1⟩, ⟨.ofRat .binary64 false (2 ^ 1023)⟩, ⟨.ofRat .binary64 false (2 ^ 1023)⟩, by decide +kernel,
    by decide +kernel, by decide +kernel, by decide +kernel, by decide +kernel, fun _ h => h.imp id Or.inl⟩

/-! ### A case meeting the hypotheses: doubles, rounded upwards, with subnormal numbers flushed to zero -/

private theorem two {p : Nat → Prop} (h : ∀ i ∈ List.range 2, p i) : ∀ i < 2, p i := fun i hi => h i (List.mem_range.mpr hi)

/-- Doubles in this environment. -/
abbrev Upward := Directed .binary64 upwards

/-- A double. -/
def upward (x : ℚ) : Upward := ⟨.ofRat .binary64 false x⟩

/-- Witness: a matrix with two rows. -/
def upwardA (i j : Nat) : Upward := if i = j then if i = 0 then upward 3 else upward (-20) else if max i j = 1 then upward 5 else 0

/-- Witness: the entry of the factor, the number 5 times the reciprocal of 3. -/
def upwardEntry : Upward := upward 5 * (upward 1 / upward 3)

/-- Witness: the factor. -/
def upwardL (i j : Nat) : Upward := if thirdsP i j then upwardEntry else 0

/-- Witness: the pivots. -/
def upwardD (i : Nat) : Upward := if i = 0 then upward 3 else upward (-20) - upwardEntry * upward 5

/-- Witness: a right-hand side. -/
def upwardB (i : Nat) : Upward := if i = 0 then upward 7 else upward 1

/-- Witness: the right-hand side after forward substitution. -/
def upwardY (i : Nat) : Upward := if i = 0 then upward 7 else upward 1 - upwardEntry * upward 7

/-- Witness: the solution, which is computed with sums beginning with a negative number. -/
def upwardX (i : Nat) : Upward :=
  if i = 0 then (0 - upwardEntry * (upwardY 1 / upwardD 1)) + upward 7 * (upward 1 / upward 3) else upwardY 1 / upwardD 1

private theorem common_none (i j : Nat) (h : j ≠ 1) : commonEntriesOf thirdsP i j = [] := by
  unfold commonEntriesOf
  simp [thirdsP, h]

private theorem row_one : rowEntriesOf thirdsP 1 = [0] := by
  unfold rowEntriesOf
  simp [thirdsP]

theorem upward_formulas : FormulasWith (QuotientOrReciprocal (upward 1)) thirdsP 2 1 1 upwardA upwardL upwardD regularizationNone := by
  intro i hi
  refine ⟨fun j => if i = 0 then upward 3 else if j = 0 then upward 5 else upward (-20) - upwardEntry * upward 5, ?_, ?_, ?_⟩
  · intro j hj
    by_cases h1 : j = 1
    · subst h1
      obtain rfl : i = 1 := hj.elim (fun h => absurd h.2 (by decide)) Eq.symm
      refine ⟨fun _ => upwardEntry * upward 5, fun k hk _ => Or.inl ?_, ?_⟩
      · obtain ⟨-, rfl⟩ := hk
        rfl
      · rw [common_self, row_one]
        exact leftOver_inOrder (a := upward (-20)) (ks := [0]) (f := fun _ => upwardEntry * upward 5) (h := 1) (by decide)
    · refine ⟨fun _ => 0, fun k _ hk => absurd hk.1 h1, ?_⟩
      rw [common_none i j h1]
      have h3 : LeftOver 1 1 (upwardA i j) [] (fun _ => 0) (upwardA i j) := leftOver_inOrder (ks := []) (Nat.zero_le _)
      rcases hj with ⟨rfl, rfl⟩ | rfl
      · exact h3
      · obtain rfl : j = 0 := by omega
        exact h3
  · rintro j ⟨rfl, rfl⟩
    exact Or.inr (Or.inl rfl)
  · unfold upwardD regularizationNone
    by_cases h3 : i = 0
    · simp only [if_pos h3]
    · simp only [if_neg h3]

theorem upward_solve : SolveWith (QuotientOrReciprocal (upward 1)) thirdsP 2 1 1 2 2 upwardL upwardD upwardB upwardX := by
  have two : ∀ {p : Nat → Prop}, p 0 → p 1 → ∀ i < 2, p i := fun h0 h1 i hi => by
    obtain rfl | rfl : i = 0 ∨ i = 1 := by omega
    · exact h0
    · exact h1
  have r0 : rowEntriesOf thirdsP 0 = [] := by rw [← common_self, common_none 0 0 (by decide)]
  have c0 : columnEntriesOf thirdsP 2 0 = [1] := by simp [columnEntriesOf, thirdsP, List.range_succ]
  have c1 : columnEntriesOf thirdsP 2 1 = [] := by simp [columnEntriesOf, thirdsP]
  refine ⟨upwardY, fun i => if i = 0 then upward 7 * (upward 1 / upward 3) else upwardY 1 / upwardD 1, two ?_ ?_,
    two (Or.inr (Or.inl rfl)) (Or.inl rfl), two ?_ ?_⟩
  · rw [r0]
    exact leftOver_inOrder (a := upward 7) (ks := []) (Nat.zero_le _)
  · rw [row_one]
    exact leftOver_inOrder (a := upward 1) (ks := [0]) (f := fun j => upwardL 1 j * upwardY j) (h := 1) (by decide)
  · rw [c0]
    exact ⟨.add (.sub .zero (.term (some 1))) (.term none), rfl, List.Perm.refl _, by decide, Or.inl (by decide), rfl⟩
  · rw [c1]
    exact leftOver_inOrder (a := upwardY 1 / upwardD 1) (ks := []) (Nat.zero_le _)

/-- Witness: the arithmetic. -/
abbrev upwardAdd : RoundingAdd (Flagged .binary64 upwards) ℚ := Flagged.roundingAdd .binary64 upwards (by decide)

private theorem upward_ample : upwardAdd.AmpleAny 3 2 1 1 1 2 (2 ^ (1023 : Int)) 25 1 3750 (2 ^ (-990 : Int)) where
  range := Flagged.rangeAdd (fmt := .binary64) (by decide) (by decide)
  stored _ := trivial
  pos := by decide
  bound := by norm_num
  unit := by decide +kernel
  sub := by decide +kernel
  small := by decide +kernel
  gamma := by decide +kernel
  accuracy := by decide +kernel
  max := by decide +kernel
  max_sum := by decide +kernel
  max_div := by decide +kernel

private theorem upward_ample_solve : upwardAdd.AmpleAnySolve 2 1 1 2 2 1 2 (2 ^ (1023 : Int)) 1 3750 2 7 120000 240001
    (8 * 10 ^ 9) where
  nonneg := by decide
  root := by norm_num
  gamma_forward := by decide +kernel
  gamma_backward := by decide +kernel
  condition_forward := by decide +kernel
  condition_backward := by decide +kernel
  forward := by decide +kernel
  diagonal := by decide +kernel
  backward := by decide +kernel
  max_forward := by decide +kernel
  divide := by decide +kernel
  max_backward := by decide +kernel

private theorem upward_quasi : QuasiDef (range 2) (fun i => i = 0) (2 * 1) fun i j => (upwardA i j).toRat := by
  have e : ∀ i j, (upwardA i j).toRat = (thirdsA (.ofRat .binary64 false (-20)) i j).toRat := fun i j => by
    unfold upwardA thirdsA
    split
    · split
      · decide +kernel
      · decide +kernel
    · split
      · decide +kernel
      · decide +kernel
  simp only [e]
  exact thirds_quasi

private theorem upward_symm (i j : Nat) : upwardA i j = upwardA j i := by
  unfold upwardA
  by_cases h : i = j
  · subst h
    rfl
  · rw [if_neg h, if_neg (Ne.symm h), max_comm]

private theorem upward_zero (i j : Nat) (hji : j < i) (hn : ¬ thirdsP i j) : upwardA i j = 0 := by
  unfold upwardA
  rw [if_neg (by omega), if_neg fun hm => hn ⟨by omega, by omega⟩]

private theorem upward_fin (i : Nat) (hi : i < 2) (j : Nat) (hj : j < 2) : (upwardA i j).value.Finite := by
  have : ∀ i ∈ List.range 2, ∀ j ∈ List.range 2, (upwardA i j).value.Finite := by decide +kernel
  exact this i (List.mem_range.mpr hi) j (List.mem_range.mpr hj)

private theorem upward_rhs : ∀ i < 2, (upwardB i).value.Finite ∧ |(upwardB i).toRat| ≤ 7 := two (by decide +kernel)

/-- The hypotheses are met by a system which is solved with reciprocals, upwards, and with the sums of the backward
substitution in another order. -/
example : (upwardD 1).value.Finite ∧ (upwardD 1).toRat < -1 ∧ ∀ i < 2, (upwardX i).value.Finite ∧ |(upwardX i).toRat| ≤ 8 * 10 ^ 9 := by
  have h := C97_quasidefinite .binary64 (by decide) upwards (upward 1) thirdsP 2 1 1 1 1 2 2 1 2 upwardA upwardL
    upwardD upwardB upwardX regularizationNone (2 ^ (1023 : Int)) 25 1 3750 (2 ^ (-990 : Int)) 2 7 120000 240001 (8 * 10 ^ 9)
    upward_formulas upward_solve thirds_lower thirds_fill
    upward_symm upward_zero (fun i j hn => if_neg hn) upward_fin upward_rhs upward_ample upward_ample_solve (by decide +kernel) (by decide +kernel) (by decide +kernel)
    thirds_col thirds_row (fun _ _ _ _ => rfl) (fun i => i = 0) upward_quasi (two (by decide +kernel))
  exact ⟨(h.1 1 (by decide)).1, (h.1 1 (by decide)).2.2.1 (by decide), h.2.2.1⟩

/-- With the information whether results were too large: none were. -/
example : ∃ D' x' : Nat → Flagged .binary64 upwards, ∀ i < 2, (D' i).value = upwardD i ∧ (D' i).overflow = false ∧
    (x' i).value = upwardX i ∧ (x' i).overflow = false := by
  obtain ⟨L', D', hL, hD, hL', hr'⟩ := Flagged.lift_formulas thirds_lower (fun i j hn => if_neg hn) upward_formulas
  obtain ⟨x', hx', hs'⟩ := Flagged.lift_solve thirds_lower hL hD upward_solve
  have h := C97_overflow .binary64 (by decide) upwards (.given (upward 1)) thirdsP 2 1 1 1 1 2 2 1 2 (fun i j => .given (upwardA i j))
    L' D' (fun i => .given (upwardB i)) x' (Flagged.lift regularizationNone) (2 ^ (1023 : Int)) 25 1 3750 (2 ^ (-990 : Int)) 2 7
    120000 240001 (8 * 10 ^ 9) hr' hs' thirds_lower thirds_fill
    (fun i j => congrArg _ (upward_symm i j)) (fun i j hji hn => congrArg _ (upward_zero i j hji hn)) hL'
    (fun i hi j hj => ⟨upward_fin i hi j hj, rfl⟩) (fun i hi => ⟨⟨(upward_rhs i hi).1, rfl⟩, (upward_rhs i hi).2⟩)
    upward_ample upward_ample_solve (by decide +kernel) (by decide +kernel) (by decide +kernel) thirds_col thirds_row
    (fun _ _ _ _ => rfl) (fun i => i = 0) upward_quasi (two (by decide +kernel))
  exact ⟨D', x', fun i hi => ⟨hD i hi, (h.1 i hi).1.2, hx' i, (h.2.2.1 i hi).1.2⟩⟩

end Ctldl
