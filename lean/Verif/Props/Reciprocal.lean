import Verif.Props.AnyOrder

/-! # C92: products with reciprocals instead of divisions -/

namespace Ctldl

open Finset

set_option linter.unusedSectionVars false

variable {K F : Type} [Zero K] [Add K] [Sub K] [Mul K] [Div K] [Field F] [LinearOrder F] [IsStrictOrderedRing F]

private theorem apx_recip {R : Rounding K F} {a r d y δ δ' e : F} (hδ : |δ| ≤ R.u) (hδ' : |δ'| ≤ R.u) (he : |e| ≤ R.η)
    (hr : r * d = 1 + δ) (hy : y = a * r * (1 + δ') + e) :
    R.Apx 2 a (y * d) (|y| * |d|) (R.η * |d|) := by
  have p1 := Rounding.Apx.one_add_pos (R := R) hδ
  have p2 := Rounding.Apx.one_add_pos (R := R) hδ'
  have h := (Rounding.Apx.refl (R := R) 0 (y * d)).add_err (e := -e * d) (G := R.η * |d|) (by
    rw [abs_mul, abs_neg]
    exact mul_le_mul_of_nonneg_right he (abs_nonneg _))
  have h2 := (h.div_round hδ').div_round hδ
  have ea : (y * d + -e * d) / (1 + δ') / (1 + δ) = a := by
    rw [← hr] at p1 ⊢
    have : y * d + -e * d = a * (r * d) * (1 + δ') := by
      rw [hy]
      ring
    rw [this, mul_div_cancel_right₀ _ p2.ne', mul_div_cancel_right₀ _ p1.ne']
  rwa [ea, abs_mul, zero_add, zero_add] at h2

/-- Quotients and products with reciprocals have at most two rounding errors. -/
theorem divides_recip {R : Rounding K F} (hst : ∀ a, R.stored a) {one d : K} (hd : R.fin d)
    (hrec : R.AccurateReciprocal one d) : R.Divides 2 (QuotientOrReciprocal one) d := by
  have hμη : R.μ ≤ R.η := by
    have := R.μ_add_σ
    have := R.σ_nonneg
    linarith
  rintro a y (rfl | rfl | rfl)
  · exact ⟨hst _, fun h => ⟨(Rounding.apx_div hd h).1, hst _, (Rounding.apx_div hd h).2.le (by omega)⟩⟩
  · refine ⟨hst _, fun h => ?_⟩
    obtain ⟨h1, h2⟩ := R.fin_mul h
    obtain ⟨δ, hδ, e1⟩ := hrec h2
    obtain ⟨δ', e, hδ', he, e2⟩ := R.mul (hst _) h
    exact ⟨h1, hst _, apx_recip hδ hδ' (he.trans hμη) e1 e2⟩
  · refine ⟨hst _, fun h => ?_⟩
    obtain ⟨h2, h1⟩ := R.fin_mul h
    obtain ⟨δ, hδ, e1⟩ := hrec h2
    obtain ⟨δ', e, hδ', he, e2⟩ := R.mul (hst _) h
    exact ⟨h1, hst _, apx_recip hδ hδ' (he.trans hμη) e1 (by rw [e2]; ring)⟩

/-- C92: factors of a matrix which are computed by the formulas of the factorization, with any of the divisions replaced by
products with reciprocals, and evaluated in any order, are the exact factors of a matrix which differs from the given one only
slightly: there is one more rounding error than with divisions. -/
theorem C92_backward_error (R : RoundingAdd K F) (hst : ∀ a, R.stored a) (one : K) (P : Nat → Nat → Prop) (n h q : Nat)
    (A L : Nat → Nat → K) (D : Nat → K)
    (reg : K → Nat → K) (hr : FormulasWith (QuotientOrReciprocal one) P n h q A L D reg) (hP : ∀ i j, P i j → j < i)
    (hfill : ∀ i j k, P i k → P j k → j < i → P i j) (hA : ∀ i j, A i j = A j i)
    (hA0 : ∀ i j, j < i → ¬ P i j → A i j = 0) (hL0 : ∀ i j, ¬ P i j → L i j = 0)
    (hfin : ∀ i < n, R.fin (D i) ∧ ∀ x, D i = reg x i → R.fin x) (hrec : ∀ i < n, R.AccurateReciprocal one (D i))
    (ε : F) (h0 : R.σ ≤ ε)
    (hε : ∀ i j, P i j → R.η * ((1 + |R.v (D j)|) * (1 + |R.v (L i j)|)) ≤ ε) :
    ∃ x : Nat → K, (∀ i < n, D i = reg (x i) i) ∧ ∀ i < n, ∀ j < n,
      |R.v (A i j) - (ldlt n (fun a b => R.v (L a b)) (fun a => R.v (D a)) i j +
          if i = j then R.v (x i) - R.v (D i) else 0)| ≤
      R.gamma (h + 3) * (ldlt n (fun a b => |R.v (L a b)|) (fun a => |R.v (D a)|) i j +
          if i = j then |R.v (x i)| - |R.v (D i)| else 0) + R.growth (h + 3) * ((q + 1) * ε) := by
  obtain ⟨x, h1, h2⟩ := hr.apx R (by decide) (fun j hj => divides_recip hst (hfin j hj).1 (hrec j hj)) hP hfill hA hA0 hL0
    hfin h0 hε
  exact ⟨x, h1, fun i hi j hj => (h2 i hi j hj).err⟩

/-- C92: the solution which is computed with given factors, with any of the divisions replaced by products with
reciprocals, nearly solves the system with the matrix `L D Lᵀ`. -/
theorem C92_solve (R : RoundingAdd K F) (hst : ∀ a, R.stored a) (one : K) (P : Nat → Nat → Prop) (n h₁ q₁ h₂ q₂ : Nat)
    (L : Nat → Nat → K) (D b x : Nat → K)
    (hr : SolveWith (QuotientOrReciprocal one) P n h₁ q₁ h₂ q₂ L D b x) (hP : ∀ i j, P i j → j < i)
    (hL0 : ∀ i j, ¬ P i j → L i j = 0) (hpiv : ∀ i < n, R.fin (D i)) (hrec : ∀ i < n, R.AccurateReciprocal one (D i))
    (hfin : ∀ i < n, R.fin (x i)) (hσ : R.σ ≤ R.η) :
    ∀ i < n,
      |R.v (b i) - ∑ j ∈ range n, ldlt n (fun a b => R.v (L a b)) (fun a => R.v (D a)) i j * R.v (x j)| ≤
        R.gamma (h₁ + h₂ + 4) * ∑ j ∈ range n,
          ldlt n (fun a b => |R.v (L a b)|) (fun a => |R.v (D a)|) i j * |R.v (x j)| +
        R.growth (h₁ + h₂ + 4) * (q₁ * R.η + ∑ j ∈ range n,
          unitLower (fun a b => |R.v (L a b)|) i j * (|R.v (D j)| * ((q₂ + 1) * R.η))) :=
  hr.err R (fun j hj => divides_recip hst (hpiv j hj) (hrec j hj)) hP hL0 (fun _ _ _ _ => hst _) hfin hσ

/-- C92: the residual of a solution which is computed by factorizing and solving, with any of the divisions replaced by
products with reciprocals, and evaluated in any order. -/
theorem C92_residual (R : RoundingAdd K F) (hst : ∀ a, R.stored a) (one : K) (P : Nat → Nat → Prop)
    (n h q h₁ q₁ h₂ q₂ : Nat) (A L : Nat → Nat → K)
    (D b y : Nat → K) (reg : K → Nat → K) (hr : FormulasWith (QuotientOrReciprocal one) P n h q A L D reg)
    (hs : SolveWith (QuotientOrReciprocal one) P n h₁ q₁ h₂ q₂ L D b y) (hP : ∀ i j, P i j → j < i)
    (hfill : ∀ i j k, P i k → P j k → j < i → P i j) (hA : ∀ i j, A i j = A j i)
    (hA0 : ∀ i j, j < i → ¬ P i j → A i j = 0) (hL0 : ∀ i j, ¬ P i j → L i j = 0)
    (hfin : ∀ i < n, R.fin (D i) ∧ ∀ x, D i = reg x i → R.fin x) (hrec : ∀ i < n, R.AccurateReciprocal one (D i))
    (hyfin : ∀ i < n, R.fin (y i))
    (ε : F) (h0 : R.σ ≤ ε) (hε : ∀ i j, P i j → R.η * ((1 + |R.v (D j)|) * (1 + |R.v (L i j)|)) ≤ ε) (hσ : R.σ ≤ R.η) :
    ∃ x : Nat → K, (∀ i < n, D i = reg (x i) i) ∧ ∀ i < n,
      |R.v (b i) - ∑ j ∈ range n, (R.v (A i j) + if i = j then R.v (D i) - R.v (x i) else 0) * R.v (y j)| ≤
        R.gamma (h₁ + h₂ + 4) * ∑ j ∈ range n,
          ldlt n (fun a b => |R.v (L a b)|) (fun a => |R.v (D a)|) i j * |R.v (y j)| +
        R.gamma (h + 3) * ∑ j ∈ range n, (ldlt n (fun a b => |R.v (L a b)|) (fun a => |R.v (D a)|) i j +
          if i = j then |R.v (x i)| - |R.v (D i)| else 0) * |R.v (y j)| +
        (R.growth (h₁ + h₂ + 4) * (q₁ * R.η + ∑ j ∈ range n,
          unitLower (fun a b => |R.v (L a b)|) i j * (|R.v (D j)| * ((q₂ + 1) * R.η))) +
        R.growth (h + 3) * ((q + 1) * ε) * ∑ j ∈ range n, |R.v (y j)|) :=
  hr.residual R (by decide) hs (fun j hj => divides_recip hst (hfin j hj).1 (hrec j hj)) hP hfill hA hA0 hL0 hfin hyfin h0 hε hσ

/-- C92: the formulas with divisions, which the program evaluates by C90, are among those to which `C92_residual` applies. -/
theorem C92_divisions (one : K) (P : Nat → Nat → Prop) (n h q : Nat) (A L : Nat → Nat → K) (D : Nat → K) (reg : K → Nat → K)
    (hr : ReorderedFormulas P n h q A L D reg) : FormulasWith (QuotientOrReciprocal one) P n h q A L D reg := fun i hi => by
  obtain ⟨w, h1, h2, h3⟩ := hr i hi
  exact ⟨w, h1, fun j hj => Or.inl (h2 j hj), h3⟩

/-- C92: the same for solving. -/
theorem C92_divisions_solve (one : K) (P : Nat → Nat → Prop) (n h₁ q₁ h₂ q₂ : Nat) (L : Nat → Nat → K) (D b x : Nat → K)
    (hr : ReorderedSolve P n h₁ q₁ h₂ q₂ L D b x) : SolveWith (QuotientOrReciprocal one) P n h₁ q₁ h₂ q₂ L D b x := by
  obtain ⟨y, z, h1, h2, h3⟩ := hr
  exact ⟨y, z, h1, fun i hi => Or.inl (h2 i hi), h3⟩

/-! ### Binary formats -/

/-- C92: reciprocals are accurate in all binary formats, for numbers up to the reciprocal of the smallest normal number. -/
theorem C92_reciprocal (fmt : Format) (one d : Binary fmt) (hone : one.toRat = 1) (hd : d.Finite)
    (h : |d.toRat| ≤ 2 ^ (1 - fmt.minExp - fmt.precision)) :
    (Binary.roundingAdd fmt).AccurateReciprocal one d := by
  intro hf
  obtain ⟨-, h0, hv⟩ := Binary.finite_div hd hf
  rw [hone] at hv
  have hx : (2 : ℚ) ^ (fmt.minExp + fmt.precision - 1) ≤ |1 / d.toRat| := by
    rw [abs_div, abs_one, le_div_iff₀ (abs_pos.mpr h0)]
    refine (mul_le_mul_of_nonneg_left h (two_zpow_pos _).le).trans_eq ?_
    rw [← zpow_add₀ (by norm_num), show fmt.minExp + fmt.precision - 1 + (1 - fmt.minExp - fmt.precision) = 0 by ring,
      zpow_zero]
  have hx0 : 0 < |1 / d.toRat| := abs_pos.mpr (one_div_ne_zero h0)
  have hlog : fmt.minExp + fmt.precision - 1 ≤ Int.log 2 |1 / d.toRat| :=
    (Int.zpow_le_iff_le_log (by decide) hx0).mp (by exact_mod_cast hx)
  have herr : |fmt.round (1 / d.toRat) - 1 / d.toRat| ≤ 2 ^ (-fmt.precision : Int) * |1 / d.toRat| := by
    have h1 := fmt.round_err (1 / d.toRat)
    rw [Format.unit, max_eq_left (by omega)] at h1
    have h2 : (2 : ℚ) ^ Int.log 2 |1 / d.toRat| ≤ |1 / d.toRat| := by
      have := Int.zpow_log_le_self (b := 2) (by decide) hx0
      exact_mod_cast this
    refine h1.trans (le_trans (le_of_eq ?_) (mul_le_mul_of_nonneg_left h2 (two_zpow_pos _).le))
    rw [← zpow_add₀ (by norm_num)]
    congr 1
    ring
  obtain ⟨δ, h1, h2⟩ := rel_of_err herr (two_zpow_pos _).le
  refine ⟨δ, h1, ?_⟩
  show (one / d).toRat * d.toRat = _
  rw [hv, h2]
  field_simp

/-! ### Reciprocals matter for the result -/

/-- A double precision number. -/
private def d (x : ℚ) : Double := .ofRat .binary64 false x

/-- Witness: a matrix with two rows, with a given last element. -/
def thirdsA (t : Double) (i j : Nat) : Double := if i = j then if i = 0 then d 3 else t else if max i j = 1 then d 5 else d 0

/-- Witness: the entry of the factor. -/
def thirdsP (i j : Nat) : Prop := i = 1 ∧ j = 0

instance (i j : Nat) : Decidable (thirdsP i j) := inferInstanceAs (Decidable (_ ∧ _))

/-- Witness: the factor with a given entry. -/
def thirdsL (l : Double) (i j : Nat) : Double := if thirdsP i j then l else d 0

/-- Witness: the pivots for a given entry of the factor. -/
def thirdsD (t l : Double) (i : Nat) : Double := if i = 0 then d 3 else t - l * d 5

private theorem thirds_none (i j : Nat) (h : j ≠ 1) : commonEntriesOf thirdsP i j = [] := by
  unfold commonEntriesOf
  simp [thirdsP, h]

private theorem thirds_one : commonEntriesOf thirdsP 1 1 = [0] := by
  rw [common_self]
  unfold rowEntriesOf
  simp [thirdsP]

/-- Every way of computing the quotient gives a factorization of the matrix. -/
theorem thirds_formulas (Quot : Double → Double → Double → Prop) (t l : Double) (h : Quot (d 5) (d 3) l) :
    FormulasWith Quot thirdsP 2 1 1 (thirdsA t) (thirdsL l) (thirdsD t l) regularizationNone := by
  intro i hi
  refine ⟨fun j => if i = 0 then d 3 else if j = 0 then d 5 else t - l * d 5, ?_, ?_, ?_⟩
  · intro j hj
    by_cases h1 : j = 1
    · subst h1
      obtain rfl : i = 1 := hj.elim (fun h => absurd h.2 (by decide)) Eq.symm
      refine ⟨fun _ => l * d 5, fun k hk _ => Or.inl ?_, ?_⟩
      · obtain ⟨-, rfl⟩ := hk
        rfl
      · rw [thirds_one]
        exact leftOver_inOrder (a := t) (ks := [0]) (f := fun _ => l * d 5) (h := 1) (by decide)
    · refine ⟨fun _ => d 0, fun k _ hk => absurd hk.1 h1, ?_⟩
      rw [thirds_none i j h1]
      have h3 : LeftOver 1 1 (thirdsA t i j) [] (fun _ => d 0) (thirdsA t i j) := leftOver_inOrder (ks := []) (Nat.zero_le _)
      rcases hj with ⟨rfl, rfl⟩ | rfl
      · exact h3
      · obtain rfl : j = 0 := by omega
        exact h3
  · rintro j ⟨rfl, rfl⟩
    exact h
  · unfold thirdsD regularizationNone
    by_cases h3 : i = 0
    · simp only [if_pos h3]
    · simp only [if_neg h3]

/-- C92: reciprocals are seen in the result: there is a matrix which has two different computed factorizations, one with a
division and one with a reciprocal, for both of which the bounds hold. -/
theorem C92_reciprocal_matters : ∃ (P : Nat → Nat → Prop) (A L L' : Nat → Nat → Double) (D D' : Nat → Double),
    FormulasWith (fun a d y => y = a / d) P 2 1 1 A L D regularizationNone ∧
    FormulasWith (fun a d y => y = a * (.ofRat .binary64 false 1 / d)) P 2 1 1 A L' D' regularizationNone ∧
    L 1 0 ≠ L' 1 0 ∧ D 1 ≠ D' 1 :=
  ⟨thirdsP, thirdsA (d 20), thirdsL (d 5 / d 3), thirdsL (d 5 * (d 1 / d 3)), thirdsD (d 20) (d 5 / d 3),
    thirdsD (d 20) (d 5 * (d 1 / d 3)),
    thirds_formulas _ _ _ rfl, thirds_formulas _ _ _ rfl, by decide +kernel, by decide +kernel⟩

/-! ### A case meeting the hypotheses -/

/-- Witness: the entry of the factor which is computed with a reciprocal. -/
def viaReciprocal : Double := d 5 * (d 1 / d 3)

/-- Witness: a right-hand side. -/
def thirdsB (i : Nat) : Double := if i = 0 then d 7 else d 1

/-- Witness: the right-hand side after forward substitution. -/
def thirdsY (i : Nat) : Double := if i = 0 then d 7 else d 1 - viaReciprocal * d 7

/-- Witness: the solution. -/
def thirdsX (t : Double) (i : Nat) : Double :=
  if i = 0 then d 7 * (d 1 / d 3) - viaReciprocal * (thirdsY 1 * (d 1 / thirdsD t viaReciprocal 1))
  else thirdsY 1 * (d 1 / thirdsD t viaReciprocal 1)

theorem thirds_solve (t : Double) :
    SolveWith (QuotientOrReciprocal (d 1)) thirdsP 2 1 1 1 1 (thirdsL viaReciprocal) (thirdsD t viaReciprocal) thirdsB (thirdsX t) := by
  have two : ∀ {p : Nat → Prop}, p 0 → p 1 → ∀ i < 2, p i := fun h0 h1 i hi => by
    obtain rfl | rfl : i = 0 ∨ i = 1 := by omega
    · exact h0
    · exact h1
  have r0 : rowEntriesOf thirdsP 0 = [] := by rw [← common_self, thirds_none 0 0 (by decide)]
  have r1 : rowEntriesOf thirdsP 1 = [0] := by rw [← common_self, thirds_one]
  have c0 : columnEntriesOf thirdsP 2 0 = [1] := by simp [columnEntriesOf, thirdsP, List.range_succ]
  have c1 : columnEntriesOf thirdsP 2 1 = [] := by simp [columnEntriesOf, thirdsP]
  refine ⟨thirdsY, fun i => thirdsY i * (d 1 / thirdsD t viaReciprocal i), two ?_ ?_, fun i _ => Or.inr (Or.inl rfl), two ?_ ?_⟩
  · rw [r0]
    exact leftOver_inOrder (a := d 7) (ks := []) (Nat.zero_le _)
  · rw [r1]
    exact leftOver_inOrder (a := d 1) (ks := [0]) (f := fun j => thirdsL viaReciprocal 1 j * thirdsY j) (h := 1) (by decide)
  · rw [c0]
    exact leftOver_inOrder (a := d 7 * (d 1 / d 3)) (ks := [1]) (f := fun k => thirdsL viaReciprocal k 0 * thirdsX t k) (h := 1)
      (by decide)
  · rw [c1]
    exact leftOver_inOrder (a := thirdsY 1 * (d 1 / thirdsD t viaReciprocal 1)) (ks := []) (Nat.zero_le _)

/-- The hypotheses are met by the factorization with a reciprocal. -/
example : ∃ x : Nat → Double, (∀ i < 2, thirdsD (d 20) viaReciprocal i = regularizationNone (x i) i) ∧ ∀ i < 2,
    |(thirdsB i).toRat - ∑ j ∈ range 2, ((thirdsA (d 20) i j).toRat +
        if i = j then (thirdsD (d 20) viaReciprocal i).toRat - (x i).toRat else 0) * (thirdsX (d 20) j).toRat| ≤
      doubleR.gamma (1 + 1 + 4) * ∑ j ∈ range 2, ldlt 2 (fun a b => |(thirdsL viaReciprocal a b).toRat|)
        (fun a => |(thirdsD (d 20) viaReciprocal a).toRat|) i j * |(thirdsX (d 20) j).toRat| +
      doubleR.gamma (1 + 3) * ∑ j ∈ range 2, (ldlt 2 (fun a b => |(thirdsL viaReciprocal a b).toRat|)
        (fun a => |(thirdsD (d 20) viaReciprocal a).toRat|) i j +
          if i = j then |(x i).toRat| - |(thirdsD (d 20) viaReciprocal i).toRat| else 0) * |(thirdsX (d 20) j).toRat| +
      (doubleR.growth (1 + 1 + 4) * ((1 : Nat) * doubleR.η + ∑ j ∈ range 2,
        unitLower (fun a b => |(thirdsL viaReciprocal a b).toRat|) i j *
          (|(thirdsD (d 20) viaReciprocal j).toRat| * (((1 : Nat) + 1) * doubleR.η))) +
      doubleR.growth (1 + 3) * (((1 : Nat) + 1) * 2 ^ (-1070 : Int)) * ∑ j ∈ range 2, |(thirdsX (d 20) j).toRat|) := by
  have hfin : ∀ i ∈ List.range 2, (thirdsD (d 20) viaReciprocal i).Finite ∧ (thirdsX (d 20) i).Finite ∧
      |(thirdsD (d 20) viaReciprocal i).toRat| ≤ 2 ^ (1022 : Int) := by decide +kernel
  refine C92_residual (Binary.roundingAdd .binary64) (fun _ => trivial) (d 1) thirdsP 2 1 1 1 1 1 1 (thirdsA (d 20))
    (thirdsL viaReciprocal) (thirdsD (d 20) viaReciprocal) thirdsB (thirdsX (d 20)) regularizationNone
    (thirds_formulas _ _ _ (Or.inr (Or.inl rfl))) (thirds_solve _) (fun i j h => by have := h.1; have := h.2; omega)
    (fun i j k h h' hji => by have := h.1; have := h'.1; omega) (fun i j => ?_) (fun i j hji h => ?_) (fun i j h => ?_)
    (fun i hi => ⟨(hfin i (List.mem_range.mpr hi)).1, fun x hx => ?_⟩)
    (fun i hi => C92_reciprocal .binary64 _ _ (by decide +kernel) (hfin i (List.mem_range.mpr hi)).1
      (hfin i (List.mem_range.mpr hi)).2.2)
    (fun i hi => (hfin i (List.mem_range.mpr hi)).2.1)
    (2 ^ (-1070 : Int)) ?_ (fun i j h => ?_) ?_
  · unfold thirdsA
    rw [max_comm i j]
    by_cases hij : i = j
    · rw [hij]
    · rw [if_neg hij, if_neg (Ne.symm hij)]
  · unfold thirdsA
    rw [if_neg (by omega), if_neg (fun h' => h ⟨by omega, by omega⟩)]
    decide +kernel
  · unfold thirdsL
    rw [if_neg h]
    decide +kernel
  · exact (show thirdsD (d 20) viaReciprocal i = x from hx) ▸ (hfin i (List.mem_range.mpr hi)).1
  · exact (two_zpow_pos _).le
  · obtain ⟨rfl, rfl⟩ := h
    decide +kernel
  · exact (Binary.roundingAdd .binary64).η_nonneg

end Ctldl
