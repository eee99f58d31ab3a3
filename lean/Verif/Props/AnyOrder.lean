import Verif.Lemmas.AnyOrderRows
import Verif.Lemmas.RoundingAdd
import Verif.Props.Textbook

/-! # C90: the accuracy does not depend on the order of summation -/

namespace Ctldl

open Finset

set_option linter.unusedSectionVars false

variable {K F : Type} [Zero K] [Add K] [Sub K] [Mul K] [Div K] [Field F] [LinearOrder F] [IsStrictOrderedRing F]

/-- C90: factors of a matrix which are computed by the formulas of the factorization, evaluated in any order, are the exact
factors of a matrix which differs from the given one only slightly. -/
theorem C90_backward_error (R : RoundingAdd K F) (P : Nat → Nat → Prop) (n h q : Nat) (A L : Nat → Nat → K) (D : Nat → K)
    (reg : K → Nat → K) (hr : ReorderedFormulas P n h q A L D reg) (hP : ∀ i j, P i j → j < i)
    (hfill : ∀ i j k, P i k → P j k → j < i → P i j) (hA : ∀ i j, A i j = A j i)
    (hA0 : ∀ i j, j < i → ¬ P i j → A i j = 0) (hL0 : ∀ i j, ¬ P i j → L i j = 0)
    (hfin : ∀ i < n, R.fin (D i) ∧ ∀ x, D i = reg x i → R.fin x) (ε : F) (h0 : R.σ ≤ ε)
    (hε : ∀ i j, P i j → R.η * ((1 + |R.v (D j)|) * (1 + |R.v (L i j)|)) ≤ ε) :
    ∃ x : Nat → K, (∀ i < n, D i = reg (x i) i) ∧ ∀ i < n, ∀ j < n,
      |R.v (A i j) - (ldlt n (fun a b => R.v (L a b)) (fun a => R.v (D a)) i j +
          if i = j then R.v (x i) - R.v (D i) else 0)| ≤
      R.gamma (h + 2) * (ldlt n (fun a b => |R.v (L a b)|) (fun a => |R.v (D a)|) i j +
          if i = j then |R.v (x i)| - |R.v (D i)| else 0) + R.growth (h + 2) * ((q + 1) * ε) := by
  obtain ⟨x, h1, h2⟩ := hr.apx R le_rfl (fun j hj => Rounding.divides_div (hfin j hj).1) hP hfill hA hA0 hL0 hfin h0 hε
  exact ⟨x, h1, fun i hi j hj => (h2 i hi j hj).err⟩

/-- C90: the solution which is computed with given factors, evaluating the formulas in any order, nearly solves the system
with the matrix `L D Lᵀ`. -/
theorem C90_solve (R : RoundingAdd K F) (P : Nat → Nat → Prop) (n h₁ q₁ h₂ q₂ : Nat) (L : Nat → Nat → K) (D b x : Nat → K)
    (hr : ReorderedSolve P n h₁ q₁ h₂ q₂ L D b x) (hP : ∀ i j, P i j → j < i) (hL0 : ∀ i j, ¬ P i j → L i j = 0)
    (hst : ∀ i < n, ∀ j, P i j → R.stored (L i j)) (hpiv : ∀ i < n, R.fin (D i)) (hfin : ∀ i < n, R.fin (x i))
    (hσ : R.σ ≤ R.η) :
    ∀ i < n,
      |R.v (b i) - ∑ j ∈ range n, ldlt n (fun a b => R.v (L a b)) (fun a => R.v (D a)) i j * R.v (x j)| ≤
        R.gamma (h₁ + h₂ + 3) * ∑ j ∈ range n,
          ldlt n (fun a b => |R.v (L a b)|) (fun a => |R.v (D a)|) i j * |R.v (x j)| +
        R.growth (h₁ + h₂ + 3) * (q₁ * R.η + ∑ j ∈ range n,
          unitLower (fun a b => |R.v (L a b)|) i j * (|R.v (D j)| * ((q₂ + 1) * R.η))) :=
  hr.err R (fun j hj => Rounding.divides_div (hpiv j hj)) hP hL0 hst hfin hσ

/-- C90: the residual of a solution which is computed by factorizing and solving, where all sums are evaluated in any
order. -/
theorem C90_residual (R : RoundingAdd K F) (P : Nat → Nat → Prop) (n h q h₁ q₁ h₂ q₂ : Nat) (A L : Nat → Nat → K)
    (D b y : Nat → K) (reg : K → Nat → K) (hr : ReorderedFormulas P n h q A L D reg)
    (hs : ReorderedSolve P n h₁ q₁ h₂ q₂ L D b y) (hP : ∀ i j, P i j → j < i)
    (hfill : ∀ i j k, P i k → P j k → j < i → P i j) (hA : ∀ i j, A i j = A j i)
    (hA0 : ∀ i j, j < i → ¬ P i j → A i j = 0) (hL0 : ∀ i j, ¬ P i j → L i j = 0)
    (hfin : ∀ i < n, R.fin (D i) ∧ ∀ x, D i = reg x i → R.fin x) (hyfin : ∀ i < n, R.fin (y i))
    (ε : F) (h0 : R.σ ≤ ε) (hε : ∀ i j, P i j → R.η * ((1 + |R.v (D j)|) * (1 + |R.v (L i j)|)) ≤ ε) (hσ : R.σ ≤ R.η) :
    ∃ x : Nat → K, (∀ i < n, D i = reg (x i) i) ∧ ∀ i < n,
      |R.v (b i) - ∑ j ∈ range n, (R.v (A i j) + if i = j then R.v (D i) - R.v (x i) else 0) * R.v (y j)| ≤
        R.gamma (h₁ + h₂ + 3) * ∑ j ∈ range n,
          ldlt n (fun a b => |R.v (L a b)|) (fun a => |R.v (D a)|) i j * |R.v (y j)| +
        R.gamma (h + 2) * ∑ j ∈ range n, (ldlt n (fun a b => |R.v (L a b)|) (fun a => |R.v (D a)|) i j +
          if i = j then |R.v (x i)| - |R.v (D i)| else 0) * |R.v (y j)| +
        (R.growth (h₁ + h₂ + 3) * (q₁ * R.η + ∑ j ∈ range n,
          unitLower (fun a b => |R.v (L a b)|) i j * (|R.v (D j)| * ((q₂ + 1) * R.η))) +
        R.growth (h + 2) * ((q + 1) * ε) * ∑ j ∈ range n, |R.v (y j)|) :=
  hr.residual R le_rfl hs (fun j hj => Rounding.divides_div (hfin j hj).1) hP hfill hA hA0 hL0 hfin hyfin h0 hε hσ

/-! ### The program evaluates the formulas in one of the orders -/

/-- Terms which are subtracted one after the other. -/
theorem leftOver_inOrder {a : K} {ks : List Nat} {f : Nat → K} {h : Nat} (hh : ks.length ≤ h) :
    LeftOver h h a ks f (subtractInOrder a (ks.map f)) := by
  suffices H : ∃ t : SumTree (Option Nat), t.terms true = [none] ∧ t.terms false = ks.map some ∧ t.ops = ks.length ∧
      subtractInOrder a (ks.map f) = t.value fun k => k.elim a f by
    obtain ⟨t, h1, h2, h3, h4⟩ := H
    exact ⟨t, h1, h2 ▸ .rfl, h3 ▸ hh, Or.inl (h3 ▸ hh), h4⟩
  clear hh
  induction ks using List.reverseRecOn with
  | nil => exact ⟨.term none, rfl, rfl, rfl, rfl⟩
  | append_singleton ks k ih =>
    obtain ⟨t, h1, h2, h3, h4⟩ := ih
    refine ⟨t.sub (.term (some k)), ?_, ?_, ?_, ?_⟩
    · simp [SumTree.terms, h1]
    · simp [SumTree.terms, h2]
    · rw [SumTree.ops_sub, h3]
      simp [SumTree.ops]
    · unfold subtractInOrder at h4 ⊢
      rw [List.map_append, List.foldl_append, h4]
      rfl

theorem common_le_row (P : Nat → Nat → Prop) {i j : Nat} (h : j ≤ i) :
    (commonEntriesOf P i j).length ≤ (rowEntriesOf P i).length := by
  classical
  refine List.Nodup.length_le_of_subset (List.Nodup.filter _ List.nodup_range) fun k hk => ?_
  have := mem_commonEntries.mp hk
  unfold rowEntriesOf
  simp only [List.mem_filter, List.mem_range, decide_eq_true_eq]
  exact ⟨by omega, this.2.1⟩

theorem common_self (P : Nat → Nat → Prop) (i : Nat) : commonEntriesOf P i i = rowEntriesOf P i := by
  classical
  unfold commonEntriesOf rowEntriesOf
  simp

/-- C90: the formulas of the program for matrices with an outer block, where every entry is subtracted after the other, are
among those to which `C90_residual` applies. -/
theorem C90_in_order_outer (P : Nat → Nat → Prop) (n c o m : Nat) (A L : Nat → Nat → K) (D : Nat → K) (reg : K → Nat → K)
    (hP : ∀ i j, P i j → j < i) (h : EntryWiseOuterFormulas P n c o A L D reg)
    (hm : ∀ i < n, (rowEntriesOf P i).length ≤ m) : ReorderedFormulas P n m m A L D reg := by
  classical
  intro i hi
  obtain ⟨w, h1, h2, h3⟩ := h i hi
  let x := subtractInOrder (A i i) ((rowEntriesOf P i).map fun k =>
    if o ≤ i ∧ k < c then w k * (w k / D k) else L i k * L i k * D k)
  have hne : ∀ j, P i j → (if j = i then x else w j) = w j := fun j hj => if_neg (by have := hP i j hj; omega)
  refine ⟨fun j => if j = i then x else w j, ?_, fun j hj => ?_, ?_⟩
  · rintro j (hj | rfl)
    · refine ⟨fun k => if o ≤ i ∧ k < c then L j k * w k else L i k * L j k * D k, fun k hik hjk => ?_, ?_⟩
      · beta_reduce
        rw [hne k hik]
        split
        · exact Or.inl rfl
        · exact Or.inr (Or.inr (Or.inl rfl))
      · beta_reduce
        rw [hne j hj, h1 j hj]
        exact leftOver_inOrder ((common_le_row P (hP i j hj).le).trans (hm i hi))
    · refine ⟨fun k => if o ≤ j ∧ k < c then w k * (w k / D k) else L j k * L j k * D k, fun k hik _ => ?_, ?_⟩
      · beta_reduce
        rw [hne k hik]
        split
        · rw [h2 k hik]
          exact Or.inr (Or.inl rfl)
        · exact Or.inr (Or.inr (Or.inl rfl))
      · beta_reduce
        rw [if_pos rfl, common_self]
        exact leftOver_inOrder (hm j hi)
  · beta_reduce
    rw [hne j hj]
    exact h2 j hj
  · beta_reduce
    rw [if_pos rfl]
    exact h3

/-- C90: the formulas of the program, where every entry is subtracted after the other, are among those to which
`C90_residual` applies. -/
theorem C90_in_order (method : Method) (P : Nat → Nat → Prop) (n m : Nat) (A L : Nat → Nat → K) (D : Nat → K)
    (reg : K → Nat → K) (hP : ∀ i j, P i j → j < i) (h : FactorFormulas method P n A L D reg)
    (hm : ∀ i < n, (rowEntriesOf P i).length ≤ m) : ReorderedFormulas P n m m A L D reg := by
  cases method with
  | upLooking =>
    refine C90_in_order_outer P n n 0 m A L D reg hP (fun i hi => ?_) hm
    obtain ⟨w, h1, h2, h3⟩ := h i hi
    refine ⟨w, fun j hj => ?_, h2, ?_⟩
    · rw [h1 j hj]
      congr 1
      refine List.map_congr_left fun k hk => ?_
      have := mem_commonEntries.mp hk
      have := hP i j hj
      rw [if_pos (by omega)]
    · rw [h3]
      congr 2
      refine List.map_congr_left fun k hk => ?_
      rw [← common_self] at hk
      have := mem_commonEntries.mp hk
      rw [if_pos (by omega)]
  | entryWise => exact C90_in_order_outer P n 0 n m A L D reg hP ((C73_without_outer P n 0 n le_rfl A L D reg).mpr h) hm

/-- C90: the same for solving. -/
theorem C90_in_order_solve (P : Nat → Nat → Prop) (n m c : Nat) (L : Nat → Nat → K) (D b x : Nat → K)
    (h : SolveFormulas P n L D b x) (hm : ∀ i < n, (rowEntriesOf P i).length ≤ m)
    (hc : ∀ j < n, (columnEntriesOf P n j).length ≤ c) : ReorderedSolve P n m m c c L D b x := by
  obtain ⟨y, h1, h2⟩ := h
  refine ⟨y, fun i => y i / D i, fun i hi => ?_, fun _ _ => rfl, fun i hi => ?_⟩
  · rw [h1 i hi]
    exact leftOver_inOrder (hm i hi)
  · have := leftOver_inOrder (a := y i / D i) (f := fun k => L k i * x k) (hc i hi)
    rwa [← h2 i hi] at this

omit [Zero K] [Add K] [Sub K] [Mul K] [Div K] in
private theorem fill_lower {s : Sparsity} {p : List Nat} {i j : Nat} (h : Fill (LowerPermuted s p) i j) : j < i := h.lt

/-- C90: the factor which the program computes for a single matrix is among those to which `C90_residual` applies. -/
theorem C90_factor (s : Sparsity) (p : List Nat) (hv : ValidSparsity s p) (f : DiagFactor K) (hf : f.Declared s p)
    (m : MatIn K) (hm : m.Fits s p) (reg : K → Nat → K) (method : Method) (n : Nat)
    (hn : ∀ i < s.numRows, (rowEntriesOf (Fill (LowerPermuted s p)) i).length ≤ n) :
    ∃ f', f.factorize m reg method = .ok f' ∧
      ReorderedFormulas (Fill (LowerPermuted s p)) s.numRows n n (fun i j => m.sym (permAt p i) (permAt p j)) f'.lower
        f'.pivot reg ∧
      ∀ i j, ¬ Fill (LowerPermuted s p) i j → f'.lower i j = 0 := by
  obtain ⟨f', h1, h2, h3⟩ := C73_factor s p hv f hf m hm reg method
  exact ⟨f', h1, C90_in_order method _ _ n _ _ _ reg (fun _ _ => fill_lower) h2 hn, h3⟩

/-- C90: so is the factor of a repeating block matrix. -/
theorem C90_repeating (s : ArrowheadSparsity) (d : Dims) (hs : s.Valid d) (T : ArrowheadTypes) (N : Nat)
    (hsmall : d.total N ≤ noParent) (f : ArrowheadFactor K) (hf : f.Declared s T d N) (m : ArrowheadMatrix K)
    (hm : m.Fits s T d N) (reg reg' : K → Nat → K)
    (hreg : ∀ k ∈ positions d N, ∀ x, reg' x (d.place N k) = reg x k.2) (method : Method)
    (n : Nat) (hn : ∀ i < d.total N, (rowEntriesOf (wholePattern T d N) i).length ≤ n) :
    ∃ f', f.factorize d.tridiag d.link d.outer m reg method = .ok f' ∧ ∃ (A L : Nat → Nat → K) (D : Nat → K),
      (∀ k ∈ positions d N, ∀ l ∈ positions d N, A (d.place N k) (d.place N l) =
        m.symElement N k.1 l.1 (permAt (s.perm k.1) k.2) (permAt (s.perm l.1) l.2)) ∧
      (∀ k ∈ positions d N, ∀ l ∈ positions d N, L (d.place N k) (d.place N l) = f'.storedAt N k l) ∧
      (∀ k ∈ positions d N, D (d.place N k) = f'.pivotAt k.1 k.2) ∧
      ReorderedFormulas (wholePattern T d N) (d.total N) n n A L D reg' := by
  obtain ⟨f', h1, A, L, D, h2, h3, h4, h5⟩ := C73_repeating s d hs T N hsmall f hf m hm reg reg' hreg method
  refine ⟨f', h1, A, L, D, h2, h3, h4, ?_⟩
  have hP : ∀ i j, wholePattern T d N i j → j < i := by
    obtain ⟨S, P, -, hA, -⟩ := C71_assembled s d hs T hf.types N hsmall
    rintro i j ⟨k, hk, l, hl, rfl, rfl, h⟩
    exact fill_lower ((hA.pattern k hk l hl).mpr h)
  cases method with
  | upLooking => exact C90_in_order .upLooking _ _ n _ _ _ reg' hP h5 hn
  | entryWise => exact C90_in_order_outer _ _ _ _ n _ _ _ reg' hP h5 hn

/-! ### Summation by halves -/

theorem exists_halves (e : Nat) : ∀ ks : List Nat, ks ≠ [] → ks.length ≤ 2 ^ e → ∃ t : SumTree (Option Nat),
    t.terms true = ks.map some ∧ t.terms false = [] ∧ t.ops + 1 = ks.length ∧ t.height ≤ e := by
  induction e with
  | zero =>
    intro ks h0 h
    match ks with
    | [] => exact absurd rfl h0
    | [k] => exact ⟨.term (some k), rfl, rfl, rfl, le_rfl⟩
    | _ :: _ :: _ => simp at h
  | succ e ih =>
    intro ks h0 h
    by_cases hs : ks.length ≤ 2 ^ e
    · obtain ⟨t, h1, h2, h3, h4⟩ := ih ks h0 hs
      exact ⟨t, h1, h2, h3, by omega⟩
    · have hp := Nat.pow_pos (n := e) (show 0 < 2 by decide)
      rw [pow_succ] at h
      obtain ⟨t, h1, h2, h3, h4⟩ := ih (ks.take (2 ^ e)) (by
        intro h'
        have := congrArg List.length h'
        rw [List.length_take, List.length_nil] at this
        omega) (by rw [List.length_take]; omega)
      obtain ⟨u, g1, g2, g3, g4⟩ := ih (ks.drop (2 ^ e)) (by
        intro h'
        have := congrArg List.length h'
        rw [List.length_drop, List.length_nil] at this
        omega) (by rw [List.length_drop]; omega)
      refine ⟨t.add u, ?_, ?_, ?_, ?_⟩
      · rw [SumTree.terms, h1, g1, ← List.map_append, List.take_append_drop]
      · rw [SumTree.terms, h2, g2]
        rfl
      · rw [SumTree.ops_add]
        rw [List.length_take] at h3
        rw [List.length_drop] at g3
        omega
      · rw [SumTree.height_add]
        omega

/-- C90: if the terms are first added by halves, then the errors grow only with the logarithm of their number: this is one
of the ways to evaluate sums to which `C90_residual` applies, where `h` is `2 (e + 1)` for up to `2 ^ e` terms. -/
theorem C90_halves (a : K) (ks : List Nat) (f : Nat → K) (e : Nat) (h : ks.length ≤ 2 ^ e) :
    ∃ y, LeftOver (2 * (e + 1)) ks.length a ks f y := by
  by_cases h0 : ks = []
  · subst h0
    exact ⟨a, .term none, rfl, .rfl, le_rfl, Or.inl (Nat.zero_le _), rfl⟩
  · obtain ⟨t, h1, h2, h3, h4⟩ := exists_halves e ks h0 h
    refine ⟨_, (SumTree.term none).sub t, ?_, ?_, ?_, Or.inr ?_, rfl⟩
    · simp [SumTree.terms, h2]
    · simp [SumTree.terms, h1]
    · rw [SumTree.ops_sub]
      simp only [SumTree.ops]
      omega
    · rw [SumTree.height_sub]
      simp only [SumTree.height]
      omega

/-! ### The order matters for the result -/

deriving instance DecidableEq for Binary

/-- A double precision number. -/
private def d (x : ℚ) : Double := .ofRat .binary64 false x

/-- Witness: the first three rows of a matrix with four rows are those of the identity matrix, the last one has small
entries. -/
def smallLastA (i j : Nat) : Double :=
  if i = j then d 1 else if max i j = 3 then d (1 / 2 ^ 27) else d 0

/-- Witness: the entries of the last row. -/
def lastRow (i j : Nat) : Prop := i = 3 ∧ j < 3

instance (i j : Nat) : Decidable (lastRow i j) := inferInstanceAs (Decidable (_ ∧ _))

/-- Witness: the factor. -/
def smallLastL (i j : Nat) : Double := if lastRow i j then d (1 / 2 ^ 27) else d 0

/-- Witness: the pivots with a given last pivot. -/
def smallLastD (x : Double) (i : Nat) : Double := if i = 3 then x else d 1

private theorem last_common : commonEntriesOf lastRow 3 3 = [0, 1, 2] := by
  rw [common_self]
  unfold rowEntriesOf
  simp [lastRow, List.range_succ]

private theorem no_common (i j : Nat) (hj : j ≠ 3) : commonEntriesOf lastRow i j = [] := by
  unfold commonEntriesOf
  simp [lastRow, hj]

/-- Every way of computing the last pivot gives a factorization of the matrix. -/
theorem smallLast_formulas {x : Double}
    (h : LeftOver 3 3 (d 1) [0, 1, 2] (fun _ => d (1 / 2 ^ 27) * d (1 / 2 ^ 27)) x) :
    ReorderedFormulas lastRow 4 3 3 smallLastA smallLastL (smallLastD x) regularizationNone := by
  intro i hi
  refine ⟨fun j => if i = 3 then if j = 3 then x else d (1 / 2 ^ 27) else d 1, ?_, ?_, ?_⟩
  · rintro j hj
    by_cases hj3 : j = 3
    · subst hj3
      obtain rfl : i = 3 := hj.elim (fun h => absurd h.2 (by decide)) Eq.symm
      refine ⟨fun _ => d (1 / 2 ^ 27) * d (1 / 2 ^ 27), fun k hk _ => Or.inl ?_, ?_⟩
      · have := hk.2
        simp only [smallLastL, if_pos hk, if_true, if_neg (show k ≠ 3 by omega)]
      · rw [last_common]
        exact h
    · refine ⟨fun _ => d 0, fun k _ hk => absurd hk.1 hj3, ?_⟩
      rw [no_common i j hj3]
      have h3 : LeftOver 3 3 (smallLastA i j) [] (fun _ => d 0) (smallLastA i j) :=
        leftOver_inOrder (ks := []) (Nat.zero_le _)
      have h4 : smallLastA i j = if i = 3 then if j = 3 then x else d (1 / 2 ^ 27) else d 1 := by
        rcases hj with hj | rfl
        · unfold smallLastA
          rw [if_neg (by have := hj.1; omega), if_pos (by have := hj.1; have := hj.2; omega), if_pos hj.1, if_neg hj3]
        · unfold smallLastA
          rw [if_pos rfl, if_neg hj3]
      beta_reduce
      rw [← h4]
      exact h3
  · intro j hj
    have h3 := hj.2
    simp only [smallLastL, if_pos hj, if_pos hj.1, smallLastD, if_neg (show j ≠ 3 by omega)]
    decide +kernel
  · unfold smallLastD regularizationNone
    by_cases h3 : i = 3
    · simp only [if_pos h3]
    · simp only [if_neg h3]

/-- C90: the order is seen in the result: there is a matrix which has two different computed factorizations, for both of
which the bounds hold. The terms are too small to change the pivot when they are subtracted one after the other. -/
theorem C90_order_matters : ∃ (P : Nat → Nat → Prop) (A L : Nat → Nat → Double) (D D' : Nat → Double),
    ReorderedFormulas P 4 3 3 A L D regularizationNone ∧ ReorderedFormulas P 4 3 3 A L D' regularizationNone ∧
    D 3 = .ofRat .binary64 false 1 ∧ D' 3 = .ofRat .binary64 false (1 - 1 / 2 ^ 52) ∧ D 3 ≠ D' 3 := by
  refine ⟨lastRow, smallLastA, smallLastL, smallLastD (d 1), smallLastD (d (1 - 1 / 2 ^ 52)),
    smallLast_formulas ?_, smallLast_formulas ?_, rfl, rfl, ?_⟩
  · have : d 1 = subtractInOrder (d 1) ([0, 1, 2].map fun _ => d (1 / 2 ^ 27) * d (1 / 2 ^ 27)) := by decide +kernel
    have h := leftOver_inOrder (a := d 1) (ks := [0, 1, 2]) (f := fun _ => d (1 / 2 ^ 27) * d (1 / 2 ^ 27)) (h := 3) (by decide)
    rwa [← this] at h
  · refine ⟨(SumTree.term none).sub (((SumTree.term (some 0)).add (.term (some 1))).add (.term (some 2))), rfl, .rfl,
      by decide, Or.inl (by decide), ?_⟩
    decide +kernel
  · decide +kernel

/-! ### A case meeting the hypotheses -/

/-- Witness: the pivot which is obtained when the terms are added first. -/
def addedFirst : Nat → Double := smallLastD (d (1 - 1 / 2 ^ 52))

theorem addedFirst_formulas : ReorderedFormulas lastRow 4 3 3 smallLastA smallLastL addedFirst regularizationNone :=
  smallLast_formulas ⟨(SumTree.term none).sub (((SumTree.term (some 0)).add (.term (some 1))).add (.term (some 2))), rfl,
    .rfl, by decide, Or.inl (by decide), by decide +kernel⟩

/-- Witness: a right-hand side. -/
def lastB (i : Nat) : Double := if i = 3 then d 1 else d 0

/-- Witness: the solution. -/
def lastX (i : Nat) : Double := if i = 3 then d 1 / d (1 - 1 / 2 ^ 52) else
  d 0 / d 1 - d (1 / 2 ^ 27) * (d 1 / d (1 - 1 / 2 ^ 52))

theorem last_solve : ReorderedSolve lastRow 4 3 3 1 1 smallLastL addedFirst lastB lastX := by
  have hrow : ∀ i, rowEntriesOf lastRow i = if i = 3 then [0, 1, 2] else [] := by
    intro i
    split
    · rename_i h
      rw [h, ← common_self, last_common]
    · rename_i h
      rw [← common_self, no_common i i h]
  have hcol : ∀ i < 4, columnEntriesOf lastRow 4 i = if i = 3 then [] else [3] := by
    intro i hi
    unfold columnEntriesOf
    split
    · rename_i h
      simp [h, lastRow]
    · rename_i h
      simp [lastRow, List.range_succ, show i < 3 by omega]
  refine C90_in_order_solve lastRow 4 3 1 smallLastL addedFirst lastB lastX ⟨lastB, fun i hi => ?_, fun i hi => ?_⟩
    (fun i _ => ?_) fun i hi => ?_
  · rw [hrow]
    split
    · rename_i h
      subst h
      decide +kernel
    · rfl
  · rw [hcol i hi]
    unfold lastX lastB addedFirst smallLastD
    split
    · rfl
    · show _ = _ - smallLastL 3 i * _
      rw [smallLastL, if_pos (show lastRow 3 i from ⟨rfl, by omega⟩)]
      rfl
  · rw [hrow]
    split <;> decide
  · rw [hcol i hi]
    split <;> decide

/-- The hypotheses are met by the example in which the order matters. -/
example : ∃ x : Nat → Double, (∀ i < 4, addedFirst i = regularizationNone (x i) i) ∧ ∀ i < 4,
    |(lastB i).toRat - ∑ j ∈ range 4,
        ((smallLastA i j).toRat + if i = j then (addedFirst i).toRat - (x i).toRat else 0) * (lastX j).toRat| ≤
      doubleR.gamma (3 + 1 + 3) * ∑ j ∈ range 4,
        ldlt 4 (fun a b => |(smallLastL a b).toRat|) (fun a => |(addedFirst a).toRat|) i j * |(lastX j).toRat| +
      doubleR.gamma (3 + 2) * ∑ j ∈ range 4,
        (ldlt 4 (fun a b => |(smallLastL a b).toRat|) (fun a => |(addedFirst a).toRat|) i j +
          if i = j then |(x i).toRat| - |(addedFirst i).toRat| else 0) * |(lastX j).toRat| +
      (doubleR.growth (3 + 1 + 3) * ((3 : Nat) * doubleR.η + ∑ j ∈ range 4,
        unitLower (fun a b => |(smallLastL a b).toRat|) i j * (|(addedFirst j).toRat| * (((1 : Nat) + 1) * doubleR.η))) +
      doubleR.growth (3 + 2) * (((3 : Nat) + 1) * 2 ^ (-1072 : Int)) * ∑ j ∈ range 4, |(lastX j).toRat|) := by
  have hfin : ∀ i ∈ List.range 4, (addedFirst i).Finite ∧ (lastX i).Finite := by decide +kernel
  refine C90_residual (Binary.roundingAdd .binary64) lastRow 4 3 3 3 3 1 1 smallLastA smallLastL addedFirst lastB lastX
    regularizationNone addedFirst_formulas last_solve (fun i j h => by have := h.1; have := h.2; omega)
    (fun i j k h h' hji => by have := h.1; have := h'.1; omega) (fun i j => ?_) (fun i j hji h => ?_) (fun i j h => ?_)
    (fun i hi => ⟨(hfin i (List.mem_range.mpr hi)).1, fun x hx => ?_⟩) (fun i hi => (hfin i (List.mem_range.mpr hi)).2)
    (2 ^ (-1072 : Int)) ?_ (fun i j h => ?_) ?_
  · unfold smallLastA
    simp only [max_comm i j, eq_comm (a := i)]
  · unfold smallLastA
    rw [if_neg (by omega), if_neg (fun h' => h ⟨by omega, by omega⟩)]
    decide +kernel
  · unfold smallLastL
    rw [if_neg h]
    decide +kernel
  · exact (show addedFirst i = x from hx) ▸ (hfin i (List.mem_range.mpr hi)).1
  · exact (two_zpow_pos _).le
  · have h1 : ∀ j ∈ List.range 3, (Binary.roundingAdd .binary64).η *
        ((1 + |(Binary.roundingAdd .binary64).v (addedFirst j)|) *
          (1 + |(Binary.roundingAdd .binary64).v (smallLastL 3 j)|)) ≤ 2 ^ (-1072 : Int) := by decide +kernel
    rw [h.1]
    exact h1 j (List.mem_range.mpr h.2)
  · exact (Binary.roundingAdd .binary64).η_nonneg

/-- Seven terms can be added by halves: `7 ≤ 2 ^ 3`. -/
example (a : Double) (f : Nat → Double) : ∃ y, LeftOver 8 7 a (List.range 7) f y := C90_halves a (List.range 7) f 3 (by decide)

/-- The factor of the example of C22 which the program computes is among those to which the theorems apply. -/
example (method : Method) : ∃ f', (witnessF.map d).factorize (witnessM.map d) regularizationNone method = .ok f' ∧
    ReorderedFormulas (Fill (LowerPermuted witnessS [0, 2, 1])) 3 3 3
      (fun i j => (witnessM.map d).sym (permAt [0, 2, 1] i) (permAt [0, 2, 1] j)) f'.lower f'.pivot regularizationNone := by
  obtain ⟨f', h1, h2, -⟩ := C90_factor witnessS [0, 2, 1] witness_valid (witnessF.map d)
    ⟨witness_declared.pattern, rfl, rfl, rfl⟩ (witnessM.map d)
    ⟨rfl, witness_valid.inRange, rfl, rfl, fun i j h => .base h h.1⟩ regularizationNone method 3 fun i hi => by
      unfold rowEntriesOf
      refine (List.length_filter_le _ _).trans ?_
      rw [List.length_range]
      exact le_of_lt hi
  exact ⟨f', h1, h2⟩

end Ctldl
