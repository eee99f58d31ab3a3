import Verif.Spec.Factor

/-! # Specification vocabulary: the formulas of the factorization, in the order in which they are evaluated

For any arithmetic, where the order of the operations matters. -/

namespace Ctldl

variable {K : Type}

/-- What is left of `a` when the numbers are subtracted one after the other, the first one first. -/
def subtractInOrder [Sub K] (a : K) (xs : List K) : K := xs.foldl (fun y x => y - x) a

open Classical in
/-- The entries in row `i`, from left to right. -/
noncomputable def rowEntriesOf (P : Nat → Nat → Prop) (i : Nat) : List Nat := (List.range i).filter fun k => P i k

open Classical in
/-- The columns left of column `j` in which the rows `i` and `j` both have an entry, from left to right. -/
noncomputable def commonEntriesOf (P : Nat → Nat → Prop) (i j : Nat) : List Nat :=
  (List.range j).filter fun k => P i k ∧ P j k

open Classical in
/-- The entries in column `j` of a matrix with `n` rows, from bottom to top. -/
noncomputable def columnEntriesOf (P : Nat → Nat → Prop) (n j : Nat) : List Nat :=
  ((List.range n).filter fun i => P i j).reverse

/-- The factors `L` and `D` of the matrix `A` with `n` rows are given by the formulas of the up-looking method: row `i` of
`L` before division by the pivots, `w`, solves a triangular system. -/
def UpLookingFormulas [Sub K] [Mul K] [Div K] (P : Nat → Nat → Prop) (n : Nat) (A L : Nat → Nat → K) (D : Nat → K)
    (reg : K → Nat → K) : Prop :=
  ∀ i < n, ∃ w : Nat → K,
    (∀ j, P i j → w j = subtractInOrder (A i j) ((commonEntriesOf P i j).map fun k => L j k * w k)) ∧
    (∀ j, P i j → L i j = w j / D j) ∧
    D i = reg (subtractInOrder (A i i) ((rowEntriesOf P i).map fun k => w k * (w k / D k))) i

/-- The same for the entry-wise method. -/
def EntryWiseFormulas [Sub K] [Mul K] [Div K] (P : Nat → Nat → Prop) (n : Nat) (A L : Nat → Nat → K) (D : Nat → K)
    (reg : K → Nat → K) : Prop :=
  ∀ i < n,
    (∀ j, P i j → L i j = subtractInOrder (A i j) ((commonEntriesOf P i j).map fun k => L i k * L j k * D k) / D j) ∧
    D i = reg (subtractInOrder (A i i) ((rowEntriesOf P i).map fun k => L i k * L i k * D k)) i

/-- The formulas of the entry-wise method if there is an outer block: for its rows, which are those from row `o` on, the
up-looking method is used for the columns before column `c`. -/
def EntryWiseOuterFormulas [Sub K] [Mul K] [Div K] (P : Nat → Nat → Prop) (n c o : Nat) (A L : Nat → Nat → K) (D : Nat → K)
    (reg : K → Nat → K) : Prop :=
  ∀ i < n, ∃ w : Nat → K,
    (∀ j, P i j → w j = subtractInOrder (A i j) ((commonEntriesOf P i j).map fun k =>
      if o ≤ i ∧ k < c then L j k * w k else L i k * L j k * D k)) ∧
    (∀ j, P i j → L i j = w j / D j) ∧
    D i = reg (subtractInOrder (A i i) ((rowEntriesOf P i).map fun k =>
      if o ≤ i ∧ k < c then w k * (w k / D k) else L i k * L i k * D k)) i

/-- The formulas of a method. -/
def FactorFormulas [Sub K] [Mul K] [Div K] (method : Method) (P : Nat → Nat → Prop) (n : Nat) (A L : Nat → Nat → K)
    (D : Nat → K) (reg : K → Nat → K) : Prop :=
  match method with
  | .upLooking => UpLookingFormulas P n A L D reg
  | .entryWise => EntryWiseFormulas P n A L D reg

/-- The solution `x` for the right-hand side `b` is given by the formulas of forward substitution, division by the pivots
and backward substitution. -/
def SolveFormulas [Sub K] [Mul K] [Div K] (P : Nat → Nat → Prop) (n : Nat) (L : Nat → Nat → K) (D b x : Nat → K) : Prop :=
  ∃ y : Nat → K,
    (∀ i < n, y i = subtractInOrder (b i) ((rowEntriesOf P i).map fun j => L i j * y j)) ∧
    ∀ i < n, x i = subtractInOrder (y i / D i) ((columnEntriesOf P n i).map fun k => L k i * x k)

end Ctldl
