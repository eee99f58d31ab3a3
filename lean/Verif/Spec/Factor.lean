import Verif.Spec.Fill
import Verif.Model.Factorize
import Mathlib.Algebra.BigOperators.Group.Finset.Basic
import Mathlib.Algebra.Field.Basic

/-! # Specification vocabulary: matrices, factors and what a factorization is -/

namespace Ctldl

/-- Element `(i, j)` of the symmetric matrix given by the lower triangle (including the diagonal) of `m`. -/
def MatIn.sym {K : Type _} [Zero K] (m : MatIn K) (i j : Nat) : K := m.elem (max i j) (min i j)

/-- Element `(i, j)` of the strictly lower triangular matrix stored in a factor, zero outside of its pattern. -/
def DiagFactor.lower {K : Type _} [Zero K] (f : DiagFactor K) (i j : Nat) : K :=
  (⟨f.sparsity.toSparsity, f.L⟩ : MatIn K).elem i j

/-- Element `(i, j)` of the matrix stored in an off-diagonal block, zero outside of its pattern. -/
def SubFactor.entry {K : Type _} [Zero K] (f : SubFactor K) (i j : Nat) : K :=
  (⟨f.sparsity.toSparsity, f.L⟩ : MatIn K).elem i j

/-- Pivot `i`. -/
def DiagFactor.pivot {K : Type _} [Zero K] (f : DiagFactor K) (i : Nat) : K := f.D.getD i 0

/-- Element of the unit lower triangular matrix with the given strictly lower part. -/
def unitLower {K : Type _} [One K] (l : Nat → Nat → K) (i j : Nat) : K := if i = j then 1 else l i j

/-- Template arguments with which `Factorization` can be instantiated: the entries of the pattern are in range,
it is square, the permutation is one, and the dimension is not the sentinel of the elimination tree (`SIZE_MAX`).
-/
structure ValidSparsity (s : Sparsity) (p : List Nat) : Prop where
  inRange : s.InRange
  square : s.numRows = s.numCols
  perm : IsPerm p s.numRows
  small : s.numRows ≤ noParent

/-- `f` is an object of type `Factorization<s, Value, p>`, with arbitrary stored values. -/
structure DiagFactor.Declared {K : Type _} (f : DiagFactor K) (s : Sparsity) (p : List Nat) : Prop where
  pattern : factorizationSparsity s p = .ok f.sparsity
  perm : f.permutation = p
  sizeL : f.L.length = f.sparsity.entries.length
  sizeD : f.D.length = s.numRows

/-- `m` is a matrix which can be given to `factorize` of a `Factorization<s, Value, p>`: of the same size, entries
in range, a value for each entry, and no non-zero in its lower triangle which is not in the declared pattern after
fill-in. -/
structure MatIn.Fits {K : Type _} (m : MatIn K) (s : Sparsity) (p : List Nat) : Prop where
  sized : m.Sized
  inRange : m.sparsity.InRange
  rows : m.sparsity.numRows = s.numRows
  cols : m.sparsity.numCols = s.numRows
  subset : ∀ i j, LowerPermuted m.sparsity p i j → Fill (LowerPermuted s p) i j

/-- `c` is the compressed form of a pattern with the given dimensions, entries in range and in strictly increasing
row-major order (which is what the factor classes store). -/
def Csr.Valid (c : Csr) (numRows numCols : Nat) : Prop :=
  ∃ s : Sparsity, s.InRange ∧ s.Sorted ∧ s.numRows = numRows ∧ s.numCols = numCols ∧ s.toCsr = .ok c

/-- Blocks which can be given to `factorize` with a left neighbour: `factor11` of size `n1`, `factor21` of size
`n2 x n1`, `factor22` of size `n2`, with arbitrary stored values. -/
structure BlocksDeclared {K : Type _} (f11 : DiagFactor K) (f21 : SubFactor K) (f22 : DiagFactor K) (n1 n2 : Nat) :
    Prop where
  pat11 : f11.sparsity.Valid n1 n1
  pat21 : f21.sparsity.Valid n2 n1
  pat22 : f22.sparsity.Valid n2 n2
  low11 : ∀ i j, f11.sparsity.toSparsity.Has i j → j < i
  low22 : ∀ i j, f22.sparsity.toSparsity.Has i j → j < i
  perm11 : f11.permutation.length = n1
  perm21r : IsPerm f21.permutationRow n2
  perm21c : IsPerm f21.permutationCol n1
  perm22 : IsPerm f22.permutation n2
  size11 : f11.L.length = f11.sparsity.entries.length
  sizeD1 : f11.D.length = n1
  size21 : f21.L.length = f21.sparsity.entries.length
  size22 : f22.L.length = f22.sparsity.entries.length
  sizeD2 : f22.D.length = n2
  small : n1 + n2 ≤ noParent

/-- An initialization for a block of the given size: nothing, or a matrix of that size. -/
def Init.Valid {K : Type _} (init : Init K) (numRows numCols : Nat) : Prop :=
  match init with
  | .none r c => r = numRows ∧ c = numCols
  | .matrix m => m.Sized ∧ m.sparsity.InRange ∧ m.sparsity.numRows = numRows ∧ m.sparsity.numCols = numCols

/-- The block `A₂₁` to be factorized: the stored values or those of the given matrix, permuted. -/
def SubFactor.initial {K : Type _} [Zero K] (f : SubFactor K) (init : Init K) (i j : Nat) : K :=
  match init with
  | .none _ _ => f.entry i j
  | .matrix m => m.elem (permAt f.permutationRow i) (permAt f.permutationCol j)

/-- The lower triangle of the block `A₂₂` to be factorized: the stored values (the diagonal being stored in place of
the pivots) or those of the given matrix, permuted. -/
def DiagFactor.initial {K : Type _} [Zero K] (f : DiagFactor K) (init : Init K) (i j : Nat) : K :=
  match init with
  | .none _ _ => if i = j then f.pivot i else f.lower i j
  | .matrix m => m.sym (permAt f.permutation i) (permAt f.permutation j)

open Finset in
/-- `L D Lᵀ` of size `n` at `(i, j)`, for a unit lower triangular `L`. -/
def ldlt {K : Type _} [Semiring K] (n : Nat) (l : Nat → Nat → K) (d : Nat → K) (i j : Nat) : K :=
  ∑ k ∈ range n, unitLower l i k * d k * unitLower l j k

end Ctldl
