import Verif.Spec.Arrowhead

/-! # Specification vocabulary: repeating block tridiagonal matrices -/

namespace Ctldl

variable {K : Type}

/-- Template arguments with which `FactorizationRepeatingBlockTridiagonal` can be instantiated. -/
structure ValidTridiagonal (spA spB : Sparsity) (p : List Nat) (n : Nat) : Prop where
  diag : spA.OfDims n n
  subdiag : spB.OfDims n n
  perm : IsPerm p n
  small : 2 * n ≤ noParent

/-- `f` is the content of an object of type `FactorizationRepeatingBlockTridiagonal<spA, spB, Value, p>` constructed for
`N` repetitions, with arbitrary stored values; `T` are the patterns of its blocks. -/
def TridiagonalDeclared (f : ArrowheadFactor K) (spA spB : Sparsity) (p : List Nat) (T : ArrowheadTypes) (n N : Nat) :
    Prop :=
  ∃ s, tridiagonalSparsity spA spB p = .ok s ∧ f.Declared s T ⟨0, n, 0, 0⟩ N

/-- Matrices which can be given to its `factorize`: enough blocks of the right size with a value for each entry and no
non-zero outside of the pattern of the factor. -/
structure TridiagonalFits (A B : List (MatIn K)) (p : List Nat) (T : ArrowheadTypes) (n N : Nat) : Prop where
  numA : N + 1 ≤ A.length
  numB : N ≤ B.length
  diag : ∀ t < N + 1, (A.getD t (.empty K)).Sized ∧ (A.getD t (.empty K)).sparsity.OfDims n n ∧
    ∀ i j, LowerPermuted (A.getD t (.empty K)).sparsity p i j → T.tridiagDiag.toSparsity.Has i j
  subdiag : ∀ t < N, (B.getD t (.empty K)).Sized ∧ (B.getD t (.empty K)).sparsity.OfDims n n ∧
    ∀ i j, RectPermuted (B.getD t (.empty K)).sparsity p p i j → T.tridiagSubdiag.toSparsity.Has i j

/-- Element `(i, j)` of block `(t, u)` of the symmetric block tridiagonal matrix whose diagonal blocks have the lower
triangles `A` and whose subdiagonal blocks are `B`. -/
def tridiagonalSym [Zero K] (A B : List (MatIn K)) (t u i j : Nat) : K :=
  if t = u then (A.getD t (.empty K)).sym i j
  else if t = u + 1 then (B.getD u (.empty K)).elem i j
  else if u = t + 1 then (B.getD t (.empty K)).elem j i
  else 0

/-- The rows of the block tridiagonal matrix: block and row of the block. -/
def tridiagonalPositions (n N : Nat) : Finset (Nat × Nat) := Finset.range (N + 1) ×ˢ Finset.range n

/-- The symmetric block tridiagonal matrix over its rows. -/
def tridiagonalAssembled [Zero K] (A B : List (MatIn K)) (k l : Nat × Nat) : K := tridiagonalSym A B k.1 l.1 k.2 l.2

/-- Element `(i, j)` of block `(t, u)` of the product `L D Lᵀ` of the factors of a block tridiagonal matrix. -/
def tridiagonalLdlt [Semiring K] (f : ArrowheadFactor K) (n N t u i j : Nat) : K :=
  ∑ v ∈ Finset.range (N + 1), ∑ k ∈ Finset.range n, f.lowerElement N (.tridiag t) (.tridiag v) i k *
    f.pivotAt (.tridiag v) k * f.lowerElement N (.tridiag u) (.tridiag v) j k

/-- A block vector of `N + 1` blocks of size `n`. -/
structure BlockVector (v : List (List K)) (n N : Nat) : Prop where
  num : v.length = N + 1
  size : ∀ b ∈ v, b.length = n

end Ctldl
