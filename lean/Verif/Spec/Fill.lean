import Verif.Spec.Sparsity
import Verif.Spec.Permutation
import Verif.Model.Symbolic

/-! # Specification vocabulary: fill-in of symmetric elimination -/

namespace Ctldl

/-- Fill-in of Gaussian elimination on a symmetric matrix whose strictly lower pattern is `G`: the smallest
strictly lower pattern containing `G` such that eliminating a column `j` connects all later rows with a
non-zero in that column. -/
inductive Fill (G : Nat → Nat → Prop) : Nat → Nat → Prop
  | base {i j : Nat} : G i j → j < i → Fill G i j
  | step {i j k : Nat} : Fill G i j → Fill G k j → k < i → Fill G i k

/-- A pattern with given dimensions whose entries are exactly the positions satisfying `P`, listed in strictly
increasing row-major order. -/
def Sparsity.IsPattern (s : Sparsity) (numRows numCols : Nat) (P : Nat → Nat → Prop) : Prop :=
  s.numRows = numRows ∧ s.numCols = numCols ∧ s.Sorted ∧ ∀ i j, s.Has i j ↔ i < numRows ∧ j < numCols ∧ P i j

/-- A pattern is closed under elimination: there is no fill-in. -/
def FillFree (G : Nat → Nat → Prop) : Prop := ∀ i j, Fill G i j → G i j

/-- `p` is the parent of `j` in the elimination tree: the row of the first non-zero below the diagonal of
column `j` after fill-in. -/
def IsParent (G : Nat → Nat → Prop) (j p : Nat) : Prop := Fill G p j ∧ ∀ i, Fill G i j → p ≤ i

/-- A list of parents represents the elimination tree of `G` on the nodes `0, …, n - 1`: entry `j` is the parent
of `j`, or the sentinel if column `j` has no non-zero below the diagonal. -/
def IsEliminationTree (G : Nat → Nat → Prop) (n : Nat) (tree : List Nat) : Prop :=
  tree.length = n ∧ ∀ j < n, (∃ p, IsParent G j p ∧ tree[j]? = some p) ∨
    ((¬ ∃ i, Fill G i j) ∧ tree[j]? = some noParent)

/-- Strictly lower triangular pattern of the symmetrically permuted matrix whose lower triangle has pattern `s`:
row and column `i` of the result are row and column `p[i]` of the original. -/
def LowerPermuted (s : Sparsity) (p : List Nat) (i j : Nat) : Prop :=
  j < i ∧ i < s.numRows ∧ s.Has (max (permAt p i) (permAt p j)) (min (permAt p i) (permAt p j))

/-- Pattern of the permuted rectangular matrix. -/
def RectPermuted (s : Sparsity) (pr pc : List Nat) (i j : Nat) : Prop :=
  i < s.numRows ∧ j < s.numCols ∧ s.Has (permAt pr i) (permAt pc j)

/-- Pattern of a matrix assembled from 2 x 2 blocks (lower triangle), the first diagonal block of size `n1`. -/
def Assembled2 (n1 : Nat) (G11 G21 G22 : Nat → Nat → Prop) (i j : Nat) : Prop :=
  G11 i j ∨ (n1 ≤ i ∧ G21 (i - n1) j) ∨ (n1 ≤ i ∧ n1 ≤ j ∧ G22 (i - n1) (j - n1))

/-- Pattern of a matrix assembled from 3 x 3 blocks (lower triangle), the first two diagonal blocks of sizes
`n1`, `n2`. -/
def Assembled3 (n1 n2 : Nat) (G11 G21 G22 G31 G32 G33 : Nat → Nat → Prop) (i j : Nat) : Prop :=
  G11 i j ∨
  (n1 ≤ i ∧ G21 (i - n1) j) ∨
  (n1 ≤ i ∧ n1 ≤ j ∧ G22 (i - n1) (j - n1)) ∨
  (n1 + n2 ≤ i ∧ G31 (i - (n1 + n2)) j) ∨
  (n1 + n2 ≤ i ∧ n1 ≤ j ∧ G32 (i - (n1 + n2)) (j - n1)) ∨
  (n1 + n2 ≤ i ∧ n1 + n2 ≤ j ∧ G33 (i - (n1 + n2)) (j - (n1 + n2)))

/-- Strictly lower pattern of the block tridiagonal arrowhead matrix with `N` repetitions: `N + 1` diagonal blocks
of size `n` with pattern `A`, `N` subdiagonal blocks with pattern `B`, and below them a block row with pattern `C`
in each block and pattern `E` on the diagonal. -/
def RepeatingAssembled (n N : Nat) (A B C E : Nat → Nat → Prop) (x y : Nat) : Prop :=
  (∃ t i j, t ≤ N ∧ x = t * n + i ∧ y = t * n + j ∧ A i j) ∨
  (∃ t i j, t < N ∧ x = (t + 1) * n + i ∧ y = t * n + j ∧ B i j) ∨
  (∃ t o j, t ≤ N ∧ x = (N + 1) * n + o ∧ y = t * n + j ∧ C o j) ∨
  (∃ o o', x = (N + 1) * n + o ∧ y = (N + 1) * n + o' ∧ E o o')

/-- The parents of the nodes `n, n + 1, …` of a tree, as tree on `0, 1, …`. -/
def secondHalf (n : Nat) (tree : List Nat) : List Nat :=
  (tree.drop n).map fun x => if x = noParent then noParent else x - n

/-- Pattern on two blocks of size `n`: the edges of the forest `F` on the first block, and then a further block
with pattern `A` on the diagonal and `B` left of it. -/
def AppendBlock (n : Nat) (A B : Nat → Nat → Prop) (F : List Nat) (x y : Nat) : Prop :=
  (F[y]? = some x ∧ x ≠ noParent) ∨ (n ≤ x ∧ B (x - n) y) ∨ (n ≤ x ∧ n ≤ y ∧ A (x - n) (y - n))

end Ctldl
