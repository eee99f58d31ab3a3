import Verif.Spec.Definite
import Verif.Spec.EndToEnd
import Verif.Spec.Fill
import Verif.Spec.Tridiagonal

/-! # Specification vocabulary: the blocks of a repeating block matrix as parts of one matrix -/

namespace Ctldl

variable {K : Type}

/-- Row of the whole matrix in which row `k.2` of block `k.1` is. -/
def Dims.place (d : Dims) (numRepetitions : Nat) (k : Σ _ : Blk, Nat) : Nat := d.before numRepetitions k.1 + k.2

/-- The pattern `S` with the permutation `P` for one matrix which has the rows of all blocks, eliminated in the order of
the blocks and within each block in the order given by its permutation, and whose factor has an entry exactly where the
factors of the blocks have one. -/
structure Sparsity.Assembles (S : Sparsity) (P : List Nat) (s : ArrowheadSparsity) (T : ArrowheadTypes) (d : Dims)
    (numRepetitions : Nat) : Prop where
  size : S.numRows = d.total numRepetitions
  order : ∀ k ∈ positions d numRepetitions, permAt P (d.place numRepetitions k) =
    d.place numRepetitions ⟨k.1, permAt (s.perm k.1) k.2⟩
  pattern : ∀ k ∈ positions d numRepetitions, ∀ l ∈ positions d numRepetitions,
    Fill (LowerPermuted S P) (d.place numRepetitions k) (d.place numRepetitions l) ↔
      T.Has numRepetitions k.1 k.2 l.1 l.2

/-- One matrix which has the elements of all blocks. -/
def MatIn.Assembles [Zero K] (M : MatIn K) (m : ArrowheadMatrix K) (d : Dims) (numRepetitions : Nat) : Prop :=
  ∀ k ∈ positions d numRepetitions, ∀ l ∈ positions d numRepetitions,
    M.sym (d.place numRepetitions k) (d.place numRepetitions l) = m.symElement numRepetitions k.1 l.1 k.2 l.2

/-- The pattern `S` with the permutation `P` for one matrix which has the rows of all blocks of a block tridiagonal matrix
in the same sense. -/
structure Sparsity.AssemblesTridiagonal (S : Sparsity) (P p : List Nat) (T : ArrowheadTypes) (n numRepetitions : Nat) :
    Prop where
  size : S.numRows = (numRepetitions + 1) * n
  order : ∀ t < numRepetitions + 1, ∀ i < n, permAt P (t * n + i) = t * n + permAt p i
  pattern : ∀ t < numRepetitions + 1, ∀ i < n, ∀ u < numRepetitions + 1, ∀ j < n,
    Fill (LowerPermuted S P) (t * n + i) (u * n + j) ↔
      (t = u ∧ T.tridiagDiag.toSparsity.Has i j) ∨ (t = u + 1 ∧ T.tridiagSubdiag.toSparsity.Has i j)

/-- One matrix which has the elements of all blocks of a block tridiagonal matrix. -/
def MatIn.AssemblesTridiagonal [Zero K] (M : MatIn K) (A B : List (MatIn K)) (n numRepetitions : Nat) : Prop :=
  ∀ t < numRepetitions + 1, ∀ i < n, ∀ u < numRepetitions + 1, ∀ j < n,
    M.sym (t * n + i) (u * n + j) = tridiagonalSym A B t u i j

end Ctldl
