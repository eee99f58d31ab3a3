import Verif.Spec.Arrowhead

/-! # Specification vocabulary: matrices of the right shape, whatever their non-zeros -/

namespace Ctldl

variable {K : Type}

/-- `m` has enough blocks, all of the right size with a value for each entry. Nothing is said about where the
non-zeros are. -/
structure ArrowheadMatrix.Shaped (m : ArrowheadMatrix K) (d : Dims) (numRepetitions : Nat) : Prop where
  numDiag : numRepetitions + 1 ≤ m.tridiagDiag.length
  numSubdiag : numRepetitions ≤ m.tridiagSubdiag.length
  numOuter : numRepetitions + 1 ≤ m.outerSubdiag.length
  diag : ∀ b ∈ blocks numRepetitions, (m.diagBlock b).Sized ∧ (m.diagBlock b).sparsity.OfDims (d.of b) (d.of b)
  lower : ∀ a b q, m.lowerBlock numRepetitions a b = some q → q.Sized ∧ q.sparsity.OfDims (d.of a) (d.of b)

/-- The pattern of the lower triangle of the given assembled matrix, each block row and column being permuted. -/
def ArrowheadMatrix.PermutedHas (m : ArrowheadMatrix K) (s : ArrowheadSparsity) (numRepetitions : Nat) :
    Blk → Nat → Blk → Nat → Prop :=
  blockPattern (fun b => LowerPermuted (m.diagBlock b).sparsity (s.perm b))
    (fun a b => (m.lowerBlock numRepetitions a b).map fun q => RectPermuted q.sparsity (s.perm a) (s.perm b))

end Ctldl
