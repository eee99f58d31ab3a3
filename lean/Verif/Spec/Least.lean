import Verif.Spec.Arrowhead

/-! # Specification vocabulary: patterns which are the same for all repetitions -/

namespace Ctldl

/-- A pattern of the lower triangle of a repeating block matrix (row `i` of block `a`, column `j` of block `b`) has the same
entries in the diagonal blocks of all repetitions, in the blocks which couple successive repetitions, and in the blocks which
couple repetitions and the last block. -/
structure UniformPattern (numRepetitions : Nat) (U : Blk → Nat → Blk → Nat → Prop) : Prop where
  diag : ∀ t ≤ numRepetitions, ∀ u ≤ numRepetitions, ∀ i j, U (.tridiag t) i (.tridiag t) j → U (.tridiag u) i (.tridiag u) j
  subdiag : ∀ t < numRepetitions, ∀ u < numRepetitions, ∀ i j,
    U (.tridiag (t + 1)) i (.tridiag t) j → U (.tridiag (u + 1)) i (.tridiag u) j
  outer : ∀ t ≤ numRepetitions, ∀ u ≤ numRepetitions, ∀ i j, U .outer i (.tridiag t) j → U .outer i (.tridiag u) j

/-- The pattern has the entries of the declared matrix and can be eliminated without further entries. -/
structure EliminationPattern (s : ArrowheadSparsity) (numRepetitions : Nat) (U : Blk → Nat → Blk → Nat → Prop) : Prop where
  declared : ∀ a ∈ blocks numRepetitions, ∀ b ∈ blocks numRepetitions, ∀ i j, s.PermutedHas numRepetitions a i b j → U a i b j
  closed : ∀ a ∈ blocks numRepetitions, ∀ b ∈ blocks numRepetitions, ∀ c ∈ blocks numRepetitions, ∀ i j k,
    U a i c k → U b j c k → Before numRepetitions b j a i → U a i b j

/-- Every block declares the entries of the block of the other one. -/
structure ArrowheadSparsity.Within (s s' : ArrowheadSparsity) : Prop where
  perm : ∀ a, s'.perm a = s.perm a
  diag : ∀ a i j, (s.diagBlock a).Has i j → (s'.diagBlock a).Has i j
  startNext : ∀ i j, s.start.next.Has i j → s'.start.next.Has i j
  startOuter : ∀ i j, s.start.outer.Has i j → s'.start.outer.Has i j
  tridiagSubdiag : ∀ i j, s.tridiag.subdiag.Has i j → s'.tridiag.subdiag.Has i j
  linkPrev : ∀ i j, s.link.prev.Has i j → s'.link.prev.Has i j
  linkNext : ∀ i j, s.link.next.Has i j → s'.link.next.Has i j
  outerSubdiag : ∀ i j, s.outer.subdiag.Has i j → s'.outer.subdiag.Has i j

end Ctldl
