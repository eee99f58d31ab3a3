import Verif.Spec.Sparsity
import Verif.Model.Multiply
import Mathlib.Algebra.BigOperators.Group.Finset.Basic
import Mathlib.Algebra.Ring.Defs

/-! # Specification vocabulary: dense matrices and products -/

namespace Ctldl

open Finset

variable {K : Type}

/-- A matrix of the given size with a value for each entry. Entries may be in any order and may be repeated. -/
structure MatIn.OfSize (m : MatIn K) (numRows numCols : Nat) : Prop where
  sized : m.values.length = m.sparsity.entries.length
  inRange : ∀ e ∈ m.sparsity.entries, e.row < numRows ∧ e.col < numCols

/-- Element `(i, j)` of a matrix; values of repeated entries are added. -/
def MatIn.dense [AddCommMonoid K] (m : MatIn K) (i j : Nat) : K :=
  ∑ t ∈ range m.sparsity.entries.length,
    if m.sparsity.entries[t]? = some ⟨i, j⟩ then m.values.getD t 0 else 0

/-- Element `(i, j)` of `A + Aᵀ` with the diagonal of `A`. -/
def MatIn.symmetrized [AddCommMonoid K] (m : MatIn K) (i j : Nat) : K :=
  m.dense i j + if i = j then 0 else m.dense j i

/-- Element `(i, j)` of the matrix multiplied with. -/
def MultiplyKind.element [AddCommMonoid K] (kind : MultiplyKind) (m : MatIn K) (i j : Nat) : K :=
  match kind with
  | .normal => m.dense i j
  | .transposed => m.dense j i
  | .symmetric => m.symmetrized i j

/-- Element `i` of block `t`. -/
def blockAt [Zero K] (v : List (List K)) (t i : Nat) : K := (v.getD t []).getD i 0

/-- Element `(i, j)` of block `(t, u)` of the symmetric block tridiagonal matrix with diagonal blocks `A` and
subdiagonal blocks `B`. -/
def tridiagonalElement [AddCommMonoid K] (A B : Nat → MatIn K) (t u i j : Nat) : K :=
  if t = u then (A t).symmetrized i j
  else if t = u + 1 then (B u).dense i j
  else if u = t + 1 then (B t).dense j i
  else 0

/-- The matrix of size zero, standing for blocks which do not exist. -/
def MatIn.empty (K : Type) : MatIn K := ⟨⟨0, 0, []⟩, []⟩

/-- The blocks of a tridiagonal arrowhead linked matrix or vector. -/
inductive Blk where
  | start
  | tridiag (t : Nat)
  | link
  | outer
  deriving DecidableEq

/-- The blocks for `numRepetitions` repetitions. -/
def blocks (numRepetitions : Nat) : Finset Blk :=
  {.start} ∪ (range (numRepetitions + 1)).image .tridiag ∪ {.link} ∪ {.outer}

/-- Element `i` of block `b` of a vector. -/
def ArrowheadVector.at [Zero K] (v : ArrowheadVector K) (b : Blk) (i : Nat) : K :=
  match b with
  | .start => v.start.getD i 0
  | .tridiag t => blockAt v.tridiag t i
  | .link => v.link.getD i 0
  | .outer => v.outer.getD i 0

/-- The diagonal block of `b`. -/
def ArrowheadMatrix.diagBlock (m : ArrowheadMatrix K) (b : Blk) : MatIn K :=
  match b with
  | .start => m.startDiag
  | .tridiag t => m.tridiagDiag.getD t (.empty K)
  | .link => m.linkDiag
  | .outer => m.outerDiag

/-- The block below the diagonal in block row `a` and block column `b`, if there is one: every block but `outer`
is coupled to the next one, and `outer` is coupled to all of them. -/
def ArrowheadMatrix.lowerBlock (m : ArrowheadMatrix K) (numRepetitions : Nat) (a b : Blk) : Option (MatIn K) :=
  match a, b with
  | .tridiag 0, .start => some m.startNext
  | .tridiag (t + 1), .tridiag u => if u = t ∧ t < numRepetitions then m.tridiagSubdiag[t]? else none
  | .link, .tridiag t => if t = numRepetitions then some m.linkPrev else none
  | .outer, .start => some m.startOuter
  | .outer, .tridiag t => if t ≤ numRepetitions then m.outerSubdiag[t]? else none
  | .outer, .link => some m.linkNext
  | _, _ => none

/-- Sizes of the blocks. -/
structure Dims where
  start : Nat
  tridiag : Nat
  link : Nat
  outer : Nat

/-- Size of block `b`. -/
def Dims.of (d : Dims) (b : Blk) : Nat :=
  match b with
  | .start => d.start
  | .tridiag _ => d.tridiag
  | .link => d.link
  | .outer => d.outer

/-- Element `(i, j)` of block `(a, b)` of the symmetric matrix whose diagonal blocks are given by their elements and
whose other blocks are given below the diagonal. -/
def assembledElement [Zero K] (diag : Blk → Nat → Nat → K) (lower : Blk → Blk → Option (Nat → Nat → K))
    (a b : Blk) (i j : Nat) : K :=
  if a = b then diag a i j
  else match lower a b with
    | some l => l i j
    | none => match lower b a with
      | some l => l j i
      | none => 0

/-- All blocks have the given sizes, for `numRepetitions` repetitions. -/
structure ArrowheadMatrix.OfSize (m : ArrowheadMatrix K) (d : Dims) (numRepetitions : Nat) : Prop where
  numDiag : m.tridiagDiag.length = numRepetitions + 1
  numSubdiag : m.tridiagSubdiag.length = numRepetitions
  numOuter : m.outerSubdiag.length = numRepetitions + 1
  startDiag : m.startDiag.OfSize d.start d.start
  startNext : m.startNext.OfSize d.tridiag d.start
  startOuter : m.startOuter.OfSize d.outer d.start
  tridiagDiag : ∀ b ∈ m.tridiagDiag, b.OfSize d.tridiag d.tridiag
  tridiagSubdiag : ∀ b ∈ m.tridiagSubdiag, b.OfSize d.tridiag d.tridiag
  linkPrev : m.linkPrev.OfSize d.link d.tridiag
  linkDiag : m.linkDiag.OfSize d.link d.link
  linkNext : m.linkNext.OfSize d.outer d.link
  outerSubdiag : ∀ b ∈ m.outerSubdiag, b.OfSize d.outer d.tridiag
  outerDiag : m.outerDiag.OfSize d.outer d.outer

/-- All blocks of the vector have the given sizes, for `numRepetitions` repetitions. -/
structure ArrowheadVector.OfSize (v : ArrowheadVector K) (d : Dims) (numRepetitions : Nat) : Prop where
  num : v.tridiag.length = numRepetitions + 1
  start : v.start.length = d.start
  tridiag : ∀ b ∈ v.tridiag, b.length = d.tridiag
  link : v.link.length = d.link
  outer : v.outer.length = d.outer

/-- Element `(i, j)` of block `(a, b)` of the symmetric matrix multiplied with. -/
def ArrowheadMatrix.denseElement [AddCommMonoid K] (m : ArrowheadMatrix K) (numRepetitions : Nat) :
    Blk → Blk → Nat → Nat → K :=
  assembledElement (fun a => (m.diagBlock a).symmetrized) (fun a b => (m.lowerBlock numRepetitions a b).map MatIn.dense)

end Ctldl
