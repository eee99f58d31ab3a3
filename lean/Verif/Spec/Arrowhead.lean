import Verif.Spec.Factor
import Verif.Spec.Multiply
import Verif.Model.Arrowhead

/-! # Specification vocabulary: tridiagonal arrowhead linked matrices and their factors as matrices of blocks -/

namespace Ctldl

open Finset

/-- The entries are in range and the dimensions are the given ones. -/
def Sparsity.OfDims (s : Sparsity) (numRows numCols : Nat) : Prop :=
  s.InRange ∧ s.numRows = numRows ∧ s.numCols = numCols

/-- Template arguments with which `FactorizationRepeatingBlockTridiagonalArrowheadLinked` can be instantiated: all
dimensions are consistent, entries are in range, the permutations are permutations, and the sizes which the
elimination trees have are not beyond their sentinel (`SIZE_MAX`). -/
structure ArrowheadSparsity.Valid (s : ArrowheadSparsity) (d : Dims) : Prop where
  startDiag : s.start.diag.OfDims d.start d.start
  startNext : s.start.next.OfDims d.tridiag d.start
  startOuter : s.start.outer.OfDims d.outer d.start
  tridiagDiag : s.tridiag.diag.OfDims d.tridiag d.tridiag
  tridiagSubdiag : s.tridiag.subdiag.OfDims d.tridiag d.tridiag
  linkPrev : s.link.prev.OfDims d.link d.tridiag
  linkDiag : s.link.diag.OfDims d.link d.link
  linkNext : s.link.next.OfDims d.outer d.link
  outerSubdiag : s.outer.subdiag.OfDims d.outer d.tridiag
  outerDiag : s.outer.diag.OfDims d.outer d.outer
  permStart : IsPerm s.start.permutation d.start
  permTridiag : IsPerm s.tridiag.permutation d.tridiag
  permLink : IsPerm s.link.permutation d.link
  permOuter : IsPerm s.outer.permutation d.outer
  smallStart : d.start + d.tridiag + d.outer ≤ noParent
  smallTridiag : 2 * d.tridiag ≤ noParent
  smallLink : d.tridiag + d.link + d.outer ≤ noParent

/-- The permutation of a block. -/
def ArrowheadSparsity.perm (s : ArrowheadSparsity) (b : Blk) : List Nat :=
  match b with
  | .start => s.start.permutation
  | .tridiag _ => s.tridiag.permutation
  | .link => s.link.permutation
  | .outer => s.outer.permutation

/-- The declared pattern of a diagonal block. -/
def ArrowheadSparsity.diagBlock (s : ArrowheadSparsity) (b : Blk) : Sparsity :=
  match b with
  | .start => s.start.diag
  | .tridiag _ => s.tridiag.diag
  | .link => s.link.diag
  | .outer => s.outer.diag

/-- The declared pattern of the block in block row `a` and block column `b`, if there is one below the diagonal. -/
def ArrowheadSparsity.lowerBlock (s : ArrowheadSparsity) (numRepetitions : Nat) (a b : Blk) : Option Sparsity :=
  match a, b with
  | .tridiag 0, .start => some s.start.next
  | .tridiag (t + 1), .tridiag u => if u = t ∧ t < numRepetitions then some s.tridiag.subdiag else none
  | .link, .tridiag t => if t = numRepetitions then some s.link.prev else none
  | .outer, .start => some s.start.outer
  | .outer, .tridiag t => if t ≤ numRepetitions then some s.outer.subdiag else none
  | .outer, .link => some s.link.next
  | _, _ => none

/-- The pattern of the factor in a diagonal block. -/
def ArrowheadTypes.diagBlock (T : ArrowheadTypes) (b : Blk) : Csr :=
  match b with
  | .start => T.startDiag
  | .tridiag _ => T.tridiagDiag
  | .link => T.linkDiag
  | .outer => T.outerDiag

/-- The pattern of the factor in block row `a` and block column `b`, if there is one below the diagonal. -/
def ArrowheadTypes.lowerBlock (T : ArrowheadTypes) (numRepetitions : Nat) (a b : Blk) : Option Csr :=
  match a, b with
  | .tridiag 0, .start => some T.startNext
  | .tridiag (t + 1), .tridiag u => if u = t ∧ t < numRepetitions then some T.tridiagSubdiag else none
  | .link, .tridiag t => if t = numRepetitions then some T.linkPrev else none
  | .outer, .start => some T.startOuter
  | .outer, .tridiag t => if t ≤ numRepetitions then some T.outerSubdiag else none
  | .outer, .link => some T.linkNext
  | _, _ => none

/-- A pattern of the assembled lower triangle: row `i` of block `a`, column `j` of block `b`. -/
def blockPattern (diag : Blk → Nat → Nat → Prop) (lower : Blk → Blk → Option (Nat → Nat → Prop))
    (a : Blk) (i : Nat) (b : Blk) (j : Nat) : Prop :=
  (a = b ∧ diag a i j) ∨ ∃ G, lower a b = some G ∧ G i j

/-- The pattern of the assembled factor. -/
def ArrowheadTypes.Has (T : ArrowheadTypes) (numRepetitions : Nat) : Blk → Nat → Blk → Nat → Prop :=
  blockPattern (fun b i j => (T.diagBlock b).toSparsity.Has i j)
    (fun a b => (T.lowerBlock numRepetitions a b).map fun c i j => c.toSparsity.Has i j)

/-- The declared pattern of the assembled matrix, each block row and column being permuted. -/
def ArrowheadSparsity.PermutedHas (s : ArrowheadSparsity) (numRepetitions : Nat) : Blk → Nat → Blk → Nat → Prop :=
  blockPattern (fun b => LowerPermuted (s.diagBlock b) (s.perm b))
    (fun a b => (s.lowerBlock numRepetitions a b).map fun c => RectPermuted c (s.perm a) (s.perm b))

/-- Position of a block in the order of elimination. -/
def Blk.rank (numRepetitions : Nat) (b : Blk) : Nat :=
  match b with
  | .start => 0
  | .tridiag t => t + 1
  | .link => numRepetitions + 2
  | .outer => numRepetitions + 3

/-- Order of elimination: row `i` of block `a` comes before row `j` of block `b`. -/
def Before (numRepetitions : Nat) (a : Blk) (i : Nat) (b : Blk) (j : Nat) : Prop :=
  a.rank numRepetitions < b.rank numRepetitions ∨ (a = b ∧ i < j)

/-- Fill-in of the elimination of the assembled matrix whose lower triangle has the pattern `G`, in the order
`Before`: whenever two rows have a non-zero in a column, the later one gets a non-zero in the column of the earlier
one. -/
inductive BlockFill (numRepetitions : Nat) (G : Blk → Nat → Blk → Nat → Prop) : Blk → Nat → Blk → Nat → Prop
  | base {a b : Blk} {i j : Nat} : G a i b j → BlockFill numRepetitions G a i b j
  | step {a b c : Blk} {i j k : Nat} : BlockFill numRepetitions G a i c k → BlockFill numRepetitions G b j c k →
      Before numRepetitions b j a i → BlockFill numRepetitions G a i b j

section

variable {K : Type}

/-- A factor of a diagonal block with given pattern, permutation and size, with arbitrary stored values. -/
structure DiagFactor.OfType (f : DiagFactor K) (c : Csr) (p : List Nat) (n : Nat) : Prop where
  pattern : f.sparsity = c
  perm : f.permutation = p
  sizeL : f.L.length = c.entries.length
  sizeD : f.D.length = n

/-- A factor of an off-diagonal block with given pattern and permutations, with arbitrary stored values. -/
structure SubFactor.OfType (f : SubFactor K) (c : Csr) (pr pc : List Nat) : Prop where
  pattern : f.sparsity = c
  permRow : f.permutationRow = pr
  permCol : f.permutationCol = pc
  sizeL : f.L.length = c.entries.length

/-- `f` is an object of type `FactorizationRepeatingBlockTridiagonalArrowheadLinked<s, Value>` constructed for
`numRepetitions` repetitions, with arbitrary stored values. -/
structure ArrowheadFactor.Declared (f : ArrowheadFactor K) (s : ArrowheadSparsity) (T : ArrowheadTypes) (d : Dims)
    (numRepetitions : Nat) : Prop where
  types : arrowheadTypes s = .ok T
  numDiag : f.tridiagDiag.length = numRepetitions + 1
  numSubdiag : f.tridiagSubdiag.length = numRepetitions
  numOuter : f.outerSubdiag.length = numRepetitions + 1
  startDiag : f.startDiag.OfType T.startDiag s.start.permutation d.start
  startNext : f.startNext.OfType T.startNext s.tridiag.permutation s.start.permutation
  startOuter : f.startOuter.OfType T.startOuter s.outer.permutation s.start.permutation
  tridiagDiag : ∀ g ∈ f.tridiagDiag, g.OfType T.tridiagDiag s.tridiag.permutation d.tridiag
  tridiagSubdiag : ∀ g ∈ f.tridiagSubdiag, g.OfType T.tridiagSubdiag s.tridiag.permutation s.tridiag.permutation
  linkPrev : f.linkPrev.OfType T.linkPrev s.link.permutation s.tridiag.permutation
  linkDiag : f.linkDiag.OfType T.linkDiag s.link.permutation d.link
  linkNext : f.linkNext.OfType T.linkNext s.outer.permutation s.link.permutation
  outerSubdiag : ∀ g ∈ f.outerSubdiag, g.OfType T.outerSubdiag s.outer.permutation s.tridiag.permutation
  outerDiag : f.outerDiag.OfType T.outerDiag s.outer.permutation d.outer

/-- `m` is a matrix which can be given to `factorize`: there are enough blocks, all of the right size with a value
for each entry, and no non-zero is outside of the declared pattern after fill-in. -/
structure ArrowheadMatrix.Fits (m : ArrowheadMatrix K) (s : ArrowheadSparsity) (T : ArrowheadTypes) (d : Dims)
    (numRepetitions : Nat) : Prop where
  numDiag : numRepetitions + 1 ≤ m.tridiagDiag.length
  numSubdiag : numRepetitions ≤ m.tridiagSubdiag.length
  numOuter : numRepetitions + 1 ≤ m.outerSubdiag.length
  diag : ∀ b ∈ blocks numRepetitions, (m.diagBlock b).Sized ∧
    (m.diagBlock b).sparsity.OfDims (d.of b) (d.of b) ∧
    ∀ i j, LowerPermuted (m.diagBlock b).sparsity (s.perm b) i j → (T.diagBlock b).toSparsity.Has i j
  lower : ∀ a b q c, m.lowerBlock numRepetitions a b = some q → T.lowerBlock numRepetitions a b = some c →
    q.Sized ∧ q.sparsity.OfDims (d.of a) (d.of b) ∧
    ∀ i j, RectPermuted q.sparsity (s.perm a) (s.perm b) i j → c.toSparsity.Has i j

/-- The factor of a diagonal block. -/
def ArrowheadFactor.diagBlock (f : ArrowheadFactor K) (b : Blk) : Option (DiagFactor K) :=
  match b with
  | .start => some f.startDiag
  | .tridiag t => f.tridiagDiag[t]?
  | .link => some f.linkDiag
  | .outer => some f.outerDiag

/-- The factor of the block in block row `a` and block column `b`, if there is one below the diagonal. -/
def ArrowheadFactor.lowerBlock (f : ArrowheadFactor K) (numRepetitions : Nat) (a b : Blk) : Option (SubFactor K) :=
  match a, b with
  | .tridiag 0, .start => some f.startNext
  | .tridiag (t + 1), .tridiag u => if u = t ∧ t < numRepetitions then f.tridiagSubdiag[t]? else none
  | .link, .tridiag t => if t = numRepetitions then some f.linkPrev else none
  | .outer, .start => some f.startOuter
  | .outer, .tridiag t => if t ≤ numRepetitions then f.outerSubdiag[t]? else none
  | .outer, .link => some f.linkNext
  | _, _ => none

/-- Element `(i, j)` of block `(a, b)` of the assembled unit lower triangular matrix. -/
def ArrowheadFactor.lowerElement [Zero K] [One K] (f : ArrowheadFactor K) (numRepetitions : Nat) (a b : Blk)
    (i j : Nat) : K :=
  if a = b then
    match f.diagBlock a with
    | some g => unitLower g.lower i j
    | none => 0
  else
    match f.lowerBlock numRepetitions a b with
    | some g => g.entry i j
    | none => 0

/-- Entry of the assembled factor at row `k` and column `l`, without the ones on the diagonal; zero where the factor has
no entry. -/
def ArrowheadFactor.storedAt [Zero K] (f : ArrowheadFactor K) (numRepetitions : Nat) (k l : Σ _ : Blk, Nat) : K :=
  if k.1 = l.1 then (f.diagBlock k.1).elim 0 (fun g => g.lower k.2 l.2)
  else (f.lowerBlock numRepetitions k.1 l.1).elim 0 (fun g => g.entry k.2 l.2)

/-- Pivot `i` of block `a`. -/
def ArrowheadFactor.pivotAt [Zero K] (f : ArrowheadFactor K) (a : Blk) (i : Nat) : K :=
  match f.diagBlock a with
  | some g => g.pivot i
  | none => 0

/-- Element `(i, j)` of block `(a, b)` of the assembled `L D Lᵀ`. -/
def ArrowheadFactor.ldlt [Semiring K] (f : ArrowheadFactor K) (d : Dims) (numRepetitions : Nat) (a b : Blk)
    (i j : Nat) : K :=
  ∑ c ∈ blocks numRepetitions, ∑ k ∈ range (d.of c),
    f.lowerElement numRepetitions a c i k * f.pivotAt c k * f.lowerElement numRepetitions b c j k

/-- Element `(i, j)` of block `(a, b)` of the assembled symmetric matrix to be factorized (given by the lower
triangles of the diagonal blocks and the blocks below them). -/
def ArrowheadMatrix.symElement [Zero K] (m : ArrowheadMatrix K) (numRepetitions : Nat) : Blk → Blk → Nat → Nat → K :=
  assembledElement (fun a => (m.diagBlock a).sym) (fun a b => (m.lowerBlock numRepetitions a b).map MatIn.elem)

/-- What `L D Lᵀ` of a computed factor is: the assembled symmetric matrix, each block row and column being permuted,
where the regularization changed the pivots `δ` to the stored ones. -/
def ArrowheadFactor.Reproduces [Field K] (f : ArrowheadFactor K) (m : ArrowheadMatrix K) (s : ArrowheadSparsity)
    (d : Dims) (numRepetitions : Nat) (reg : K → Nat → K) (δ : Blk → Nat → K) : Prop :=
  (∀ a ∈ blocks numRepetitions, ∀ i < d.of a, f.pivotAt a i = reg (δ a i) i) ∧
  ∀ a ∈ blocks numRepetitions, ∀ b ∈ blocks numRepetitions, ∀ i < d.of a, ∀ j < d.of b,
    f.ldlt d numRepetitions a b i j =
      m.symElement numRepetitions a b (permAt (s.perm a) i) (permAt (s.perm b) j) +
      if a = b ∧ i = j then f.pivotAt a i - δ a i else 0

end

end Ctldl
