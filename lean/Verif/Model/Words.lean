import Verif.Model.Scan

/-!
# Sizes and indices as words of 64 bits, and memory which is exhausted

The functions of `Model/Mtx` which compute with sizes and indices of a file again, with the arithmetic of `std::size_t`:
sums, products and differences modulo `2 ^ 64`. Whether the `k`-th allocation of a `std::vector` with `n` elements succeeds
(or throws `std::length_error` or `std::bad_alloc`) is a parameter `allocate k n`.
-/

namespace Ctldl

/-- `a + b` of `std::size_t`. -/
def wadd (a b : Nat) : Nat := (a + b) % 2 ^ 64

/-- `a - b` of `std::size_t`. -/
def wsub (a b : Nat) : Nat := (a + (2 ^ 64 - b)) % 2 ^ 64

/-- `a * b` of `std::size_t`. -/
def wmul (a b : Nat) : Nat := (a * b) % 2 ^ 64

variable {K : Type _}

/-- `mtxNumRepetitions` with words,
`ctldl/fileio/mtx_file_read_repeating_block_tridiagonal_arrowhead_linked.hpp:95-108`. -/
def mtxNumRepetitionsWords (s : ArrowheadSparsity) (header : MtxDimensions) : Res Nat := do
  mtxCheck (header.numRows == header.numCols) .notSquare
  let numRowsNonrepeating := wadd (wadd (← s.dimStart) (← s.dimLink)) (← s.dimOuter)
  mtxCheck (header.numRows > numRowsNonrepeating) .tooSmall
  let numRowsTridiag := wsub header.numRows numRowsNonrepeating
  let dimTridiag ← s.dimTridiag
  mtxCheck ((← umod numRowsTridiag dimTridiag) == 0) .notMultiple
  return wsub (← udiv numRowsTridiag dimTridiag) 1

/-- `mtxAddEntryStart` with words,
`ctldl/fileio/mtx_file_read_repeating_block_tridiagonal_arrowhead_linked.hpp:28-37`. -/
def mtxAddEntryStartWords (s : SparsityStart) (entry : MtxEntry K) (m : MtxArrowhead K) :
    Res (MtxArrowhead K) := do
  let dim ← s.dim
  if entry.row < dim then
    return { m with startDiag := ← mtxAddEntry entry m.startDiag }
  else
    return { m with startNext := ← mtxAddEntry ⟨wsub entry.row dim, entry.col, entry.value⟩ m.startNext }

/-- `mtxAddEntryLink` with words,
`ctldl/fileio/mtx_file_read_repeating_block_tridiagonal_arrowhead_linked.hpp:65-82`. -/
def mtxAddEntryLinkWords (s : SparsityLink) (entry : MtxEntry K) (m : MtxArrowhead K) :
    Res (MtxArrowhead K) := do
  let dimPrev := s.prev.numCols
  if entry.col < dimPrev then
    return { m with linkPrev := ← mtxAddEntry entry m.linkPrev }
  let dim ← s.dim
  if entry.row ≥ dim then
    let matrix ← mtxAddEntry ⟨wsub entry.row dim, wsub entry.col dimPrev, entry.value⟩ m.linkNext
    return { m with linkNext := matrix }
  return { m with linkDiag := ← mtxAddEntry ⟨entry.row, wsub entry.col dimPrev, entry.value⟩ m.linkDiag }

/-- `mtxPlaceEntry` with words,
`ctldl/fileio/mtx_file_read_repeating_block_tridiagonal_arrowhead_linked.hpp:129-132, 134-179`. -/
def mtxPlaceEntryWords (s : ArrowheadSparsity) (numRepetitions : Nat) (m : MtxArrowhead K)
    (entry : MtxEntry K) : Res (MtxArrowhead K) := do
  let tridiagBegin ← s.dimStart
  let dimTridiag ← s.dimTridiag
  let tridiagEnd := wadd tridiagBegin (wmul (wadd numRepetitions 1) dimTridiag)
  let outerBegin := wadd tridiagEnd (← s.dimLink)
  mtxCheck (entry.row ≥ entry.col) .upperTriangle
  if entry.col < tridiagBegin then
    if entry.row < outerBegin then
      mtxAddEntryStartWords s.start entry m
    else
      let matrix ← mtxAddEntry ⟨wsub entry.row outerBegin, entry.col, entry.value⟩ m.startOuter
      return { m with startOuter := matrix }
  else if entry.row < tridiagEnd then
    mtxAddEntryTridiag s.tridiag ⟨wsub entry.row tridiagBegin, wsub entry.col tridiagBegin, entry.value⟩ m
  else if entry.row ≥ outerBegin ∧ entry.col ≥ outerBegin then
    let matrix ← mtxAddEntry ⟨wsub entry.row outerBegin, wsub entry.col outerBegin, entry.value⟩ m.outerDiag
    return { m with outerDiag := matrix }
  else if entry.row ≥ outerBegin ∧ entry.col < tridiagEnd then
    mtxAddEntryOuterSubdiag s.outer ⟨wsub entry.row outerBegin, wsub entry.col tridiagBegin, entry.value⟩ m
  else
    let tridiagLastBlockBegin := wsub tridiagEnd dimTridiag
    mtxCheck (entry.col ≥ tridiagLastBlockBegin) .notCovered
    mtxAddEntryLinkWords s.link
      ⟨wsub entry.row tridiagEnd, wsub entry.col tridiagLastBlockBegin, entry.value⟩ m

/-- Body of the loop of `mtxForeachEntry` with words, `ctldl/fileio/mtx_foreach_entry.cpp:24-36`. -/
def mtxForeachLineWords {σ : Type _} (scanner : Scanner K) (dimensions : MtxDimensions)
    (func : σ → MtxEntry K → Res σ) (st : σ × Nat) (line : String) : Res (σ × Nat) :=
  match scanner.entry line with
  | .error e => .error e
  | .ok none => .error (.mtx .entryLine)
  | .ok (some (rowIndex, colIndex, value)) => do
    mtxCheck (rowIndex > 0) .rowZero
    mtxCheck (colIndex > 0) .colZero
    mtxCheck (rowIndex ≤ dimensions.numRows) .rowRange
    mtxCheck (colIndex ≤ dimensions.numCols) .colRange
    let s ← func st.1 ⟨wsub rowIndex 1, wsub colIndex 1, value⟩
    return (s, wadd st.2 1)

/-- `mtxForeachEntry` with words, `ctldl/fileio/mtx_foreach_entry.cpp:14-41`. -/
def mtxForeachEntryWords {σ : Type _} (scanner : Scanner K) (lines : List String)
    (func : σ → MtxEntry K → Res σ) (init : σ) : Res σ := do
  let (dimensions, rest) ← mtxReadHeader scanner lines
  let (s, numEntries) ← rest.foldlM (mtxForeachLineWords scanner dimensions func) (init, 0)
  mtxCheck (numEntries == dimensions.nnz) .entryCount
  return s

/-- The three vectors of a matrix with a repeating part, allocated after `k` others,
`ctldl/fileio/mtx_file_read_repeating_block_tridiagonal_arrowhead_linked.hpp:115-127`. -/
def allocateVectors (allocate : Nat → Nat → Bool) (k numRepetitions : Nat) : Bool :=
  allocate k (wadd numRepetitions 1) && allocate (k + 1) numRepetitions && allocate (k + 2) (wadd numRepetitions 1)

/-- The zero matrix before reading entries, with words,
`ctldl/fileio/mtx_file_read_repeating_block_tridiagonal_arrowhead_linked.hpp:110-127`. -/
def mtxEmptyWords [Zero K] (s : ArrowheadSparsity) (numRepetitions : Nat) : Res (MtxArrowhead K) := do
  return {
    startDiag := ← MtxMatrix.new s.start.diag
    startNext := ← MtxMatrix.new s.start.next
    startOuter := ← MtxMatrix.new s.start.outer
    tridiagDiag := List.replicate (wadd numRepetitions 1) (← MtxMatrix.new s.tridiag.diag)
    tridiagSubdiag := List.replicate numRepetitions (← MtxMatrix.new s.tridiag.subdiag)
    linkPrev := ← MtxMatrix.new s.link.prev
    linkDiag := ← MtxMatrix.new s.link.diag
    linkNext := ← MtxMatrix.new s.link.next
    outerSubdiag := List.replicate (wadd numRepetitions 1) (← MtxMatrix.new s.outer.subdiag)
    outerDiag := ← MtxMatrix.new s.outer.diag }

/-- `mtxFileReadRepeatingBlockTridiagonalArrowheadLinked` with words and memory,
`ctldl/fileio/mtx_file_read_repeating_block_tridiagonal_arrowhead_linked.hpp:93-182`: `none` if an allocation throws. The
returned matrix has copies of the vectors (`:181`). -/
def mtxFileReadWords [Zero K] (allocate : Nat → Nat → Bool) (scanner : Scanner K) (s : ArrowheadSparsity)
    (lines : List String) : Res (Option (MtxArrowhead K)) := do
  let (header, _) ← mtxReadHeader scanner lines
  let numRepetitions ← mtxNumRepetitionsWords s header
  let m ← mtxEmptyWords s numRepetitions
  if allocateVectors allocate 0 numRepetitions then
    let m ← mtxForeachEntryWords scanner lines (mtxPlaceEntryWords s numRepetitions) m
    if allocateVectors allocate 3 numRepetitions then return some m else return none
  else return none

/-- Sizes of the vectors of a new object of `FactorizationRepeatingBlockTridiagonalArrowheadLinked`: diagonal blocks,
subdiagonal blocks and outer blocks. -/
structure RepeatingSizes where
  diag : Nat
  subdiag : Nat
  outer : Nat
  deriving DecidableEq, Repr

/-- The constructor of `FactorizationRepeatingBlockTridiagonalArrowheadLinked` with `checkNumRepetitionsClassInvariant`,
`ctldl/factor_data/factorization_repeating_block_tridiagonal_arrowhead_linked.hpp:130-155`: `none` if an allocation
throws. -/
def constructRepeating (allocate : Nat → Nat → Bool) (numRepetitions : Nat) : Res (Option RepeatingSizes) :=
  if allocateVectors allocate 0 numRepetitions then do
    let sizes : RepeatingSizes := ⟨wadd numRepetitions 1, numRepetitions, wadd numRepetitions 1⟩
    assert' (sizes.subdiag < 2 ^ 64 - 1)
    assert' (sizes.diag == wadd sizes.subdiag 1)
    assert' (sizes.subdiag == sizes.subdiag)
    assert' (sizes.outer == wadd sizes.subdiag 1)
    return some sizes
  else return none

end Ctldl
