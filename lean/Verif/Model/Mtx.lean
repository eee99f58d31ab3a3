import Verif.Model.Arrowhead

/-!
# `ctldl/fileio/*`

A file is the list of lines delivered by `std::getline`; a file that cannot be opened delivers none. The two uses
of `std::sscanf` are parameters (`Scanner`): nothing is assumed about how a line is turned into numbers.
-/

namespace Ctldl

/-- The two `std::sscanf` calls (`ctldl/fileio/mtx_read_header.cpp:26-27`,
`ctldl/fileio/mtx_foreach_entry.cpp:27-28`): `none` if fewer than three items are converted, an error if the behavior
is undefined. -/
structure Scanner (K : Type _) where
  header : String → Res (Option (Nat × Nat × Nat))
  entry : String → Res (Option (Nat × Nat × K))

/-- `MtxDimensions`, `ctldl/fileio/mtx_read_header.hpp:8-12`. -/
structure MtxDimensions where
  numRows : Nat
  numCols : Nat
  nnz : Nat
  deriving DecidableEq, Repr

/-- `MtxEntry`, `ctldl/fileio/mtx_foreach_entry.hpp:8-12`. -/
structure MtxEntry (K : Type _) where
  row : Nat
  col : Nat
  value : K

/-- `mtxCheck`, `ctldl/fileio/mtx_check.cpp:13-17`. -/
def mtxCheck (condition : Bool) (e : MtxErr) : Res Unit :=
  if condition then .ok () else .error (.mtx e)

/-- `line[0] == '%'`, `ctldl/fileio/mtx_read_header.cpp:19`. -/
def isComment (line : String) : Bool := line.toList.head? == some '%'

/-- `mtxReadHeader(file)`, `ctldl/fileio/mtx_read_header.cpp:17-30`: dimensions and the remaining lines. If there
are only comment lines, the scanned string is empty or a comment, neither of which has three numbers. -/
def mtxReadHeader {K : Type _} (scanner : Scanner K) (lines : List String) :
    Res (MtxDimensions × List String) :=
  match lines.dropWhile isComment with
  | [] => .error (.mtx .header)
  | line :: rest =>
    match scanner.header line with
    | .ok (some (numRows, numCols, nnz)) => .ok (⟨numRows, numCols, nnz⟩, rest)
    | .ok none => .error (.mtx .header)
    | .error e => .error e

/-- Body of the loop of `mtxForeachEntry`, `ctldl/fileio/mtx_foreach_entry.cpp:24-36`. The state of `func` is
threaded through. -/
def mtxForeachLine {K σ : Type _} (scanner : Scanner K) (dimensions : MtxDimensions)
    (func : σ → MtxEntry K → Res σ) (st : σ × Nat) (line : String) : Res (σ × Nat) :=
  match scanner.entry line with
  | .error e => .error e
  | .ok none => .error (.mtx .entryLine)
  | .ok (some (rowIndex, colIndex, value)) => do
    mtxCheck (rowIndex > 0) .rowZero
    mtxCheck (colIndex > 0) .colZero
    mtxCheck (rowIndex ≤ dimensions.numRows) .rowRange
    mtxCheck (colIndex ≤ dimensions.numCols) .colRange
    let s ← func st.1 ⟨rowIndex - 1, colIndex - 1, value⟩
    return (s, st.2 + 1)

/-- `mtxForeachEntry`, `ctldl/fileio/mtx_foreach_entry.cpp:14-41`. -/
def mtxForeachEntry {K σ : Type _} (scanner : Scanner K) (lines : List String)
    (func : σ → MtxEntry K → Res σ) (init : σ) : Res σ := do
  let (dimensions, rest) ← mtxReadHeader scanner lines
  let (s, numEntries) ← rest.foldlM (mtxForeachLine scanner dimensions func) (init, 0)
  mtxCheck (numEntries == dimensions.nnz) .entryCount
  return s

/-- `MtxInputMatrix`, `ctldl/fileio/mtx_file_read_repeating_block_tridiagonal_arrowhead_linked.hpp:84-91`. -/
structure MtxMatrix (K : Type _) where
  sparsity : Csr
  values : List K

/-- The `MtxInputMatrix` as a matrix given to `factorize` and `multiply`. -/
def MtxMatrix.toMatIn {K : Type _} (m : MtxMatrix K) : MatIn K := ⟨m.sparsity.toSparsity, m.values⟩

/-- Value-initialised `MtxInputMatrix<sparsity>{}`,
`ctldl/fileio/mtx_file_read_repeating_block_tridiagonal_arrowhead_linked.hpp:86-87`. -/
def MtxMatrix.new {K : Type _} [Zero K] (s : Sparsity) : Res (MtxMatrix K) := do
  let c ← s.toCsr
  return ⟨c, List.replicate c.nnz 0⟩

/-- The result type: `MatrixTridiagonalArrowheadLinked` of `MtxInputMatrix`es,
`ctldl/fileio/mtx_file_read_repeating_block_tridiagonal_arrowhead_linked.hpp:110-127, 181`. -/
structure MtxArrowhead (K : Type _) where
  startDiag : MtxMatrix K
  startNext : MtxMatrix K
  startOuter : MtxMatrix K
  tridiagDiag : List (MtxMatrix K)
  tridiagSubdiag : List (MtxMatrix K)
  linkPrev : MtxMatrix K
  linkDiag : MtxMatrix K
  linkNext : MtxMatrix K
  outerSubdiag : List (MtxMatrix K)
  outerDiag : MtxMatrix K

/-- The read matrix as input of `factorize` and `multiply`. -/
def MtxArrowhead.toMatrix {K : Type _} (m : MtxArrowhead K) : ArrowheadMatrix K :=
  { startDiag := m.startDiag.toMatIn
    startNext := m.startNext.toMatIn
    startOuter := m.startOuter.toMatIn
    tridiagDiag := m.tridiagDiag.map MtxMatrix.toMatIn
    tridiagSubdiag := m.tridiagSubdiag.map MtxMatrix.toMatIn
    linkPrev := m.linkPrev.toMatIn
    linkDiag := m.linkDiag.toMatIn
    linkNext := m.linkNext.toMatIn
    outerSubdiag := m.outerSubdiag.map MtxMatrix.toMatIn
    outerDiag := m.outerDiag.toMatIn }

variable {K : Type _}

/-- `mtxAddEntry`,
`ctldl/fileio/mtx_file_read_repeating_block_tridiagonal_arrowhead_linked.hpp:19-26`. -/
def mtxAddEntry (entry : MtxEntry K) (matrix : MtxMatrix K) : Res (MtxMatrix K) := do
  mtxCheck (← matrix.sparsity.isNonZero entry.row entry.col) .notCovered
  let entryIndex ← matrix.sparsity.entryIndex entry.row entry.col
  return { matrix with values := ← wr matrix.values entryIndex entry.value }

/-- `mtxAddEntryStart`,
`ctldl/fileio/mtx_file_read_repeating_block_tridiagonal_arrowhead_linked.hpp:28-37`. -/
def mtxAddEntryStart (s : SparsityStart) (entry : MtxEntry K) (m : MtxArrowhead K) :
    Res (MtxArrowhead K) := do
  let dim ← s.dim
  if entry.row < dim then
    return { m with startDiag := ← mtxAddEntry entry m.startDiag }
  else
    return { m with startNext := ← mtxAddEntry ⟨entry.row - dim, entry.col, entry.value⟩ m.startNext }

/-- `mtxAddEntryTridiag`,
`ctldl/fileio/mtx_file_read_repeating_block_tridiagonal_arrowhead_linked.hpp:39-53`. -/
def mtxAddEntryTridiag (s : SparsityTridiagonal) (entry : MtxEntry K) (m : MtxArrowhead K) :
    Res (MtxArrowhead K) := do
  let dim ← s.dim
  let repetitionIndex ← udiv entry.col dim
  let isDiagonalBlock := (← udiv entry.row dim) == (← udiv entry.col dim)
  let blockEntry : MtxEntry K := ⟨← umod entry.row dim, ← umod entry.col dim, entry.value⟩
  if isDiagonalBlock then
    let matrix ← mtxAddEntry blockEntry (← rd m.tridiagDiag repetitionIndex)
    return { m with tridiagDiag := ← wr m.tridiagDiag repetitionIndex matrix }
  else
    let matrix ← mtxAddEntry blockEntry (← rd m.tridiagSubdiag repetitionIndex)
    return { m with tridiagSubdiag := ← wr m.tridiagSubdiag repetitionIndex matrix }

/-- `mtxAddEntryOuterSubdiag`,
`ctldl/fileio/mtx_file_read_repeating_block_tridiagonal_arrowhead_linked.hpp:55-63`; `dim_inner()` is
`ctldl/factor_data/sparsity_to_factorize_outer.hpp:51`. -/
def mtxAddEntryOuterSubdiag (s : SparsityOuter) (entry : MtxEntry K) (m : MtxArrowhead K) :
    Res (MtxArrowhead K) := do
  let dimInner := s.subdiag.numCols
  let repetitionIndex ← udiv entry.col dimInner
  let blockEntry : MtxEntry K := ⟨← umod entry.row dimInner, ← umod entry.col dimInner, entry.value⟩
  let matrix ← mtxAddEntry blockEntry (← rd m.outerSubdiag repetitionIndex)
  return { m with outerSubdiag := ← wr m.outerSubdiag repetitionIndex matrix }

/-- `mtxAddEntryLink`,
`ctldl/fileio/mtx_file_read_repeating_block_tridiagonal_arrowhead_linked.hpp:65-82`; `dim_prev()` is
`ctldl/factor_data/sparsity_to_factorize_link.hpp:47`. -/
def mtxAddEntryLink (s : SparsityLink) (entry : MtxEntry K) (m : MtxArrowhead K) :
    Res (MtxArrowhead K) := do
  let dimPrev := s.prev.numCols
  if entry.col < dimPrev then
    return { m with linkPrev := ← mtxAddEntry entry m.linkPrev }
  let dim ← s.dim
  if entry.row ≥ dim then
    let matrix ← mtxAddEntry ⟨entry.row - dim, ← usub entry.col dimPrev, entry.value⟩ m.linkNext
    return { m with linkNext := matrix }
  return { m with linkDiag := ← mtxAddEntry ⟨entry.row, ← usub entry.col dimPrev, entry.value⟩ m.linkDiag }

/-- The number of repetitions,
`ctldl/fileio/mtx_file_read_repeating_block_tridiagonal_arrowhead_linked.hpp:95-108`. -/
def mtxNumRepetitions (s : ArrowheadSparsity) (header : MtxDimensions) : Res Nat := do
  mtxCheck (header.numRows == header.numCols) .notSquare
  let numRowsNonrepeating := (← s.dimStart) + (← s.dimLink) + (← s.dimOuter)
  mtxCheck (header.numRows > numRowsNonrepeating) .tooSmall
  let numRowsTridiag := header.numRows - numRowsNonrepeating
  let dimTridiag ← s.dimTridiag
  mtxCheck ((← umod numRowsTridiag dimTridiag) == 0) .notMultiple
  usub (← udiv numRowsTridiag dimTridiag) 1

/-- The zero matrix before reading entries,
`ctldl/fileio/mtx_file_read_repeating_block_tridiagonal_arrowhead_linked.hpp:110-127`. -/
def mtxEmpty [Zero K] (s : ArrowheadSparsity) (numRepetitions : Nat) : Res (MtxArrowhead K) := do
  return {
    startDiag := ← MtxMatrix.new s.start.diag
    startNext := ← MtxMatrix.new s.start.next
    startOuter := ← MtxMatrix.new s.start.outer
    tridiagDiag := List.replicate (numRepetitions + 1) (← MtxMatrix.new s.tridiag.diag)
    tridiagSubdiag := List.replicate numRepetitions (← MtxMatrix.new s.tridiag.subdiag)
    linkPrev := ← MtxMatrix.new s.link.prev
    linkDiag := ← MtxMatrix.new s.link.diag
    linkNext := ← MtxMatrix.new s.link.next
    outerSubdiag := List.replicate (numRepetitions + 1) (← MtxMatrix.new s.outer.subdiag)
    outerDiag := ← MtxMatrix.new s.outer.diag }

/-- The lambda given to `mtxForeachEntry`,
`ctldl/fileio/mtx_file_read_repeating_block_tridiagonal_arrowhead_linked.hpp:129-132, 134-179`. -/
def mtxPlaceEntry (s : ArrowheadSparsity) (numRepetitions : Nat) (m : MtxArrowhead K)
    (entry : MtxEntry K) : Res (MtxArrowhead K) := do
  let tridiagBegin ← s.dimStart
  let dimTridiag ← s.dimTridiag
  let tridiagEnd := tridiagBegin + (numRepetitions + 1) * dimTridiag
  let outerBegin := tridiagEnd + (← s.dimLink)
  mtxCheck (entry.row ≥ entry.col) .upperTriangle
  if entry.col < tridiagBegin then
    if entry.row < outerBegin then
      mtxAddEntryStart s.start entry m
    else
      let matrix ← mtxAddEntry ⟨entry.row - outerBegin, entry.col, entry.value⟩ m.startOuter
      return { m with startOuter := matrix }
  else if entry.row < tridiagEnd then
    mtxAddEntryTridiag s.tridiag
      ⟨← usub entry.row tridiagBegin, ← usub entry.col tridiagBegin, entry.value⟩ m
  else if entry.row ≥ outerBegin ∧ entry.col ≥ outerBegin then
    let matrix ← mtxAddEntry ⟨entry.row - outerBegin, entry.col - outerBegin, entry.value⟩ m.outerDiag
    return { m with outerDiag := matrix }
  else if entry.row ≥ outerBegin ∧ entry.col < tridiagEnd then
    mtxAddEntryOuterSubdiag s.outer
      ⟨entry.row - outerBegin, ← usub entry.col tridiagBegin, entry.value⟩ m
  else
    let tridiagLastBlockBegin ← usub tridiagEnd dimTridiag
    mtxCheck (entry.col ≥ tridiagLastBlockBegin) .notCovered
    mtxAddEntryLink s.link
      ⟨← usub entry.row tridiagEnd, entry.col - tridiagLastBlockBegin, entry.value⟩ m

/-- `mtxFileReadRepeatingBlockTridiagonalArrowheadLinked`,
`ctldl/fileio/mtx_file_read_repeating_block_tridiagonal_arrowhead_linked.hpp:93-182`. The file is read twice and
assumed not to change in between. -/
def mtxFileRead [Zero K] (scanner : Scanner K) (s : ArrowheadSparsity) (lines : List String) :
    Res (MtxArrowhead K) := do
  let (header, _) ← mtxReadHeader scanner lines
  let numRepetitions ← mtxNumRepetitions s header
  let m ← mtxEmpty s numRepetitions
  mtxForeachEntry scanner lines (mtxPlaceEntry s numRepetitions) m

end Ctldl
