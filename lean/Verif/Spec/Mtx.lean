import Verif.Model.Mtx
import Verif.Spec.Arrowhead

/-! # Specification vocabulary: Matrix Market files and where their entries belong -/

namespace Ctldl

variable {K : Type}

/-- The line starts with `%`. -/
def CommentLine (line : String) : Prop := ∃ rest, line.toList = '%' :: rest

/-- The lines are those of a file with announced sizes `dims` and the given entries (with indices from zero):
comments, a line with the sizes, then one line for each entry, with indices from one which are not beyond the sizes,
and as many of them as announced. -/
def IsMtxFile (scanner : Scanner K) (lines : List String) (dims : MtxDimensions) (entries : List (MtxEntry K)) :
    Prop :=
  ∃ comments header rest, lines = comments ++ header :: rest ∧ (∀ line ∈ comments, CommentLine line) ∧
    ¬ CommentLine header ∧ scanner.header header = .ok (some (dims.numRows, dims.numCols, dims.nnz)) ∧
    rest.map scanner.entry = entries.map (fun e => .ok (some (e.row + 1, e.col + 1, e.value))) ∧
    (∀ e ∈ entries, e.row < dims.numRows ∧ e.col < dims.numCols) ∧ entries.length = dims.nnz

/-- The indices (from one) of an entry are not those of a matrix of the given sizes, and why: the first reason which
applies. -/
inductive IndexDefect (dims : MtxDimensions) : Nat → Nat → MtxErr → Prop
  | rowZero (c : Nat) : IndexDefect dims 0 c .rowZero
  | colZero {r : Nat} (hr : 0 < r) : IndexDefect dims r 0 .colZero
  | rowLarge {r c : Nat} (hr : dims.numRows < r) (hc : 0 < c) : IndexDefect dims r c .rowRange
  | colLarge {r c : Nat} (hr : 0 < r) (hr' : r ≤ dims.numRows) (hc : dims.numCols < c) : IndexDefect dims r c .colRange

/-- Number of rows before block `b`. -/
def Dims.before (d : Dims) (numRepetitions : Nat) (b : Blk) : Nat :=
  match b with
  | .start => 0
  | .tridiag t => d.start + t * d.tridiag
  | .link => d.start + (numRepetitions + 1) * d.tridiag
  | .outer => d.start + (numRepetitions + 1) * d.tridiag + d.link

/-- Number of rows of the assembled matrix. -/
def Dims.total (d : Dims) (numRepetitions : Nat) : Nat :=
  d.start + (numRepetitions + 1) * d.tridiag + d.link + d.outer

/-- Row (or column) `r` of the assembled matrix is row (or column) `i` of block `b`. -/
structure Dims.Locates (d : Dims) (numRepetitions : Nat) (r : Nat) (b : Blk) (i : Nat) : Prop where
  block : b ∈ blocks numRepetitions
  lt : i < d.of b
  eq : r = d.before numRepetitions b + i

/-- Position `(r, c)` of the assembled matrix is in the lower triangle and in the declared pattern. -/
def ArrowheadSparsity.Covers (s : ArrowheadSparsity) (d : Dims) (numRepetitions : Nat) (r c : Nat) : Prop :=
  c ≤ r ∧ ∃ a b i j, d.Locates numRepetitions r a i ∧ d.Locates numRepetitions c b j ∧
    ((a = b ∧ (s.diagBlock a).Has i j) ∨ ∃ p, s.lowerBlock numRepetitions a b = some p ∧ p.Has i j)

/-- The value which the file has at `(r, c)`: the last one if there are several, zero if there is none. -/
def fileValue [Zero K] (entries : List (MtxEntry K)) (r c : Nat) : K :=
  match entries.reverse.find? (fun e => e.row == r && e.col == c) with
  | some e => e.value
  | none => 0

/-- The row to which the reader moves an entry at `(r, c)`: from two or more repeated blocks below the diagonal to the
block right below the diagonal, and in rows of the outer block below repeated blocks to the remainder modulo the size
of the repeated blocks. -/
def Dims.movedRow (d : Dims) (numRepetitions r c : Nat) : Nat :=
  let tridiagEnd := d.before numRepetitions .link
  let outerBegin := d.before numRepetitions .outer
  if d.start ≤ c ∧ c < tridiagEnd then
    if r < tridiagEnd ∧ (c - d.start) / d.tridiag < (r - d.start) / d.tridiag then
      d.start + ((c - d.start) / d.tridiag + 1) * d.tridiag + (r - d.start) % d.tridiag
    else if outerBegin ≤ r then outerBegin + (r - outerBegin) % d.tridiag
    else r
  else r

/-- The entry as moved by the reader. -/
def MtxEntry.moved (e : MtxEntry K) (d : Dims) (numRepetitions : Nat) : MtxEntry K :=
  ⟨d.movedRow numRepetitions e.row e.col, e.col, e.value⟩

/-- The position is in the columns of the start and in rows after the first repeated block, but not of the outer block. -/
def Dims.Overruns (d : Dims) (numRepetitions r c : Nat) : Prop :=
  c < d.start ∧ d.before numRepetitions (.tridiag 1) ≤ r ∧ r < d.before numRepetitions .outer

/-- The positions which the reader looks at in the right place: not left of the second or a later repeated block or of
the link in the columns of the start, not two or more repeated blocks below the diagonal, and, in rows of the outer
block, not in rows of a repeated block which has fewer rows. -/
def Dims.Handles (d : Dims) (numRepetitions : Nat) (r c : Nat) : Prop :=
  ∀ a b i j, d.Locates numRepetitions r a i → d.Locates numRepetitions c b j →
    (b = .start → a = .start ∨ a = .tridiag 0 ∨ a = .outer) ∧
    (∀ t u, a = .tridiag t → b = .tridiag u → t ≤ u + 1) ∧
    (∀ u, a = .outer → b = .tridiag u → i < d.tridiag)

/-- The matrix has the entries of the pattern, possibly in a different order, and element `(i, j)` is `f i j`. -/
structure MatIn.Stores [AddCommMonoid K] (m : MatIn K) (p : Sparsity) (f : Nat → Nat → K) : Prop where
  numRows : m.sparsity.numRows = p.numRows
  numCols : m.sparsity.numCols = p.numCols
  entries : m.sparsity.entries.Perm p.entries
  values : m.values.length = m.sparsity.entries.length
  elem : ∀ i < p.numRows, ∀ j < p.numCols, m.elem i j = f i j
  dense : ∀ i < p.numRows, ∀ j < p.numCols, m.dense i j = f i j

/-- Element by element, the read matrix has the values of the file. -/
structure ArrowheadMatrix.IsFile [AddCommMonoid K] (m : ArrowheadMatrix K) (s : ArrowheadSparsity) (d : Dims)
    (numRepetitions : Nat) (entries : List (MtxEntry K)) : Prop where
  numDiag : m.tridiagDiag.length = numRepetitions + 1
  numSubdiag : m.tridiagSubdiag.length = numRepetitions
  numOuter : m.outerSubdiag.length = numRepetitions + 1
  diag : ∀ b ∈ blocks numRepetitions, (m.diagBlock b).Stores (s.diagBlock b) fun i j =>
    fileValue entries (d.before numRepetitions b + i) (d.before numRepetitions b + j)
  lower : ∀ a b p, s.lowerBlock numRepetitions a b = some p → ∃ q, m.lowerBlock numRepetitions a b = some q ∧
    q.Stores p fun i j => fileValue entries (d.before numRepetitions a + i) (d.before numRepetitions b + j)

end Ctldl
