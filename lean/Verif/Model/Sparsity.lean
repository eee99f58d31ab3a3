import Verif.Model.Permutation
import Mathlib.Data.List.Sort

/-! # `ctldl/sparsity/*` -/

namespace Ctldl

/-- `SparsityStatic`, `SparsityDynamic`, `SparsityView`, `SparsityViewStructural`
(`ctldl/sparsity/sparsity.hpp:45-72, 102-132, 139-172, 179-210`): dimensions and entries. User-supplied
sparsity types (accepted via `makeEntries`, `:21-26`) are represented the same way. -/
structure Sparsity where
  numRows : Nat
  numCols : Nat
  entries : List Entry
  deriving DecidableEq, Repr

/-- `nnz()`, `ctldl/sparsity/sparsity.hpp:47, 112, 156, 205`. -/
def Sparsity.nnz (s : Sparsity) : Nat := s.entries.length

/-- `InBounds`, `ctldl/sparsity/sparsity.hpp:28-41`. -/
def inBounds (numRows numCols : Nat) (e : Entry) : Bool := e.row < numRows && e.col < numCols

/-- Constructors with their precondition: `ctldl/sparsity/sparsity.hpp:57-63` (static), `:114-125`
(dynamic), `:159-163` (view), `:187-197` (structural). -/
def Sparsity.make (numRows numCols : Nat) (entries : List Entry) : Res Sparsity := do
  pre (entries.all (inBounds numRows numCols))
  return ⟨numRows, numCols, entries⟩

/-- `makeEmptySparsityStatic/Dynamic`, `ctldl/sparsity/sparsity.hpp:97-100, 134-137`. -/
def emptySparsity (numRows numCols : Nat) : Sparsity := ⟨numRows, numCols, []⟩

/-- `SparsityDynamicCSR`, `SparsityStaticCSR`, `SparsityViewCSR`
(`ctldl/sparsity/sparsity_csr.hpp:15-56, 85-130, 137-186`). -/
structure Csr extends Sparsity where
  rowBegin : List Nat
  deriving DecidableEq, Repr

/-- `getRowCounts`, `ctldl/sparsity/get_entries_csr.hpp:16-22`. -/
def getRowCounts (s : Sparsity) : Res (List Nat) :=
  s.entries.foldlM
    (fun counts entry => do wr counts entry.row ((← rd counts entry.row) + 1))
    (List.replicate s.numRows 0)

/-- `std::partial_sum` starting from the sum `acc`. -/
def partialSums (acc : Nat) : List Nat → List Nat
  | [] => []
  | x :: xs => (acc + x) :: partialSums (acc + x) xs

/-- `getRowBeginIndices`, `ctldl/sparsity/get_entries_csr.hpp:24-34` (the two contract checks always hold for a
size that exists in memory and are left out). -/
def getRowBeginIndices (rowCounts : List Nat) : List Nat := 0 :: partialSums 0 rowCounts

/-- `getEntriesCSR`, `ctldl/sparsity/get_entries_csr.hpp:41-53`: entries and row begin indices. -/
def getEntriesCSR (s : Sparsity) : Res (List Entry × List Nat) := do
  let rowCounts ← getRowCounts s
  let rowBegin := getRowBeginIndices rowCounts
  let (entries, _) ← s.entries.foldlM
    (fun (st : List Entry × List Nat) entry => do
      let insertAt ← rd st.2 entry.row
      let entries ← wr st.1 insertAt entry
      let rowInsert ← wr st.2 entry.row (insertAt + 1)
      return (entries, rowInsert))
    (List.replicate s.nnz ⟨0, 0⟩, rowBegin)
  return (entries, rowBegin)

/-- `SparsityDynamicCSR(SparsityDynamic)`, `ctldl/sparsity/sparsity_csr.hpp:89-98`, and
`defineStaticSparsityCSR`, `:188-200`, which goes through it. -/
def Sparsity.toCsr (s : Sparsity) : Res Csr := do
  let (entries, rowBegin) ← getEntriesCSR s
  let base ← Sparsity.make s.numRows s.numCols entries
  return ⟨base, rowBegin⟩

/-- `rowView(i)` as a range of positions of the entries, `ctldl/sparsity/sparsity_csr.hpp:37-40, 111-114,
167-170`. A span whose end is before its begin or beyond the entries is undefined. -/
def Csr.rowRange (c : Csr) (i : Nat) : Res (Nat × Nat) := do
  let b ← rd c.rowBegin i
  let e ← rd c.rowBegin (i + 1)
  if b ≤ e ∧ e ≤ c.entries.length then return (b, e) else .error .ub

/-- The entries of `rowView(i)`, `ctldl/sparsity/sparsity_csr.hpp:37-40, 111-114, 167-170`. -/
def Csr.rowView (c : Csr) (i : Nat) : Res (List Entry) := do
  let (b, e) ← c.rowRange i
  return (c.entries.drop b).take (e - b)

/-- `find(i, j)`, `ctldl/sparsity/sparsity_csr.hpp:42-46, 116-120, 172-176`: position within the row view of
the first entry with column `j`; the length of the row view stands for the end iterator. -/
def Csr.find (c : Csr) (i j : Nat) : Res Nat := do
  let row ← c.rowView i
  return row.findIdx (fun entry => entry.col == j)

/-- `isNonZero(i, j)`, `ctldl/sparsity/sparsity_csr.hpp:48-50, 122-124, 178-180`. -/
def Csr.isNonZero (c : Csr) (i j : Nat) : Res Bool := do
  let pos ← c.find i j
  let row ← c.rowView i
  return pos != row.length

/-- `entryIndex(i, j)`, `ctldl/sparsity/sparsity_csr.hpp:52-55, 126-129, 182-185`. The iterator difference
to the begin of row 0 is the begin index of row `i` plus the position in the row minus the begin of row 0. -/
def Csr.entryIndex (c : Csr) (i j : Nat) : Res Nat := do
  assert' (← c.isNonZero i j)
  let pos ← c.find i j
  let (b, _) ← c.rowRange i
  let (b0, _) ← c.rowRange 0
  usub (b + pos) b0

/-- `isSquare`, `ctldl/sparsity/is_square.hpp:7-9`. -/
def isSquare (s : Sparsity) : Bool := s.numRows == s.numCols

/-- `isLowerTriangle`, `ctldl/sparsity/is_lower_triangle.hpp:7-14`. -/
def isLowerTriangle (s : Sparsity) : Bool := s.entries.all (fun entry => !(entry.row ≤ entry.col))

/-- `getEntriesPermuted`, `ctldl/sparsity/sparsity_permuted.hpp:13-27`. -/
def getEntriesPermuted (s : Sparsity) (permutationRow permutationCol : List Nat) : Res (List Entry) := do
  let inverseRow ← invertPermutation permutationRow
  let inverseCol ← invertPermutation permutationCol
  s.entries.mapM (fun entry => permutedEntry entry inverseRow inverseCol)

/-- `getSparsityDynamicPermuted`, `ctldl/sparsity/sparsity_permuted.hpp:29-35`. -/
def getSparsityPermuted (s : Sparsity) (permutationRow permutationCol : List Nat) : Res Sparsity := do
  Sparsity.make s.numRows s.numCols (← getEntriesPermuted s permutationRow permutationCol)

/-- `getNnzLowerTriangle`, `ctldl/sparsity/sparsity_lower_triangle.hpp:14-21`. -/
def getNnzLowerTriangle (s : Sparsity) : Res Nat := do
  pre (isSquare s)
  return s.entries.foldl (fun nnz entry => nnz + if entry.row > entry.col then 1 else 0) 0

/-- `getEntriesLowerTriangle`, `ctldl/sparsity/sparsity_lower_triangle.hpp:23-39`. -/
def getEntriesLowerTriangle (s : Sparsity) (permutation : List Nat) : Res (List Entry) := do
  pre (isSquare s)
  let inverse ← invertPermutation permutation
  (s.entries.filter (fun entry => entry.row > entry.col)).mapM
    (fun entry => permutedEntryLowerTriangle entry inverse)

/-- `getSparsityDynamicLowerTriangle`, `ctldl/sparsity/sparsity_lower_triangle.hpp:41-46`. -/
def getSparsityLowerTriangle (s : Sparsity) (permutation : List Nat) : Res Sparsity := do
  pre (isSquare s)
  Sparsity.make s.numRows s.numCols (← getEntriesLowerTriangle s permutation)

/-- One row of `isSparsitySubset`, `ctldl/sparsity/is_sparsity_subset.hpp:35-48`. The state is the marker array
and `true` as long as the function has not returned `false` (`:41`). -/
def isSparsitySubsetRow (lhs rhs : Csr) (st : List Bool × Bool) (rowIndex : Nat) :
    Res (List Bool × Bool) := do
  if !st.2 then return st
  let marked ← (← rhs.rowView rowIndex).foldlM (fun m entry => wr m entry.col true) st.1
  let covered ← (← lhs.rowView rowIndex).foldlM
    (fun ok entry => if !ok then pure false else rd marked entry.col) true
  if !covered then return (marked, false)
  let unmarked ← (← rhs.rowView rowIndex).foldlM (fun m entry => wr m entry.col false) marked
  return (unmarked, true)

/-- `isSparsitySubset`, `ctldl/sparsity/is_sparsity_subset.hpp:15-52`; absent permutations are identities
(`:24-25`). -/
def isSparsitySubset (lhsIn rhsIn : Sparsity) (permutationRow : Option (List Nat) := none)
    (permutationCol : Option (List Nat) := none) : Res Bool := do
  pre (lhsIn.numRows == rhsIn.numRows)
  pre (lhsIn.numCols == rhsIn.numCols)
  let lhs ← (← getSparsityPermuted lhsIn
    (permutationRow.getD (identityPermutation lhsIn.numRows))
    (permutationCol.getD (identityPermutation lhsIn.numCols))).toCsr
  let rhs ← (← Sparsity.make rhsIn.numRows rhsIn.numCols rhsIn.entries).toCsr
  let st ← (List.range lhs.numRows).foldlM (isSparsitySubsetRow lhs rhs)
    (List.replicate lhs.numCols false, true)
  return st.2

/-- `isSparsitySubsetLowerTriangle`, `ctldl/sparsity/is_sparsity_subset.hpp:54-59`. -/
def isSparsitySubsetLowerTriangle (lhs rhs : Sparsity) (permutation : List Nat) : Res Bool := do
  isSparsitySubset (← getSparsityLowerTriangle lhs permutation) rhs

/-- `isSparsityEqual`, `ctldl/sparsity/is_sparsity_equal.hpp:8-12` (short-circuiting `&&`). -/
def isSparsityEqual (lhs rhs : Sparsity) : Res Bool := do
  if ← isSparsitySubset lhs rhs then isSparsitySubset rhs lhs else return false

/-- Row-major order of entries, `ctldl/sparsity/sort_entries_row_major_sorted.hpp:11-14`, as the non-strict
order needed by `List.insertionSort`. -/
def rowMajorLe (lhs rhs : Entry) : Bool :=
  lhs.row < rhs.row || (lhs.row == rhs.row && lhs.col ≤ rhs.col)

/-- `sortEntriesRowMajorSorted`, `ctldl/sparsity/sort_entries_row_major_sorted.hpp:10-16`. `std::ranges::sort`
is any sorting; the order is total on entries so that the result is determined. -/
def sortEntriesRowMajor (entries : List Entry) : List Entry :=
  entries.insertionSort (fun lhs rhs => rowMajorLe lhs rhs = true)

/-- `Contribution`, `ctldl/sparsity/get_contributions.hpp:10-14`. -/
structure Contribution where
  ik : Nat
  jk : Nat
  k : Nat
  deriving DecidableEq, Repr

/-- The `while` loop of `foreachContributingEntry`, `ctldl/sparsity/get_contributions.hpp:30-41`, with `f`
appending to the list (`:48-54`). -/
def contributionsLoop (sparsity below : Csr) (endI endJ columnLimit : Nat) :
    (fuel : Nat) → (ik jk : Nat) → (acc : List Contribution) → Res (List Contribution)
  | 0, _, _, _ => .error .fuel
  | fuel + 1, ik, jk, acc => do
    if ik ≠ endI ∧ jk ≠ endJ then
      let colI := (← rd below.entries ik).col
      let colJ := (← rd sparsity.entries jk).col
      if colI ≥ columnLimit ∨ colJ ≥ columnLimit then return acc
      let acc := if colI = colJ then acc ++ [⟨ik, jk, colI⟩] else acc
      contributionsLoop sparsity below endI endJ columnLimit fuel
        (ik + if colI ≤ colJ then 1 else 0) (jk + if colJ ≤ colI then 1 else 0) acc
    else return acc

/-- `getContributionsMixed` with limit, `ctldl/sparsity/get_contributions.hpp:16-29, 44-58`. The fuel is the
number of entries of both patterns plus one. -/
def getContributionsLimit (sparsity below : Csr) (i j columnLimit : Nat) : Res (List Contribution) := do
  let beginI ← rd below.rowBegin i
  let endI ← rd below.rowBegin (i + 1)
  let beginJ ← rd sparsity.rowBegin j
  let endJ ← rd sparsity.rowBegin (j + 1)
  contributionsLoop sparsity below endI endJ columnLimit
    (below.entries.length + sparsity.entries.length + 1) beginI beginJ []

/-- `getContributionsMixed`, `ctldl/sparsity/get_contributions.hpp:60-66`. -/
def getContributionsMixed (sparsity below : Csr) (i j : Nat) : Res (List Contribution) :=
  getContributionsLimit sparsity below i j (min sparsity.numCols below.numCols)

/-- `getContributionsLowerTriangle`, `ctldl/sparsity/get_contributions.hpp:68-72`. -/
def getContributionsLowerTriangle (sparsity : Csr) (i j : Nat) : Res (List Contribution) :=
  getContributionsLimit sparsity sparsity i j j

/-- `getContributionsRectangular`, `ctldl/sparsity/get_contributions.hpp:74-78`. -/
def getContributionsRectangular (sparsity : Csr) (i j : Nat) : Res (List Contribution) :=
  getContributionsMixed sparsity sparsity i j

/-- `Influenced`, `ctldl/sparsity/get_influenced.hpp:10-13`. -/
structure Influenced where
  source : Nat
  target : Nat
  deriving DecidableEq, Repr

/-- `getInfluencedList` with limit, `ctldl/sparsity/get_influenced.hpp:39-51`. -/
def getInfluencedListLimit (i j : Nat) (source target : Csr) (targetColumnLimit : Nat) :
    Res (List Influenced) :=
  (List.range targetColumnLimit).foldlM
    (fun list k => do
      if ← source.isNonZero k j then
        return list ++ [⟨← source.entryIndex k j, ← target.entryIndex i k⟩]
      else return list)
    []

/-- `getInfluencedList`, `ctldl/sparsity/get_influenced.hpp:53-58`. -/
def getInfluencedList (i j : Nat) (source target : Csr) : Res (List Influenced) :=
  getInfluencedListLimit i j source target target.numCols

/-- `getInfluencedListLowerTriangle`, `ctldl/sparsity/get_influenced.hpp:64-69`. -/
def getInfluencedListLowerTriangle (i j : Nat) (source target : Csr) : Res (List Influenced) :=
  getInfluencedListLimit i j source target i

/-- A sparse matrix given by the user: its static sparsity and the values returned by `valueAt`
(used in `ctldl/sparsity/get_matrix_value_at.hpp:26-36`, `ctldl/matrix/multiply.hpp:10-33`). -/
structure MatIn (K : Type _) where
  sparsity : Sparsity
  values : List K

/-- `valueAt(entry_index)` of a user matrix. -/
def MatIn.valueAt {K : Type _} (m : MatIn K) (entryIndex : Nat) : Res K := rd m.values entryIndex

/-- `findEntryIndex`, `ctldl/sparsity/get_matrix_value_at.hpp:13-24`: the length stands for not found. -/
def findEntryIndex (s : Sparsity) (entry : Entry) : Option Nat :=
  let pos := s.entries.findIdx (fun e => e == entry)
  if pos = s.entries.length then none else some pos

/-- `getMatrixValueAt<i, j>`, `ctldl/sparsity/get_matrix_value_at.hpp:26-36`. -/
def getMatrixValueAt {K : Type _} [Zero K] (m : MatIn K) (i j : Nat) : Res K :=
  match findEntryIndex m.sparsity ⟨i, j⟩ with
  | some entryIndex => m.valueAt entryIndex
  | none => .ok 0

/-- `BoolMatrix::nnz`, `ctldl/sparsity/bool_matrix.hpp:25-32`; `values` are the rows. -/
def boolMatrixNnz (values : List (List Bool)) : Nat :=
  values.foldl (fun carry row => carry + row.count true) 0

/-- `makeSparseEntriesFromBoolMatrix`, `ctldl/sparsity/bool_matrix.hpp:35-54`. -/
def makeSparseEntriesFromBoolMatrix (numRows numCols : Nat) (values : List (List Bool)) :
    Res (List Entry) := do
  let nnz := boolMatrixNnz values
  let (entries, entryIndex) ← (List.range numRows).foldlM
    (fun st i => (List.range numCols).foldlM
      (fun (st : List Entry × Nat) j => do
        if ← rd (← rd values i) j then return (← wr st.1 st.2 ⟨i, j⟩, st.2 + 1) else return st)
      st)
    (List.replicate nnz (⟨0, 0⟩ : Entry), 0)
  assert' (entryIndex == nnz)
  return entries

end Ctldl
