import Verif.Model.Sparsity

/-! # `ctldl/symbolic/*` -/

namespace Ctldl

/-- `EliminationTree::no_parent`, `ctldl/symbolic/elimination_tree.hpp:13` (`size_t` of 64 bits). An
`EliminationTree` is the list `parent` (`:26`). -/
def noParent : Nat := 2 ^ 64 - 1

/-- Constructor of `EliminationTree`, `ctldl/symbolic/elimination_tree.hpp:15`. -/
def newTree (dim : Nat) : List Nat := List.replicate dim noParent

/-- `hasParent`, `ctldl/symbolic/elimination_tree.hpp:17-19`. -/
def hasParent (tree : List Nat) (node : Nat) : Res Bool := do
  return (← rd tree node) != noParent

/-- `getParent`, `ctldl/symbolic/elimination_tree.hpp:21-24`. -/
def getParent (tree : List Nat) (node : Nat) : Res Nat := do
  assert' (← hasParent tree node)
  rd tree node

/-- `operator==` on trees, `ctldl/symbolic/elimination_tree.hpp:29-32`. -/
def treeEq (lhs rhs : List Nat) : Bool := lhs == rhs

/-- Element function of `subtreeBack`, `ctldl/symbolic/elimination_tree_subtree.hpp:19-22`. -/
def subtreeNode (offset node : Nat) : Res Nat :=
  if node = noParent then .ok noParent else usub node offset

/-- `subtreeBack`, `ctldl/symbolic/elimination_tree_subtree.hpp:12-24`. -/
def subtreeBack (tree : List Nat) (dimSubtree : Nat) : Res (List Nat) := do
  pre (dimSubtree ≤ tree.length)
  (tree.drop (tree.length - dimSubtree)).mapM (subtreeNode (tree.length - dimSubtree))

/-- `clearSubtreeBack`, `ctldl/symbolic/elimination_tree_subtree.hpp:26-30` (begin of the range before the
begin of the vector is undefined). -/
def clearSubtreeBack (tree : List Nat) (dimSubtree : Nat) : Res (List Nat) :=
  if dimSubtree ≤ tree.length then
    .ok (tree.take (tree.length - dimSubtree) ++ List.replicate dimSubtree noParent)
  else .error .ub

/-- `setSubtreeFront`, `ctldl/symbolic/elimination_tree_subtree.hpp:32-36`. -/
def setSubtreeFront (tree subtree : List Nat) : Res (List Nat) := do
  pre (subtree.length ≤ tree.length)
  return subtree ++ tree.drop subtree.length

/-- The `while` loop of `addRowEliminationTree`, `ctldl/symbolic/add_row_elimination_tree.hpp:23-30`. State:
parents, ancestors, `j`. -/
def climb (i : Nat) : (fuel : Nat) → (parent ancestors : List Nat) → (j : Nat) →
    Res (List Nat × List Nat)
  | 0, _, _, _ => .error .fuel
  | fuel + 1, parent, ancestors, j => do
    let current ← rd ancestors j
    if current < i then
      let parent ← if !(← hasParent parent j) then wr parent j i else pure parent
      let ancestors ← wr ancestors j i
      climb i fuel parent ancestors current
    else return (parent, ancestors)

/-- `addRowEliminationTree`, `ctldl/symbolic/add_row_elimination_tree.hpp:12-32`. State: tree and ancestors.
Fuel for the inner loop: the number of ancestors plus two. -/
def addRowEliminationTree (sparsity : Csr) (rowIndex : Nat) (st : List Nat × List Nat)
    (rowOffset : Nat := 0) (colOffset : Nat := 0) : Res (List Nat × List Nat) := do
  pre (st.1.length ≥ sparsity.numRows)
  (← sparsity.rowView rowIndex).foldlM
    (fun st entry =>
      climb (rowIndex + rowOffset) (st.2.length + 2) st.1 st.2 (entry.col + colOffset))
    st

/-- `computeEliminationTree`, `ctldl/symbolic/compute_elimination_tree.hpp:15-26`. -/
def computeEliminationTree (sparsity : Csr) : Res (List Nat) := do
  pre (isSquare sparsity.toSparsity)
  let st ← (List.range sparsity.numRows).foldlM
    (fun st i => addRowEliminationTree sparsity i st)
    (newTree sparsity.numRows, List.range sparsity.numRows)
  return st.1

/-- `computeEliminationTreeBlocked3x3`, `ctldl/symbolic/compute_elimination_tree_blocked.hpp:16-57`. -/
def computeEliminationTreeBlocked3x3 (sp11 sp21 sp22 sp31 sp32 sp33 : Csr) : Res (List Nat) := do
  pre (isSquare sp11.toSparsity)
  pre (isSquare sp22.toSparsity)
  pre (isSquare sp33.toSparsity)
  pre (sp21.numCols == sp11.numCols)
  pre (sp21.numRows == sp22.numRows)
  pre (sp31.numCols == sp11.numCols)
  pre (sp32.numCols == sp22.numCols)
  pre (sp31.numRows == sp33.numRows)
  pre (sp32.numRows == sp33.numRows)
  let numRows := sp11.numRows + sp22.numRows + sp33.numRows
  let st := (newTree numRows, List.range numRows)
  let st ← (List.range sp11.numRows).foldlM (fun st i => addRowEliminationTree sp11 i st) st
  let st ← (List.range sp21.numRows).foldlM
    (fun st i => do
      let st ← addRowEliminationTree sp21 i st sp11.numRows
      addRowEliminationTree sp22 i st sp11.numRows sp21.numCols) st
  let st ← (List.range sp31.numRows).foldlM
    (fun st i => do
      let st ← addRowEliminationTree sp31 i st (sp11.numRows + sp22.numRows)
      let st ← addRowEliminationTree sp32 i st (sp11.numRows + sp22.numRows) sp11.numCols
      addRowEliminationTree sp33 i st (sp11.numRows + sp22.numRows) (sp11.numCols + sp22.numCols)) st
  return st.1

/-- `computeEliminationTreeBlocked`, `ctldl/symbolic/compute_elimination_tree_blocked.hpp:59-67`. -/
def computeEliminationTreeBlocked (sp11 sp21 sp22 : Csr) : Res (List Nat) := do
  computeEliminationTreeBlocked3x3 sp11 sp21 sp22
    (← (emptySparsity 0 sp11.numCols).toCsr) (← (emptySparsity 0 sp22.numCols).toCsr)
    (← (emptySparsity 0 0).toCsr)

/-- One pass over the rows of the second block in `computeEliminationTreeRepeating`,
`ctldl/symbolic/compute_elimination_tree_repeating.hpp:34-40`. -/
def repeatingPass (spA spB : Csr) (dim : Nat) (st : List Nat × List Nat) : Res (List Nat × List Nat) :=
  (List.range dim).foldlM
    (fun st i => do
      let st ← addRowEliminationTree spB i st dim
      addRowEliminationTree spA i st dim dim) st

/-- The `while (true)` loop of `computeEliminationTreeRepeating`,
`ctldl/symbolic/compute_elimination_tree_repeating.hpp:32-55`. State: tree, tree_init, ancestors. -/
def repeatingLoop (spA spB : Csr) (dim : Nat) : (fuel : Nat) → (tree treeInit ancestors : List Nat) →
    Res (List Nat)
  | 0, _, _, _ => .error .fuel
  | fuel + 1, tree, treeInitPrevious, ancestors => do
    let (tree, ancestors) ← repeatingPass spA spB dim (tree, ancestors)
    let treeInit ← subtreeBack tree dim
    if treeEq treeInit treeInitPrevious then return tree
    let tree ← setSubtreeFront tree treeInit
    let tree ← clearSubtreeBack tree dim
    let front ← (ancestors.drop dim).mapM (fun ancestor => usub ancestor dim)
    let ancestors := front ++ ancestors.drop front.length
    let ancestors := ancestors.take dim ++ List.range' dim (ancestors.length - dim)
    repeatingLoop spA spB dim fuel tree treeInit ancestors

/-- `computeEliminationTreeRepeating`, `ctldl/symbolic/compute_elimination_tree_repeating.hpp:19-58`, with the
number of rounds allowed for the loop as a parameter. -/
def computeEliminationTreeRepeatingFuel (fuel : Nat) (spA spB : Csr) : Res (List Nat) := do
  pre (isSquare spA.toSparsity)
  pre (isSquare spB.toSparsity)
  pre (spA.numRows == spB.numRows)
  let dim := spA.numRows
  repeatingLoop spA spB dim fuel (newTree (2 * dim)) (newTree dim) (List.range (2 * dim))

/-- `computeEliminationTreeRepeating`, `ctldl/symbolic/compute_elimination_tree_repeating.hpp:19-58`. The fuel
`dim * dim + 1` is proved to be sufficient for all inputs. -/
def computeEliminationTreeRepeating (spA spB : Csr) : Res (List Nat) :=
  computeEliminationTreeRepeatingFuel (spA.numRows * spA.numRows + 1) spA spB

/-- The `while` loop of `foreachAncestorInSubtreeImpl`, `ctldl/symbolic/foreach_ancestor_in_subtree.hpp:22-26`.
The calls `f(i, j)` are recorded in order in `calls`. -/
def visitLoop (getParentOf : Nat → Res Nat) (i : Nat) :
    (fuel : Nat) → (visitor : List Nat) → (calls : List Entry) → (j : Nat) →
    Res (List Nat × List Entry)
  | 0, _, _, _ => .error .fuel
  | fuel + 1, visitor, calls, j => do
    if (← rd visitor j) ≠ i then
      let calls := calls ++ [⟨i, j⟩]
      let visitor ← wr visitor j i
      visitLoop getParentOf i fuel visitor calls (← getParentOf j)
    else return (visitor, calls)

/-- `foreachAncestorInSubtreeImpl`, `ctldl/symbolic/foreach_ancestor_in_subtree.hpp:13-28`. State: visitor and
the calls of `f` so far. Fuel for the inner loop: the number of nodes plus one. -/
def foreachAncestorInSubtreeImpl (sparsity : Csr) (getParentOf : Nat → Res Nat) (rowIndex : Nat)
    (st : List Nat × List Entry) (rowOffset : Nat := 0) (colOffset : Nat := 0) :
    Res (List Nat × List Entry) := do
  (← sparsity.rowView rowIndex).foldlM
    (fun st entry =>
      visitLoop getParentOf (rowIndex + rowOffset) (st.1.length + 1) st.1 st.2 (entry.col + colOffset))
    st

/-- `foreachAncestorInSubtree`, `ctldl/symbolic/foreach_ancestor_in_subtree.hpp:30-43`. -/
def foreachAncestorInSubtree (sparsity : Csr) (tree : List Nat) (rowIndex : Nat)
    (st : List Nat × List Entry) (rowOffset : Nat := 0) (colOffset : Nat := 0) :
    Res (List Nat × List Entry) :=
  foreachAncestorInSubtreeImpl sparsity (getParent tree) rowIndex st rowOffset colOffset

/-- `foreachNonZeroWithFill`, `ctldl/symbolic/foreach_nonzero_with_fill.hpp:15-27`: the sequence of calls. -/
def foreachNonZeroWithFill (sparsity : Csr) : Res (List Entry) := do
  pre (isSquare sparsity.toSparsity)
  let tree ← computeEliminationTree sparsity
  let st ← (List.range sparsity.numRows).foldlM
    (fun st i => foreachAncestorInSubtree sparsity tree i st)
    (List.range sparsity.numRows, [])
  return st.2

/-- `getEntriesWithFill`, `ctldl/symbolic/get_entries_with_fill.hpp:13-22`. -/
def getEntriesWithFill (sparsity : Csr) : Res (List Entry) := do
  return sortEntriesRowMajor (← foreachNonZeroWithFill sparsity)

/-- `getFilledInSparsity`, `ctldl/symbolic/filled_in_sparsity.hpp:14-23`. -/
def getFilledInSparsity (s : Sparsity) (permutation : List Nat) : Res Sparsity := do
  pre (isSquare s)
  pre (permutation.length == s.numRows)
  Sparsity.make s.numRows s.numRows
    (← getEntriesWithFill (← (← getSparsityLowerTriangle s permutation).toCsr))

/-- `foreachNonZeroWithFillBlocked3x3`, `ctldl/symbolic/foreach_nonzero_with_fill_blocked.hpp:15-54`: the
sequence of calls. -/
def foreachNonZeroWithFillBlocked3x3 (sp11 sp21 sp22 sp31 sp32 sp33 : Csr) : Res (List Entry) := do
  pre (isSquare sp11.toSparsity)
  pre (isSquare sp22.toSparsity)
  pre (sp21.numCols == sp11.numCols)
  pre (sp22.numRows == sp21.numRows)
  let numRows := sp11.numRows + sp22.numRows + sp33.numRows
  let tree ← computeEliminationTreeBlocked3x3 sp11 sp21 sp22 sp31 sp32 sp33
  let st := (List.range numRows, ([] : List Entry))
  let st ← (List.range sp11.numRows).foldlM (fun st i => foreachAncestorInSubtree sp11 tree i st) st
  let st ← (List.range sp21.numRows).foldlM
    (fun st i => do
      let st ← foreachAncestorInSubtree sp21 tree i st sp11.numRows
      foreachAncestorInSubtree sp22 tree i st sp11.numRows sp21.numCols) st
  let st ← (List.range sp31.numRows).foldlM
    (fun st i => do
      let st ← foreachAncestorInSubtree sp31 tree i st (sp11.numRows + sp22.numRows)
      let st ← foreachAncestorInSubtree sp32 tree i st (sp11.numRows + sp22.numRows) sp11.numCols
      foreachAncestorInSubtree sp33 tree i st (sp11.numRows + sp22.numRows)
        (sp11.numCols + sp22.numCols)) st
  return st.2

/-- `LowerTriangleBlocked3x3`, `ctldl/symbolic/lower_triangle_blocked.hpp:7-15`. -/
structure Blocked3x3 (α : Type _) where
  block11 : α
  block21 : α
  block22 : α
  block31 : α
  block32 : α
  block33 : α
  deriving DecidableEq, Repr

/-- `add_nonzero`, `ctldl/symbolic/filled_in_sparsity_blocked.hpp:49-73`; `n1`, `n2` are numbers of rows (and
columns) of the first two diagonal blocks, `m1`, `m2` of columns. -/
def addNonzeroBlocked (n1 n2 m1 m2 : Nat) (entries : Blocked3x3 (List Entry)) (call : Entry) :
    Res (Blocked3x3 (List Entry)) := do
  let i := call.row
  let j := call.col
  if j < m1 then
    if i < n1 then
      return { entries with block11 := entries.block11 ++ [⟨i, j⟩] }
    else if i < n1 + n2 then
      return { entries with block21 := entries.block21 ++ [⟨← usub i n1, j⟩] }
    else
      return { entries with block31 := entries.block31 ++ [⟨← usub (← usub i n1) n2, j⟩] }
  else if j < m1 + m2 then
    if i < n1 + n2 then
      return { entries with block22 := entries.block22 ++ [⟨← usub i n1, ← usub j m1⟩] }
    else
      return { entries with block32 := entries.block32 ++ [⟨← usub (← usub i n1) n2, ← usub j m1⟩] }
  else
    return { entries with
      block33 := entries.block33 ++ [⟨← usub (← usub i n1) n2, ← usub (← usub j m1) m2⟩] }

/-- `getFilledInSparsityBlocked3x3`, `ctldl/symbolic/filled_in_sparsity_blocked.hpp:19-93`. -/
def getFilledInSparsityBlocked3x3 (in11 in21 in22 in31 in32 in33 : Sparsity)
    (permutation1 permutation2 permutation3 : List Nat) : Res (Blocked3x3 Sparsity) := do
  pre (isSquare in11)
  pre (isSquare in22)
  pre (in21.numCols == in11.numCols)
  pre (in22.numRows == in21.numRows)
  let sp11 ← (← getSparsityLowerTriangle in11 permutation1).toCsr
  let sp21 ← (← getSparsityPermuted in21 permutation2 permutation1).toCsr
  let sp22 ← (← getSparsityLowerTriangle in22 permutation2).toCsr
  let sp31 ← (← getSparsityPermuted in31 permutation3 permutation1).toCsr
  let sp32 ← (← getSparsityPermuted in32 permutation3 permutation2).toCsr
  let sp33 ← (← getSparsityLowerTriangle in33 permutation3).toCsr
  let calls ← foreachNonZeroWithFillBlocked3x3 sp11 sp21 sp22 sp31 sp32 sp33
  let e ← calls.foldlM (addNonzeroBlocked sp11.numRows sp22.numRows sp11.numCols sp22.numCols)
    ⟨[], [], [], [], [], []⟩
  return {
    block11 := ← Sparsity.make sp11.numRows sp11.numCols (sortEntriesRowMajor e.block11)
    block21 := ← Sparsity.make sp21.numRows sp21.numCols (sortEntriesRowMajor e.block21)
    block22 := ← Sparsity.make sp22.numRows sp22.numCols (sortEntriesRowMajor e.block22)
    block31 := ← Sparsity.make sp31.numRows sp31.numCols (sortEntriesRowMajor e.block31)
    block32 := ← Sparsity.make sp32.numRows sp32.numCols (sortEntriesRowMajor e.block32)
    block33 := ← Sparsity.make sp33.numRows sp33.numCols (sortEntriesRowMajor e.block33) }

/-- `LowerTriangleBlocked`, `ctldl/symbolic/lower_triangle_blocked.hpp:29-34`. -/
structure Blocked (α : Type _) where
  block11 : α
  block21 : α
  block22 : α
  deriving DecidableEq, Repr

/-- `getFilledInSparsityBlocked`, `ctldl/symbolic/filled_in_sparsity_blocked.hpp:95-111`. -/
def getFilledInSparsityBlocked (sp11 sp21 sp22 : Sparsity) (permutation1 permutation2 : List Nat) :
    Res (Blocked Sparsity) := do
  let s ← getFilledInSparsityBlocked3x3 sp11 sp21 sp22 (emptySparsity 0 sp11.numCols)
    (emptySparsity 0 sp22.numCols) (emptySparsity 0 0) permutation1 permutation2 (identityPermutation 0)
  return ⟨s.block11, s.block21, s.block22⟩

/-- `getFilledInSparsityBlocked` without permutations,
`ctldl/symbolic/filled_in_sparsity_blocked.hpp:113-119`. -/
def getFilledInSparsityBlockedId (sp11 sp21 sp22 : Sparsity) : Res (Blocked Sparsity) :=
  getFilledInSparsityBlocked sp11 sp21 sp22 (identityPermutation sp11.numRows)
    (identityPermutation sp22.numRows)

/-- `isChordalBlocked`, `ctldl/symbolic/is_chordal_blocked.hpp:12-27`. -/
def isChordalBlocked (sp11 sp21 sp22 : Sparsity) : Res Bool := do
  pre (isSquare sp11)
  pre (isSquare sp22)
  pre (sp21.numCols == sp11.numCols)
  pre (sp22.numRows == sp21.numRows)
  if !isLowerTriangle sp11 || !isLowerTriangle sp22 then return false
  let filled ← getFilledInSparsityBlockedId sp11 sp21 sp22
  return filled.block11.nnz == sp11.nnz && filled.block21.nnz == sp21.nnz &&
    filled.block22.nnz == sp22.nnz

/-- `get_parent` of `foreachAncestorInSubtreeRepeatingOuter`,
`ctldl/symbolic/foreach_nonzero_with_fill_repeating_arrowhead.hpp:24-39`. -/
def getParentOuter (tree : List Nat) (dim j : Nat) : Res Nat := do
  if !(← hasParent tree j) then return j
  umod (← getParent tree j) dim

/-- `foreachAncestorInSubtreeRepeatingOuter`,
`ctldl/symbolic/foreach_nonzero_with_fill_repeating_arrowhead.hpp:17-42`. -/
def foreachAncestorInSubtreeRepeatingOuter (sparsity : Csr) (tree : List Nat) (rowIndex : Nat)
    (st : List Nat × List Entry) (rowOffset : Nat := 0) (colOffset : Nat := 0) :
    Res (List Nat × List Entry) :=
  foreachAncestorInSubtreeImpl sparsity (getParentOuter tree st.1.length) rowIndex st rowOffset colOffset

/-- `foreachNonZeroWithFillRepeatingArrowhead`,
`ctldl/symbolic/foreach_nonzero_with_fill_repeating_arrowhead.hpp:44-74`: the sequence of calls. -/
def foreachNonZeroWithFillRepeatingArrowhead (spDiag spSubdiag spOuter : Csr) : Res (List Entry) := do
  pre (isSquare spDiag.toSparsity)
  pre (isSquare spSubdiag.toSparsity)
  pre (spSubdiag.numRows == spDiag.numRows)
  pre (spOuter.numCols == spDiag.numCols)
  let dim := spDiag.numRows
  let dimOuter := spOuter.numRows
  let tree ← computeEliminationTreeRepeating spDiag spSubdiag
  let st ← (List.range dim).foldlM
    (fun st i => do
      let st ← foreachAncestorInSubtree spSubdiag tree i st dim
      foreachAncestorInSubtree spDiag tree i st dim dim)
    (List.range (2 * dim), [])
  let stOuter ← (List.range dimOuter).foldlM
    (fun st i => foreachAncestorInSubtreeRepeatingOuter spOuter tree i st (2 * dim))
    (List.range dim, st.2)
  return stOuter.2

/-- `RepeatingBlockTridiagonalArrowhead`, `ctldl/symbolic/repeating_block_tridiagonal_arrowhead.hpp:7-12`. -/
structure RepeatingArrowhead (α : Type _) where
  diag : α
  subdiag : α
  outer : α
  deriving DecidableEq, Repr

/-- `add_nonzero`, `ctldl/symbolic/filled_in_sparsity_repeating_arrowhead.hpp:40-51`. -/
def addNonzeroRepeating (dim : Nat) (entries : RepeatingArrowhead (List Entry)) (call : Entry) :
    Res (RepeatingArrowhead (List Entry)) := do
  let i := call.row
  let j := call.col
  if i ≥ 2 * dim then
    return { entries with outer := entries.outer ++ [⟨← usub i (2 * dim), ← umod j dim⟩] }
  else if j ≥ dim then
    return { entries with diag := entries.diag ++ [⟨← usub i dim, ← usub j dim⟩] }
  else
    return { entries with subdiag := entries.subdiag ++ [⟨← usub i dim, j⟩] }

/-- `getFilledInSparsityRepeatingArrowhead`,
`ctldl/symbolic/filled_in_sparsity_repeating_arrowhead.hpp:19-64`. -/
def getFilledInSparsityRepeatingArrowhead (inA inB inC : Sparsity) (permutation permutationC : List Nat) :
    Res (RepeatingArrowhead Sparsity) := do
  pre (isSquare inA)
  pre (isSquare inB)
  pre (inB.numRows == inA.numRows)
  pre (inC.numCols == inA.numCols)
  let dim := inA.numRows
  let dimOuter := inC.numRows
  let spA ← (← getSparsityLowerTriangle inA permutation).toCsr
  let spB ← (← getSparsityPermuted inB permutation permutation).toCsr
  let spC ← (← getSparsityPermuted inC permutationC permutation).toCsr
  let calls ← foreachNonZeroWithFillRepeatingArrowhead spA spB spC
  let e ← calls.foldlM (addNonzeroRepeating dim) ⟨[], [], []⟩
  return {
    diag := ← Sparsity.make dim dim (sortEntriesRowMajor e.diag)
    subdiag := ← Sparsity.make dim dim (sortEntriesRowMajor e.subdiag)
    outer := ← Sparsity.make dimOuter dim (sortEntriesRowMajor e.outer) }

end Ctldl
