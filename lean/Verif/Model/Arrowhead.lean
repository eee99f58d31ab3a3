import Verif.Model.Solve
import Verif.Model.Multiply

/-! # Repeating block tridiagonal (arrowhead linked) factorization -/

namespace Ctldl

/-- `all_equal`, `ctldl/utility/all_equal.hpp:9-13`: no two adjacent elements differ. -/
def allEqual : List Nat → Bool
  | [] => true
  | [_] => true
  | x :: y :: rest => if x != y then false else allEqual (y :: rest)

/-- `SparsityToFactorizeStart`, `ctldl/factor_data/sparsity_to_factorize_start.hpp:30-34`. -/
structure SparsityStart where
  diag : Sparsity
  next : Sparsity
  outer : Sparsity
  permutation : List Nat
  deriving DecidableEq, Repr

/-- `SparsityToFactorizeTridiagonal`, `ctldl/factor_data/sparsity_to_factorize_tridiagonal.hpp:28-31`. -/
structure SparsityTridiagonal where
  diag : Sparsity
  subdiag : Sparsity
  permutation : List Nat
  deriving DecidableEq, Repr

/-- `SparsityToFactorizeLink`, `ctldl/factor_data/sparsity_to_factorize_link.hpp:31-35`. -/
structure SparsityLink where
  prev : Sparsity
  diag : Sparsity
  next : Sparsity
  permutation : List Nat
  deriving DecidableEq, Repr

/-- `SparsityToFactorizeOuter`, `ctldl/factor_data/sparsity_to_factorize_outer.hpp:36-39`. -/
structure SparsityOuter where
  subdiag : Sparsity
  diag : Sparsity
  permutation : List Nat
  deriving DecidableEq, Repr

/-- `SparsityToFactorizeTridiagonalArrowheadLinked`,
`ctldl/factor_data/sparsity_to_factorize_tridiagonal_arrowhead_linked.hpp:30-34`. -/
structure ArrowheadSparsity where
  start : SparsityStart
  tridiag : SparsityTridiagonal
  link : SparsityLink
  outer : SparsityOuter
  deriving DecidableEq, Repr

/-- `ctldl/factor_data/sparsity_to_factorize_start.hpp:36-39`. -/
def SparsityStart.hasConsistentDim (s : SparsityStart) : Bool :=
  allEqual [s.diag.numRows, s.diag.numCols, s.next.numCols, s.outer.numCols, s.permutation.length]

/-- `ctldl/factor_data/sparsity_to_factorize_start.hpp:41-44`. -/
def SparsityStart.dim (s : SparsityStart) : Res Nat := do
  pre s.hasConsistentDim
  return s.diag.numCols

/-- `ctldl/factor_data/sparsity_to_factorize_tridiagonal.hpp:33-36`. -/
def SparsityTridiagonal.hasConsistentDim (s : SparsityTridiagonal) : Bool :=
  allEqual [s.diag.numRows, s.diag.numCols, s.subdiag.numRows, s.subdiag.numCols, s.permutation.length]

/-- `ctldl/factor_data/sparsity_to_factorize_tridiagonal.hpp:38-41`. -/
def SparsityTridiagonal.dim (s : SparsityTridiagonal) : Res Nat := do
  pre s.hasConsistentDim
  return s.diag.numRows

/-- `ctldl/factor_data/sparsity_to_factorize_link.hpp:37-40`. -/
def SparsityLink.hasConsistentDim (s : SparsityLink) : Bool :=
  allEqual [s.diag.numRows, s.diag.numCols, s.prev.numRows, s.next.numCols, s.permutation.length]

/-- `ctldl/factor_data/sparsity_to_factorize_link.hpp:42-45`. -/
def SparsityLink.dim (s : SparsityLink) : Res Nat := do
  pre s.hasConsistentDim
  return s.diag.numRows

/-- `ctldl/factor_data/sparsity_to_factorize_outer.hpp:41-44`. -/
def SparsityOuter.hasConsistentDim (s : SparsityOuter) : Bool :=
  allEqual [s.diag.numRows, s.diag.numCols, s.subdiag.numRows, s.permutation.length]

/-- `ctldl/factor_data/sparsity_to_factorize_outer.hpp:46-49`. -/
def SparsityOuter.dim (s : SparsityOuter) : Res Nat := do
  pre s.hasConsistentDim
  return s.diag.numRows

/-- `has_consistent_dim_tridiag`,
`ctldl/factor_data/sparsity_to_factorize_tridiagonal_arrowhead_linked.hpp:36-40`; `dim_next()` etc. are the
numbers of rows/columns of the blocks (`sparsity_to_factorize_start.hpp:46`, `sparsity_to_factorize_link.hpp:47`,
`sparsity_to_factorize_outer.hpp:51`). -/
def ArrowheadSparsity.hasConsistentDimTridiag (s : ArrowheadSparsity) : Res Bool := do
  if s.tridiag.hasConsistentDim then
    return allEqual [s.start.next.numRows, ← s.tridiag.dim, s.link.prev.numCols, s.outer.subdiag.numCols]
  else return false

/-- `has_consistent_dim_outer`,
`ctldl/factor_data/sparsity_to_factorize_tridiagonal_arrowhead_linked.hpp:42-45`. -/
def ArrowheadSparsity.hasConsistentDimOuter (s : ArrowheadSparsity) : Res Bool := do
  if s.outer.hasConsistentDim then
    return allEqual [s.start.outer.numRows, s.link.next.numRows, ← s.outer.dim]
  else return false

/-- `ctldl/factor_data/sparsity_to_factorize_tridiagonal_arrowhead_linked.hpp:47`. -/
def ArrowheadSparsity.dimStart (s : ArrowheadSparsity) : Res Nat := s.start.dim

/-- `ctldl/factor_data/sparsity_to_factorize_tridiagonal_arrowhead_linked.hpp:49-52`. -/
def ArrowheadSparsity.dimTridiag (s : ArrowheadSparsity) : Res Nat := do
  pre (← s.hasConsistentDimTridiag)
  s.tridiag.dim

/-- `ctldl/factor_data/sparsity_to_factorize_tridiagonal_arrowhead_linked.hpp:54`. -/
def ArrowheadSparsity.dimLink (s : ArrowheadSparsity) : Res Nat := s.link.dim

/-- `ctldl/factor_data/sparsity_to_factorize_tridiagonal_arrowhead_linked.hpp:56-59`. -/
def ArrowheadSparsity.dimOuter (s : ArrowheadSparsity) : Res Nat := do
  pre (← s.hasConsistentDimOuter)
  s.outer.dim

/-- Static data of `FactorizationRepeatingBlockTridiagonalArrowheadLinked`: dimensions, permutations and the
sparsities of the ten kinds of factor blocks
(`ctldl/factor_data/factorization_repeating_block_tridiagonal_arrowhead_linked.hpp:42-129`). -/
structure ArrowheadTypes where
  dimStart : Nat
  dimTridiag : Nat
  dimLink : Nat
  dimOuter : Nat
  permStart : List Nat
  permTridiag : List Nat
  permLink : List Nat
  permOuter : List Nat
  startDiag : Csr
  startNext : Csr
  startOuter : Csr
  tridiagDiag : Csr
  tridiagSubdiag : Csr
  linkPrev : Csr
  linkDiag : Csr
  linkNext : Csr
  outerSubdiag : Csr
  outerDiag : Csr
  deriving DecidableEq, Repr

/-- Instantiation of `FactorizationRepeatingBlockTridiagonalArrowheadLinked<sparsity, Value>`:
`ctldl/factor_data/factorization_repeating_block_tridiagonal_arrowhead_linked.hpp:42-129`. -/
def arrowheadTypes (s : ArrowheadSparsity) : Res ArrowheadTypes := do
  let dimStart ← s.dimStart
  let dimTridiag ← s.dimTridiag
  let dimLink ← s.dimLink
  let dimOuter ← s.dimOuter
  let permStart := s.start.permutation
  let permTridiag := s.tridiag.permutation
  let permLink := s.link.permutation
  let permOuter := s.outer.permutation
  let helperStart ← getFilledInSparsityBlocked3x3 s.start.diag s.start.next s.tridiag.diag
    s.start.outer s.outer.subdiag s.outer.diag permStart permTridiag permOuter
  let tridiagSubdiag ← getSparsityPermuted s.tridiag.subdiag permTridiag permTridiag
  let factor ← getFilledInSparsityRepeatingArrowhead helperStart.block22 tridiagSubdiag
    helperStart.block32 (identityPermutation dimTridiag) (identityPermutation dimOuter)
  let linkTridiagPermutedCols ← getSparsityPermuted s.link.prev (identityPermutation dimLink) permTridiag
  let linkOuterPermutedRows ← getSparsityPermuted s.link.next permOuter (identityPermutation dimLink)
  let helper ← getFilledInSparsityBlocked3x3 factor.diag linkTridiagPermutedCols s.link.diag
    factor.outer linkOuterPermutedRows helperStart.block33
    (identityPermutation dimTridiag) permLink (identityPermutation dimOuter)
  return {
    dimStart, dimTridiag, dimLink, dimOuter, permStart, permTridiag, permLink, permOuter
    startDiag := ← factorizationAlreadyPermutedSparsity helperStart.block11 permStart
    startNext := ← helperStart.block21.toCsr
    startOuter := ← helperStart.block31.toCsr
    tridiagDiag := ← factorizationAlreadyPermutedSparsity factor.diag permTridiag
    tridiagSubdiag := ← factor.subdiag.toCsr
    linkPrev := ← helper.block21.toCsr
    linkDiag := ← factorizationAlreadyPermutedSparsity helper.block22 permLink
    linkNext := ← helper.block32.toCsr
    outerSubdiag := ← factor.outer.toCsr
    outerDiag := ← factorizationAlreadyPermutedSparsity helper.block33 permOuter }

/-- The data member `m_data`,
`ctldl/factor_data/factorization_repeating_block_tridiagonal_arrowhead_linked.hpp:121-129, 282-284`. -/
structure ArrowheadFactor (K : Type _) where
  startDiag : DiagFactor K
  startNext : SubFactor K
  startOuter : SubFactor K
  tridiagDiag : List (DiagFactor K)
  tridiagSubdiag : List (SubFactor K)
  linkPrev : SubFactor K
  linkDiag : DiagFactor K
  linkNext : SubFactor K
  outerSubdiag : List (SubFactor K)
  outerDiag : DiagFactor K

/-- `numRepetitions()`,
`ctldl/factor_data/factorization_repeating_block_tridiagonal_arrowhead_linked.hpp:157`. -/
def ArrowheadFactor.numRepetitions {K : Type _} (f : ArrowheadFactor K) : Nat := f.tridiagSubdiag.length

/-- `checkNumRepetitionsClassInvariant()`,
`ctldl/factor_data/factorization_repeating_block_tridiagonal_arrowhead_linked.hpp:144-155` (the comparison with
`SIZE_MAX` holds for every container). -/
def ArrowheadFactor.checkInvariant {K : Type _} (f : ArrowheadFactor K) : Res Unit := do
  assert' (f.tridiagDiag.length == f.numRepetitions + 1)
  assert' (f.tridiagSubdiag.length == f.numRepetitions)
  assert' (f.outerSubdiag.length == f.numRepetitions + 1)

variable {K : Type _} [Zero K] [Sub K] [Mul K] [Div K]

/-- First part of `factorize`: start, tridiagonal and link blocks,
`ctldl/factor_data/factorization_repeating_block_tridiagonal_arrowhead_linked.hpp:165-180`. -/
def ArrowheadFactor.factorizeInner (f : ArrowheadFactor K) (input : ArrowheadMatrix K)
    (regularize : K → Nat → K) (method : Method) : Res (ArrowheadFactor K) := do
  let numRepetitions := f.numRepetitions
  let startDiag ← f.startDiag.factorize input.startDiag regularize method
  let (startNext, diag0) ← factorizeBlocks startDiag (.matrix input.startNext)
    (.matrix (← rd input.tridiagDiag 0)) f.startNext (← rd f.tridiagDiag 0) regularize method
  let tridiagDiag ← wr f.tridiagDiag 0 diag0
  let (tridiagDiag, tridiagSubdiag) ← (List.range numRepetitions).foldlM
    (fun (st : List (DiagFactor K) × List (SubFactor K)) i => do
      let (sub, diag) ← factorizeBlocks (← rd st.1 i) (.matrix (← rd input.tridiagSubdiag i))
        (.matrix (← rd input.tridiagDiag (i + 1))) (← rd st.2 i) (← rd st.1 (i + 1)) regularize method
      return (← wr st.1 (i + 1) diag, ← wr st.2 i sub))
    (tridiagDiag, f.tridiagSubdiag)
  let (linkPrev, linkDiag) ← factorizeBlocks (← rd tridiagDiag numRepetitions) (.matrix input.linkPrev)
    (.matrix input.linkDiag) f.linkPrev f.linkDiag regularize method
  return { f with startDiag, startNext, tridiagDiag, tridiagSubdiag, linkPrev, linkDiag }

/-- Second part of `factorize`: outer blocks,
`ctldl/factor_data/factorization_repeating_block_tridiagonal_arrowhead_linked.hpp:181-204`. The dimensions of the
`FactorInitNone`s are static members. -/
def ArrowheadFactor.factorizeOuter (dimTridiag dimLink dimOuter : Nat) (f : ArrowheadFactor K)
    (input : ArrowheadMatrix K) (regularize : K → Nat → K) (method : Method) : Res (ArrowheadFactor K) := do
  let numRepetitions := f.numRepetitions
  let noInitOuterSubdiag : Init K := .none dimOuter dimTridiag
  let noInitOuterDiag : Init K := .none dimOuter dimOuter
  let outerDiag ← fillWithOriginalMatrixValuesIncludingDiagonal input.outerDiag f.outerDiag
  let (startOuter, sub0, outerDiag) ← factorizePartialUpLooking f.startDiag f.startNext
    (.matrix input.startOuter) (.matrix (← rd input.outerSubdiag 0)) noInitOuterDiag
    f.startOuter (← rd f.outerSubdiag 0) outerDiag
  let outerSubdiag ← wr f.outerSubdiag 0 sub0
  let (outerSubdiag, outerDiag) ← (List.range numRepetitions).foldlM
    (fun (st : List (SubFactor K) × DiagFactor K) i => do
      let (sub, subNext, outerDiag) ← factorizePartialUpLooking (← rd f.tridiagDiag i)
        (← rd f.tridiagSubdiag i) noInitOuterSubdiag (.matrix (← rd input.outerSubdiag (i + 1)))
        noInitOuterDiag (← rd st.1 i) (← rd st.1 (i + 1)) st.2
      return (← wr (← wr st.1 i sub) (i + 1) subNext, outerDiag))
    (outerSubdiag, outerDiag)
  let (subLast, linkNext, outerDiag) ← factorizePartialUpLooking (← rd f.tridiagDiag numRepetitions)
    f.linkPrev noInitOuterSubdiag (.matrix input.linkNext) noInitOuterDiag
    (← rd outerSubdiag numRepetitions) f.linkNext outerDiag
  let outerSubdiag ← wr outerSubdiag numRepetitions subLast
  let (linkNext, outerDiag) ← factorizeBlocks f.linkDiag (.none dimOuter dimLink) noInitOuterDiag
    linkNext outerDiag regularize method
  return { f with startOuter, outerSubdiag, linkNext, outerDiag }

/-- `factorize`,
`ctldl/factor_data/factorization_repeating_block_tridiagonal_arrowhead_linked.hpp:160-205`. -/
def ArrowheadFactor.factorize (dimTridiag dimLink dimOuter : Nat) (f : ArrowheadFactor K)
    (input : ArrowheadMatrix K) (regularize : K → Nat → K) (method : Method) : Res (ArrowheadFactor K) := do
  let f ← f.factorizeInner input regularize method
  f.factorizeOuter dimTridiag dimLink dimOuter input regularize method

omit [Zero K] [Div K] in
/-- `forwardSolve`,
`ctldl/factor_data/factorization_repeating_block_tridiagonal_arrowhead_linked.hpp:214-236`. -/
def ArrowheadFactor.forwardSolve (f : ArrowheadFactor K) (rhs : ArrowheadVector K) :
    Res (ArrowheadVector K) := do
  f.checkInvariant
  let numRepetitions := f.numRepetitions
  let start ← solveForwardSubstitutionInPlace f.startDiag rhs.start
  let tridiag ← wr rhs.tridiag 0 (← solveForwardSubstitutionLeft (← rd f.tridiagDiag 0)
    (← rd rhs.tridiag 0) f.startNext start)
  let tridiag ← (List.range' 1 numRepetitions).foldlM
    (fun tridiag i => do
      wr tridiag i (← solveForwardSubstitutionLeft (← rd f.tridiagDiag i) (← rd tridiag i)
        (← rd f.tridiagSubdiag (i - 1)) (← rd tridiag (i - 1))))
    tridiag
  let link ← solveForwardSubstitutionLeft f.linkDiag rhs.link f.linkPrev (← rd tridiag numRepetitions)
  let outer ← solveForwardSubstitution f.startOuter start rhs.outer
  let outer ← (List.range (numRepetitions + 1)).foldlM
    (fun outer i => do solveForwardSubstitution (← rd f.outerSubdiag i) (← rd tridiag i) outer)
    outer
  let outer ← solveForwardSubstitution f.linkNext link outer
  let outer ← solveForwardSubstitutionInPlace f.outerDiag outer
  return ⟨start, tridiag, link, outer⟩

omit [Zero K] [Sub K] [Mul K] in
/-- `diagonalSolve`,
`ctldl/factor_data/factorization_repeating_block_tridiagonal_arrowhead_linked.hpp:238-249`. -/
def ArrowheadFactor.diagonalSolve (f : ArrowheadFactor K) (rhs : ArrowheadVector K) :
    Res (ArrowheadVector K) := do
  f.checkInvariant
  let numRepetitions := f.numRepetitions
  let start ← f.startDiag.diagonalSolve rhs.start
  let tridiag ← (List.range (numRepetitions + 1)).foldlM
    (fun tridiag i => do
      wr tridiag i (← (← rd f.tridiagDiag i).diagonalSolve (← rd tridiag i)))
    rhs.tridiag
  let link ← f.linkDiag.diagonalSolve rhs.link
  let outer ← f.outerDiag.diagonalSolve rhs.outer
  return ⟨start, tridiag, link, outer⟩

omit [Zero K] [Div K] in
/-- `backwardSolve`,
`ctldl/factor_data/factorization_repeating_block_tridiagonal_arrowhead_linked.hpp:251-279`. -/
def ArrowheadFactor.backwardSolve (f : ArrowheadFactor K) (rhs : ArrowheadVector K) :
    Res (ArrowheadVector K) := do
  f.checkInvariant
  let numRepetitions := f.numRepetitions
  let outer ← solveBackwardSubstitutionInPlace f.outerDiag rhs.outer
  let link ← solveBackwardSubstitution f.linkNext outer rhs.link
  let link ← solveBackwardSubstitutionInPlace f.linkDiag link
  let last ← solveBackwardSubstitution (← rd f.outerSubdiag numRepetitions) outer
    (← rd rhs.tridiag numRepetitions)
  let last ← solveBackwardSubstitution f.linkPrev link last
  let last ← solveBackwardSubstitutionInPlace (← rd f.tridiagDiag numRepetitions) last
  let tridiag ← wr rhs.tridiag numRepetitions last
  let tridiag ← (List.range numRepetitions).reverse.foldlM
    (fun tridiag k => do -- `k = i - 1` for `i = num_repetitions, ..., 1`
      let v ← solveBackwardSubstitution (← rd f.outerSubdiag k) outer (← rd tridiag k)
      let v ← solveBackwardSubstitution (← rd f.tridiagSubdiag k) (← rd tridiag (k + 1)) v
      let v ← solveBackwardSubstitutionInPlace (← rd f.tridiagDiag k) v
      wr tridiag k v)
    tridiag
  let start ← solveBackwardSubstitution f.startOuter outer rhs.start
  let start ← solveBackwardSubstitution f.startNext (← rd tridiag 0) start
  let start ← solveBackwardSubstitutionInPlace f.startDiag start
  return ⟨start, tridiag, link, outer⟩

omit [Zero K] in
/-- `solveInPlace`,
`ctldl/factor_data/factorization_repeating_block_tridiagonal_arrowhead_linked.hpp:207-212`. -/
def ArrowheadFactor.solveInPlace (f : ArrowheadFactor K) (rhs : ArrowheadVector K) :
    Res (ArrowheadVector K) := do
  let rhs ← f.forwardSolve rhs
  let rhs ← f.diagonalSolve rhs
  f.backwardSolve rhs

/-- `sparsity_to_factorize` of `FactorizationRepeatingBlockTridiagonal`,
`ctldl/factor_data/factorization_repeating_block_tridiagonal.hpp:31-41`; the empty descriptions are
`sparsity_to_factorize_start.hpp:50-57`, `sparsity_to_factorize_link.hpp:51-57`,
`sparsity_to_factorize_outer.hpp:54-60`. -/
def tridiagonalSparsity (spA spB : Sparsity) (permutation : List Nat) : Res ArrowheadSparsity := do
  staticAssert (isSquare spA)
  staticAssert (isSquare spB)
  staticAssert (spB.numRows == spA.numRows)
  return {
    start := ⟨emptySparsity 0 0, emptySparsity spA.numRows 0, emptySparsity 0 0, identityPermutation 0⟩
    tridiag := ⟨spA, spB, permutation⟩
    link := ⟨emptySparsity 0 spA.numCols, emptySparsity 0 0, emptySparsity 0 0, identityPermutation 0⟩
    outer := ⟨emptySparsity 0 spA.numCols, emptySparsity 0 0, identityPermutation 0⟩ }

omit [Zero K] [Sub K] [Mul K] [Div K] in
/-- The input handed on by `FactorizationRepeatingBlockTridiagonal::factorize`,
`ctldl/factor_data/factorization_repeating_block_tridiagonal.hpp:58-68`; empty matrices are
`ctldl/matrix/matrix_start.hpp:16-21`, `matrix_link.hpp:16-21`, `matrix_outer.hpp:16-23`. -/
def tridiagonalMatrix (dim numRepetitions : Nat) (valuesA valuesB : List (MatIn K)) : ArrowheadMatrix K :=
  { startDiag := emptyMatrixInput K 0 0
    startNext := emptyMatrixInput K dim 0
    startOuter := emptyMatrixInput K 0 0
    tridiagDiag := valuesA
    tridiagSubdiag := valuesB
    linkPrev := emptyMatrixInput K 0 dim
    linkDiag := emptyMatrixInput K 0 0
    linkNext := emptyMatrixInput K 0 0
    outerSubdiag := List.replicate (numRepetitions + 1) (emptyMatrixInput K 0 dim)
    outerDiag := emptyMatrixInput K 0 0 }

/-- `FactorizationRepeatingBlockTridiagonal::factorize`,
`ctldl/factor_data/factorization_repeating_block_tridiagonal.hpp:56-68`. -/
def tridiagonalFactorize (dim : Nat) (base : ArrowheadFactor K) (valuesA valuesB : List (MatIn K))
    (regularize : K → Nat → K) (method : Method) : Res (ArrowheadFactor K) :=
  base.factorize dim 0 0 (tridiagonalMatrix dim base.numRepetitions valuesA valuesB) regularize method

omit [Zero K] in
/-- `FactorizationRepeatingBlockTridiagonal::solveInPlace`,
`ctldl/factor_data/factorization_repeating_block_tridiagonal.hpp:70-76`. -/
def tridiagonalSolveInPlace (base : ArrowheadFactor K) (rhs : List (List K)) : Res (List (List K)) := do
  return (← base.solveInPlace ⟨[], rhs, [], []⟩).tridiag

end Ctldl
