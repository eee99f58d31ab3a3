import Verif.Model.Sparsity

/-! # `ctldl/matrix/*` -/

namespace Ctldl

/-- `MultiplyKind`, `ctldl/matrix/multiply_kind.hpp:7-11`. -/
inductive MultiplyKind where
  | normal
  | transposed
  | symmetric
  deriving DecidableEq, Repr

/-- `kind & MultiplyKind::Normal`, `ctldl/matrix/multiply_kind.hpp:7-16` (values 1, 2, 3). -/
def MultiplyKind.hasNormal : MultiplyKind → Bool
  | .normal => true
  | .transposed => false
  | .symmetric => true

/-- `kind & MultiplyKind::Transposed`, `ctldl/matrix/multiply_kind.hpp:7-16`. -/
def MultiplyKind.hasTransposed : MultiplyKind → Bool
  | .normal => false
  | .transposed => true
  | .symmetric => true

variable {K : Type _} [Add K] [Mul K]

/-- Body of the loop of `multiply`, `ctldl/matrix/multiply.hpp:16-31`. -/
def multiplyEntry (kind : MultiplyKind) (matrix : MatIn K) (solution : List K) (rhs : List K)
    (entryIndex : Nat) : Res (List K) := do
  let entry ← rd matrix.sparsity.entries entryIndex
  let value ← matrix.valueAt entryIndex
  let rhs ← if kind.hasNormal then do
      wr rhs entry.row ((← rd rhs entry.row) + value * (← rd solution entry.col))
    else pure rhs
  if kind = .symmetric ∧ entry.row = entry.col then return rhs
  if kind.hasTransposed then
    wr rhs entry.col ((← rd rhs entry.col) + value * (← rd solution entry.row))
  else return rhs

/-- `multiply<kind>`, `ctldl/matrix/multiply.hpp:10-33`; returns `rhs`. -/
def multiply (kind : MultiplyKind) (matrix : MatIn K) (solution rhs : List K) : Res (List K) :=
  (List.range matrix.sparsity.entries.length).foldlM (multiplyEntry kind matrix solution) rhs

/-- `multiply` into one block of a block vector. -/
def multiplyInto (kind : MultiplyKind) (matrix : MatIn K) (solution : List K) (rhs : List (List K))
    (block : Nat) : Res (List (List K)) := do
  wr rhs block (← multiply kind matrix solution (← rd rhs block))

/-- `multiplyRepeatingBlockTridiagonal`, `ctldl/matrix/multiply_repeating_block_tridiagonal.hpp:11-28`. The
`pre` in `:16` holds for every container. -/
def multiplyRepeatingBlockTridiagonal (matricesA matricesB : List (MatIn K))
    (solution rhs : List (List K)) : Res (List (List K)) := do
  let numRepetitions := matricesB.length
  pre (matricesA.length == numRepetitions + 1)
  pre (solution.length == numRepetitions + 1)
  pre (rhs.length == numRepetitions + 1)
  let rhs ← multiplyInto .symmetric (← rd matricesA 0) (← rd solution 0) rhs 0
  (List.range numRepetitions).foldlM
    (fun rhs i => do
      let rhs ← multiplyInto .transposed (← rd matricesB i) (← rd solution (i + 1)) rhs i
      let rhs ← multiplyInto .normal (← rd matricesB i) (← rd solution i) rhs (i + 1)
      multiplyInto .symmetric (← rd matricesA (i + 1)) (← rd solution (i + 1)) rhs (i + 1))
    rhs

/-- `MatrixTridiagonalArrowheadLinked` of user matrices: `ctldl/matrix/matrix_start.hpp:9-14`,
`matrix_tridiagonal.hpp:5-9`, `matrix_link.hpp:9-14`, `matrix_outer.hpp:10-14`,
`matrix_tridiagonal_arrowhead_linked.hpp:5-11`. -/
structure ArrowheadMatrix (K : Type _) where
  startDiag : MatIn K
  startNext : MatIn K
  startOuter : MatIn K
  tridiagDiag : List (MatIn K)
  tridiagSubdiag : List (MatIn K)
  linkPrev : MatIn K
  linkDiag : MatIn K
  linkNext : MatIn K
  outerSubdiag : List (MatIn K)
  outerDiag : MatIn K

/-- `VectorTridiagonalArrowheadLinked`, `ctldl/vector/vector_tridiagonal_arrowhead_linked.hpp`. -/
structure ArrowheadVector (K : Type _) where
  start : List K
  tridiag : List (List K)
  link : List K
  outer : List K
  deriving DecidableEq

/-- `multiplyRepeatingBlockTridiagonalArrowheadLinked`,
`ctldl/matrix/multiply_repeating_block_tridiagonal_arrowhead_linked.hpp:11-42`. -/
def multiplyArrowheadLinked (m : ArrowheadMatrix K) (x rhs : ArrowheadVector K) :
    Res (ArrowheadVector K) := do
  let start ← multiply .symmetric m.startDiag x.start rhs.start
  let start ← multiply .transposed m.startNext (← rd x.tridiag 0) start
  let start ← multiply .transposed m.startOuter x.outer start
  let tridiag ← multiplyInto .normal m.startNext x.start rhs.tridiag 0
  let tridiag ← multiplyRepeatingBlockTridiagonal m.tridiagDiag m.tridiagSubdiag x.tridiag tridiag
  let numRepetitions := m.tridiagSubdiag.length
  let (tridiag, outer) ← (List.range (numRepetitions + 1)).foldlM
    (fun (st : List (List K) × List K) i => do
      let tridiag ← multiplyInto .transposed (← rd m.outerSubdiag i) x.outer st.1 i
      let outer ← multiply .normal (← rd m.outerSubdiag i) (← rd x.tridiag i) st.2
      return (tridiag, outer))
    (tridiag, rhs.outer)
  let tridiag ← multiplyInto .transposed m.linkPrev x.link tridiag numRepetitions
  let link ← multiply .normal m.linkPrev (← rd x.tridiag numRepetitions) rhs.link
  let link ← multiply .transposed m.linkNext x.outer link
  let link ← multiply .symmetric m.linkDiag x.link link
  let outer ← multiply .normal m.startOuter x.start outer
  let outer ← multiply .normal m.linkNext x.link outer
  let outer ← multiply .symmetric m.outerDiag x.outer outer
  return ⟨start, tridiag, link, outer⟩

end Ctldl
