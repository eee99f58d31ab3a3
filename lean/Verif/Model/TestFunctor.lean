import Verif.Model.TestMatrix
import Verif.Model.Vector
import Verif.Model.Mixed

/-! # `tests/multiply_factorize_solve_correct/*/test_functor.hpp`

The factorization object, the generated matrices and the generated solutions are parameters. The functions return both
sides of the final comparisons. -/

namespace Ctldl

variable {M K F : Type} [Zero M] [Zero K] [Sub K] [Mul K] [Div K] [Zero F] [Add F] [Sub F] [Mul F] [Div F]

/-- `TesterMultiplyFactorizeSolveCorrectSingle::operator()`,
`tests/multiply_factorize_solve_correct/single/test_functor.hpp:22-48`. -/
def testSingle (castFactor : M → K) (castVector : M → F) (castSolve : K → F) (dim : Nat) (permutation : List Nat)
    (factorization : DiagFactor K) (matrix : MatIn M) (regularize : K → Nat → K) (method : Method) (solution : List F) :
    Res (List F × List F) := do
  staticAssert (permutation.length == dim)
  let factorization ← factorization.factorizeCast castFactor matrix regularize method
  let rhs := List.replicate dim (0 : F)
  let rhs ← multiplyCast castVector id .symmetric matrix solution rhs
  let rhs ← factorization.solveInPlaceCast castSolve rhs
  return (rhs, solution)

/-- `TesterMultiplyFactorizeSolveCorrectRepeating::operator()`,
`tests/multiply_factorize_solve_correct/repeating/test_functor.hpp:29-72`. -/
def testRepeating (castFactor : M → K) (castVector : M → F) (castSolve : K → F) (spA spB : Sparsity)
    (permutation : List Nat) (factorization : ArrowheadFactor K) (matricesA matricesB : List (MatIn M))
    (regularize : K → Nat → K) (method : Method) (generated : List F) : Res (List F × List F) := do
  staticAssert (isSquare spA)
  staticAssert (isSquare spB)
  staticAssert (spB.numRows == spA.numRows)
  let blockDim := spA.numRows
  staticAssert (permutation.length == blockDim)
  let factorization ← tridiagonalFactorizeCast castFactor blockDim factorization matricesA matricesB regularize method
  let solution ← block blockDim generated
  let rhs := List.replicate solution.length (List.replicate blockDim (0 : F))
  let rhs ← multiplyRepeatingBlockTridiagonalCast castVector id matricesA matricesB solution rhs
  let rhs ← tridiagonalSolveInPlaceCast castSolve factorization rhs
  return (flatten rhs, flatten solution)

/-- `TesterMultiplyFactorizeSolveCorrectRepeatingBlockTridiagonalArrowheadLinked::operator()`,
`tests/multiply_factorize_solve_correct/repeating_arrowhead_linked/test_functor.hpp:42-151`; the four comparisons. -/
def testArrowhead (castFactor : M → K) (castVector : M → F) (castSolve : K → F)
    (dimStart dimTridiag dimLink dimOuter : Nat) (factorization : ArrowheadFactor K) (matrix : ArrowheadMatrix M)
    (regularize : K → Nat → K) (method : Method) (start tridiag link outer : List F) :
    Res ((List F × List F) × (List F × List F) × (List F × List F) × (List F × List F)) := do
  let factorization ← factorization.factorizeCast castFactor dimTridiag dimLink dimOuter matrix regularize method
  let solutionTridiag ← block dimTridiag tridiag
  let solution : ArrowheadVector F := ⟨start, solutionTridiag, link, outer⟩
  let rhs : ArrowheadVector F := ⟨List.replicate dimStart 0,
    List.replicate solution.tridiag.length (List.replicate dimTridiag 0), List.replicate dimLink 0,
    List.replicate dimOuter 0⟩
  let rhs ← multiplyArrowheadLinkedCast castVector id matrix solution rhs
  let rhs ← factorization.solveInPlaceCast castSolve rhs
  return ((rhs.start, solution.start), (flatten rhs.tridiag, flatten solution.tridiag), (rhs.link, solution.link),
    (rhs.outer, solution.outer))

end Ctldl
