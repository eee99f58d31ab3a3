import Verif.Model.Mixed
import Verif.Model.TestSuite

/-!
The example programs with fixed matrices, `examples/repeating/example_{tridiagonal,nos2,nos4,indef}.cpp` and
`examples/single/example_{indef_single,lfat5}.cpp`.

Each program returns the numbers given to `std::printf("%f\n", …)` in turn. Parameters are the arithmetic with the
conversion of literals, the constructor, whose object has indeterminate numbers, and the method of factorization.
The matrices are those of the tests with the same names: the numbers and the order of entries are the same.
-/

namespace Ctldl

section

variable {K : Type _} [Zero K] [Sub K] [Mul K] [Div K]

/-- A loop calling `factorize` again and again, for example `examples/repeating/example_nos2.cpp:71-74`. -/
def factorizeAgain (dim : Nat) (A B : List (MatIn K)) (regularize : K → Nat → K) (method : Method) (count : Nat)
    (factorization : ArrowheadFactor K) : Res (ArrowheadFactor K) :=
  (List.range count).foldlM (fun factorization _ => tridiagonalFactorize dim factorization A B regularize method)
    factorization

/-- A loop copying the right-hand side and calling `solveInPlace` again and again, for example
`examples/repeating/example_nos2.cpp:81-87`. -/
def solveAgain (rhs : List (List K)) (count : Nat) (factorization : ArrowheadFactor K) : Res (List (List K)) :=
  (List.range count).foldlM (fun _ _ => tridiagonalSolveInPlace factorization rhs) rhs

/-- The common part of `main` in `examples/repeating/example_tridiagonal.cpp:57-90`, `example_nos2.cpp:61-94` and
`example_nos4.cpp:99-136`: factorization and solution, each `count` times, with a right-hand side of ones. -/
def exampleRepeating (one : K) (dim numRepetitions : Nat) (A B : List (MatIn K)) (construct : Nat → ArrowheadFactor K)
    (method : Method) (count : Nat) : Res (List K) := do
  let factorization ← factorizeAgain dim A B regularizationNone method count (construct numRepetitions)
  let rhs := List.replicate (numRepetitions + 1) (List.replicate dim one)
  let rhsInSolutionOut ← solveAgain rhs count factorization
  return rhsInSolutionOut.flatten

/-- `main` of `examples/repeating/example_tridiagonal.cpp:13-90`. -/
def exampleTridiagonal (convert : ℚ → K) (construct : Nat → ArrowheadFactor K) (method : Method) : Res (List K) :=
  exampleRepeating (convert 1) 3 (20 - 1) (List.replicate (20 - 1 + 1) ((testMatrixTridiagonal ℚ 3).map convert))
    (List.replicate (20 - 1) ((testMatrixSingleEntryTopRight ℚ 3).map convert)) construct method 10000000

/-- `main` of `examples/repeating/example_nos2.cpp:14-94`. -/
def exampleNos2 (convert : ℚ → K) (construct : Nat → ArrowheadFactor K) (method : Method) : Res (List K) :=
  exampleRepeating (convert 1) 3 318 (List.replicate (318 + 1) (testMatrixNos2A.map convert))
    (List.replicate 318 (testMatrixNos2B.map convert)) construct method 1000000

/-- `main` of `examples/repeating/example_nos4.cpp:12-136`. -/
def exampleNos4 (convert : ℚ → K) (construct : Nat → ArrowheadFactor K) (method : Method) : Res (List K) :=
  exampleRepeating (convert 1) 10 9
    ((List.replicate (9 + 1) ((testMatrixNos4A false).map convert)).set 9 ((testMatrixNos4A true).map convert))
    (List.replicate 9 (testMatrixNos4B.map convert)) construct method 1000000

/-- `main` of `examples/single/example_lfat5.cpp:15-67`. -/
def exampleLFAT5 (convert : ℚ → K) (construct : DiagFactor K) (method : Method) : Res (List K) := do
  let factorization ← construct.factorize (testMatrixLFAT5.map convert) regularizationNone method
  factorization.solveInPlace (List.replicate 14 (convert 1))

end

section

variable {M K : Type _} [Zero M] [Zero K] [Sub K] [Mul K] [Div K]

/-- `main` of `examples/repeating/example_indef.cpp:13-76`: the matrices have values of type `M`, the factor and the
right-hand side have values of type `K`. The literals of the right-hand side are converted by `convert`. -/
def exampleIndef (convertMatrix : ℚ → M) (cast : M → K) (convert : ℚ → K) (regularize : K → Nat → K)
    (construct : Nat → ArrowheadFactor K) (method : Method) : Res (List K) := do
  let factorization ← tridiagonalFactorizeCast cast 2 (construct 1)
    (List.replicate (1 + 1) (testMatrixIndefA.map convertMatrix))
    (List.replicate 1 (testMatrixIndefB.map convertMatrix)) regularize method
  return (← tridiagonalSolveInPlace factorization [[convert 1, convert 2], [convert 3, convert 4]]).flatten

/-- `main` of `examples/single/example_indef_single.cpp:13-40`. -/
def exampleIndefSingle (convertMatrix : ℚ → M) (cast : M → K) (convert : ℚ → K) (regularize : K → Nat → K)
    (construct : DiagFactor K) (method : Method) : Res (List K) := do
  let factorization ← construct.factorizeCast cast (testMatrixIndefA.map convertMatrix) regularize method
  factorization.solveInPlace [convert 1, convert 1]

end

end Ctldl
