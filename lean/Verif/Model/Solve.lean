import Verif.Model.Factorize

/-! # `ctldl/solve/*` and the solve functions of `Factorization` -/

namespace Ctldl

variable {K : Type _} [Sub K] [Mul K] [Div K]

/-- What the substitutions use of a factor block: sparsity, permutations of rows and columns, values. -/
def DiagFactor.toBlock {K : Type _} (f : DiagFactor K) : SubFactor K :=
  ⟨f.sparsity, f.permutation, f.permutation, f.L⟩

/-- `solveForwardSubstitutionRow`, `ctldl/solve/solve_forward_substitution.hpp:10-26`. -/
def solveForwardSubstitutionRow (i : Nat) (fact : SubFactor K) (solution : List K) (init : K) : Res K := do
  let rowBegin ← rd fact.sparsity.rowBegin i
  let rowEnd ← rd fact.sparsity.rowBegin (i + 1)
  (← entryRange rowBegin rowEnd).foldlM
    (fun value entryIndex => do
      let j := (← rd fact.sparsity.entries entryIndex).col
      let jOrig ← rd fact.permutationCol j
      return value - (← rd fact.L entryIndex) * (← rd solution jOrig))
    init

/-- `solveForwardSubstitution` with an off-diagonal block,
`ctldl/solve/solve_forward_substitution.hpp:50-60`; returns the partial solution. -/
def solveForwardSubstitution (fact : SubFactor K) (solution partialSolution : List K) : Res (List K) :=
  (List.range fact.sparsity.numRows).foldlM
    (fun ps i => do
      let iOrig ← rd fact.permutationRow i
      wr ps iOrig (← solveForwardSubstitutionRow i fact solution (← rd ps iOrig)))
    partialSolution

/-- `solveForwardSubstitution` in place with a diagonal block,
`ctldl/solve/solve_forward_substitution.hpp:105-109`: the function above with `solution` and
`partial_solution` being the same object. -/
def solveForwardSubstitutionInPlace (diag : DiagFactor K) (rhs : List K) : Res (List K) :=
  (List.range diag.sparsity.numRows).foldlM
    (fun v i => do
      let iOrig ← rd diag.permutation i
      wr v iOrig (← solveForwardSubstitutionRow i diag.toBlock v (← rd v iOrig)))
    rhs

/-- `solveForwardSubstitution` with an off-diagonal and a diagonal block,
`ctldl/solve/solve_forward_substitution.hpp:85-103`. -/
def solveForwardSubstitutionLeft (diag : DiagFactor K) (rhs : List K) (left : SubFactor K)
    (solutionLeft : List K) : Res (List K) := do
  staticAssert (diag.sparsity.numRows == left.sparsity.numRows)
  staticAssert (permutationEq diag.permutation left.permutationRow)
  (List.range diag.sparsity.numRows).foldlM
    (fun v i => do
      let iOrig ← rd diag.permutation i
      let solutionI ← rd v iOrig
      let solutionI ← solveForwardSubstitutionRow i left solutionLeft solutionI
      let solutionI ← solveForwardSubstitutionRow i diag.toBlock v solutionI
      wr v iOrig solutionI)
    rhs

/-- `solveBackwardSubstitutionRow`, `ctldl/solve/solve_backward_substitution.hpp:10-26`; `solutionI` is passed
by value. -/
def solveBackwardSubstitutionRow (i : Nat) (fact : SubFactor K) (solutionI : K) (partialSolution : List K) :
    Res (List K) := do
  let rowBegin ← rd fact.sparsity.rowBegin i
  let rowEnd ← rd fact.sparsity.rowBegin (i + 1)
  (← entryRange rowBegin rowEnd).foldlM
    (fun ps entryIndex => do
      let j := (← rd fact.sparsity.entries entryIndex).col
      let jOrig ← rd fact.permutationCol j
      wr ps jOrig ((← rd ps jOrig) - (← rd fact.L entryIndex) * solutionI))
    partialSolution

/-- `solveBackwardSubstitution` with an off-diagonal block,
`ctldl/solve/solve_backward_substitution.hpp:51-62`. -/
def solveBackwardSubstitution (fact : SubFactor K) (solution partialSolution : List K) : Res (List K) :=
  (List.range fact.sparsity.numRows).reverse.foldlM
    (fun ps i => do
      let iOrig ← rd fact.permutationRow i
      solveBackwardSubstitutionRow i fact (← rd solution iOrig) ps)
    partialSolution

/-- `solveBackwardSubstitution` in place with a diagonal block,
`ctldl/solve/solve_backward_substitution.hpp:76-81`. -/
def solveBackwardSubstitutionInPlace (diag : DiagFactor K) (rhs : List K) : Res (List K) :=
  (List.range diag.sparsity.numRows).reverse.foldlM
    (fun v i => do
      let iOrig ← rd diag.permutation i
      solveBackwardSubstitutionRow i diag.toBlock (← rd v iOrig) v)
    rhs

/-- `Factorization::diagonalSolve`, `ctldl/factor_data/factorization.hpp:79-86`. -/
def DiagFactor.diagonalSolve (f : DiagFactor K) (rhs : List K) : Res (List K) :=
  (List.range f.sparsity.numRows).foldlM
    (fun v i => do
      let iOrig ← f.origRowIndex i
      wr v iOrig ((← rd v iOrig) / (← rd f.D i)))
    rhs

/-- `Factorization::solveInPlace`, `ctldl/factor_data/factorization.hpp:72-77`. -/
def DiagFactor.solveInPlace (f : DiagFactor K) (rhs : List K) : Res (List K) := do
  let rhs ← solveForwardSubstitutionInPlace f rhs
  let rhs ← f.diagonalSolve rhs
  solveBackwardSubstitutionInPlace f rhs

end Ctldl
