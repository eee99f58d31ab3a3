import Verif.Model.TestUtil
import Verif.Model.Sparsity

/-! # Random patterns of the tests: `tests/utility/random/*`, and `tests/test_matrices/repeating/tridiagonal.hpp` -/

namespace Ctldl

/-- `BernoulliDistribution(0.5)` applied to the generator, `tests/utility/random/bernoulli_distribution.hpp:13-21`: value
and new generator state. The limit `static_cast<size_t>(0.5 * static_cast<double>(max - min))` is `2^63`, because
`2^64 - 1` is rounded to `2^64` (C54 shows this). -/
def bernoulli (state : Nat) : Bool × Nat := (lcgNext state < 2 ^ 63, lcgNext state)

/-- `values[i][j] = value`. -/
def setCell (values : List (List Bool)) (i j : Nat) (value : Bool) : Res (List (List Bool)) := do
  wr values i (← wr (← rd values i) j value)

/-- `BoolMatrixDistribution::operator()`, `tests/utility/random/bool_matrix_distribution.hpp:16-25`: matrix and new
generator state. The initial content of the matrix, which is not initialized in the code, is `init`. -/
def boolMatrixDistribution (numRows numCols : Nat) (init : List (List Bool)) (state : Nat) :
    Res (List (List Bool) × Nat) :=
  (List.range numRows).foldlM
    (fun st i => (List.range numCols).foldlM
      (fun (st : List (List Bool) × Nat) j => do
        let (value, state) := bernoulli st.2
        return (← setCell st.1 i j value, state))
      st)
    (init, state)

/-- `RandomMatrixSparsityKind`, `tests/utility/random/procedural_test_matrix.hpp:14-16`. -/
inductive RandomMatrixSparsityKind where
  | any
  | symmetric
  deriving DecidableEq

/-- `applyRandomMatrixSparsityKind`, `tests/utility/random/procedural_test_matrix.hpp:18-34`. -/
def applyRandomMatrixSparsityKind (kind : RandomMatrixSparsityKind) (numRows numCols : Nat)
    (isNonzero : List (List Bool)) : Res (List (List Bool)) :=
  match kind with
  | .any => return isNonzero
  | .symmetric => do
    staticAssert (numRows == numCols)
    let isNonzero ← (List.range numRows).foldlM
      (fun isNonzero i => (List.range' (i + 1) (numCols - (i + 1))).foldlM
        (fun isNonzero j => setCell isNonzero i j false) isNonzero)
      isNonzero
    (List.range numRows).foldlM (fun isNonzero i => setCell isNonzero i i true) isNonzero

/-- `TestMatrixFromGenerator::sparsity` and `next_generator`, `tests/utility/random/procedural_test_matrix.hpp:36-59`, with
`compileTimeGenerate`, `tests/utility/random/compile_time_generate.hpp:11-17`. `ProceduralTestMatrixT` and
`ProceduralTestMatrixSymmetricT` (`:61-76`) are this for the generator with the seed as state. -/
def proceduralTestMatrix (kind : RandomMatrixSparsityKind) (seed numRows numCols : Nat) : Res (Sparsity × Nat) := do
  let (generated, state) ← boolMatrixDistribution numRows numCols
    (List.replicate numRows (List.replicate numCols false)) seed
  let isNonzero ← applyRandomMatrixSparsityKind kind numRows numCols generated
  let sparsity ← Sparsity.make numRows numCols (← makeSparseEntriesFromBoolMatrix numRows numCols isNonzero)
  return (sparsity, state)

/-- The template arguments chosen by `TesterMultiplyFactorizeSolveCorrectRepeatingRandom`,
`tests/multiply_factorize_solve_correct/repeating/test_functor_random.hpp:18-24`. -/
def randomTridiagonal (seed dim : Nat) : Res (Sparsity × Sparsity × List Nat) := do
  let (diag, seed1) ← proceduralTestMatrix .symmetric seed dim dim
  let (subdiag, seed2) ← proceduralTestMatrix .any seed1 dim dim
  let (permutation, _) ← proceduralTestPermutation seed2 dim
  return (diag, subdiag, permutation)

/-- The template arguments chosen by `TesterMultiplyFactorizeSolveCorrectRepeatingBlockTridiagonalArrowheadLinkedRandom`,
`tests/multiply_factorize_solve_correct/repeating_arrowhead_linked/test_functor_random.hpp:21-49`, one after the other.
Two of the permutations start from the same generator (`seed10`, `seed11`). -/
structure RandomArrowhead where
  startDiag : Sparsity
  startNext : Sparsity
  startOuter : Sparsity
  tridiagDiag : Sparsity
  tridiagSubdiag : Sparsity
  linkPrev : Sparsity
  linkDiag : Sparsity
  linkNext : Sparsity
  outerSubdiag : Sparsity
  outerDiag : Sparsity
  permutationStart : List Nat
  permutationTridiag : List Nat
  permutationLink : List Nat
  permutationOuter : List Nat

/-- See `RandomArrowhead`. -/
def randomArrowhead (seed dimStart dimTridiag dimLink dimOuter : Nat) : Res RandomArrowhead := do
  let (startDiag, seed1) ← proceduralTestMatrix .symmetric seed dimStart dimStart
  let (startNext, seed2) ← proceduralTestMatrix .any seed1 dimTridiag dimStart
  let (startOuter, seed3) ← proceduralTestMatrix .any seed2 dimOuter dimStart
  let (tridiagDiag, seed4) ← proceduralTestMatrix .symmetric seed3 dimTridiag dimTridiag
  let (tridiagSubdiag, seed5) ← proceduralTestMatrix .any seed4 dimTridiag dimTridiag
  let (linkPrev, seed6) ← proceduralTestMatrix .any seed5 dimLink dimTridiag
  let (linkDiag, seed7) ← proceduralTestMatrix .symmetric seed6 dimLink dimLink
  let (linkNext, seed8) ← proceduralTestMatrix .any seed7 dimOuter dimLink
  let (outerSubdiag, seed9) ← proceduralTestMatrix .any seed8 dimOuter dimTridiag
  let (outerDiag, seed10) ← proceduralTestMatrix .symmetric seed9 dimOuter dimOuter
  let (permutationStart, _) ← proceduralTestPermutation seed10 dimStart
  let (permutationTridiag, seed12) ← proceduralTestPermutation seed10 dimTridiag
  let (permutationLink, seed13) ← proceduralTestPermutation seed12 dimLink
  let (permutationOuter, _) ← proceduralTestPermutation seed13 dimOuter
  return ⟨startDiag, startNext, startOuter, tridiagDiag, tridiagSubdiag, linkPrev, linkDiag, linkNext, outerSubdiag,
    outerDiag, permutationStart, permutationTridiag, permutationLink, permutationOuter⟩

/-- `TestMatrixTridiagonal<blockDim>::Matrix`, `tests/test_matrices/repeating/tridiagonal.hpp:13-48`: the entries in the
order of the two loops, with their values. -/
def testMatrixTridiagonal (K : Type) [OfNat K 2] [OfNat K 1] [Neg K] (blockDim : Nat) : MatIn K :=
  ⟨⟨blockDim, blockDim, (List.range blockDim).map (fun i => ⟨i, i⟩) ++
      (List.range' 1 (blockDim - 1)).map (fun i => ⟨i, i - 1⟩)⟩,
    List.replicate blockDim 2 ++ List.replicate (blockDim - 1) (-1)⟩

/-- `TestMatrixSingleEntryTopRight<blockDim>::Matrix`, `tests/test_matrices/repeating/tridiagonal.hpp:59-68`. -/
def testMatrixSingleEntryTopRight (K : Type) [OfNat K 1] [Neg K] (blockDim : Nat) : MatIn K :=
  ⟨⟨blockDim, blockDim, [⟨0, blockDim - 1⟩]⟩, [-1]⟩

end Ctldl
