import Verif.Model.Arrowhead
import Verif.Model.TestUtil
import Verif.Model.Examples
import Verif.Lemmas.ValidDecidable

/-! # The unit tests of the library, for the model

These are tests of the model, not proofs of properties: the unit tests of the repository, with the same inputs and
expected results, evaluated in the kernel. -/

namespace Ctldl

/-- `CTLDL_TEST_SPARSITY_EQUAL`, `tests/utility/test_sparsity_equal.hpp:14-25`: the same entries in any order. -/
private def unitEqual (x : Res Sparsity) (numRows numCols : Nat) (entries : List Entry) : Bool :=
  match x with
  | .ok x => x.numRows == numRows && x.numCols == numCols && decide (x.entries.Perm entries)
  | .error _ => false

/-- A pattern in compressed row storage. -/
private def unitCsr (numRows numCols : Nat) (entries : List Entry) : Res Csr := do
  (← Sparsity.make numRows numCols entries).toCsr

/-- `ctldl/symbolic/compute_elimination_tree_blocked.test.cpp:11-30`. -/
example : (do
    let empty ← unitCsr 3 3 []
    computeEliminationTreeBlocked empty (← unitCsr 3 3 [⟨0, 0⟩, ⟨1, 1⟩, ⟨1, 2⟩, ⟨2, 1⟩, ⟨2, 2⟩]) empty) =
    .ok [3, 4, 4, noParent, 5, noParent] := by decide +kernel

/-- `ctldl/symbolic/compute_elimination_tree_repeating.test.cpp:12-33`. -/
example : (do
    computeEliminationTreeRepeating (← unitCsr 5 5 [⟨3, 2⟩])
      (← unitCsr 5 5 [⟨0, 3⟩, ⟨2, 0⟩, ⟨2, 1⟩, ⟨2, 4⟩, ⟨4, 4⟩])) =
    .ok [2, 2 + 5, 3, 4, 0 + 5, 2 + 5, noParent, 3 + 5, 4 + 5, noParent] := by decide +kernel

/-- `ctldl/symbolic/compute_elimination_tree_repeating.test.cpp:35-57`. -/
example : (do
    computeEliminationTreeRepeating (← unitCsr 7 7 [⟨1, 0⟩, ⟨2, 0⟩, ⟨2, 1⟩])
      (← unitCsr 7 7 [⟨0, 5⟩, ⟨0, 6⟩, ⟨1, 3⟩, ⟨1, 4⟩, ⟨1, 5⟩, ⟨2, 4⟩, ⟨2, 6⟩])) =
    .ok [1, 2, noParent, 1 + 7, 1 + 7, 0 + 7, 0 + 7, 1 + 7, 2 + 7, noParent, noParent, noParent, noParent, noParent] := by
  decide +kernel

/-- `ctldl/symbolic/filled_in_sparsity_blocked.test.cpp:14-20`. -/
example : getFilledInSparsityBlocked (emptySparsity 1 1) (emptySparsity 1 1) (emptySparsity 1 1)
    (identityPermutation 1) (identityPermutation 1) =
    .ok ⟨emptySparsity 1 1, emptySparsity 1 1, emptySparsity 1 1⟩ := by decide +kernel

/-- `ctldl/symbolic/filled_in_sparsity_blocked.test.cpp:22-37`. -/
example :
    let filled := getFilledInSparsityBlocked (emptySparsity 3 3)
      ⟨3, 3, [⟨0, 0⟩, ⟨1, 1⟩, ⟨1, 2⟩, ⟨2, 1⟩, ⟨2, 2⟩]⟩ (emptySparsity 3 3) (identityPermutation 3) (identityPermutation 3)
    unitEqual (filled.map (·.block11)) 3 3 [] ∧
      unitEqual (filled.map (·.block21)) 3 3 [⟨0, 0⟩, ⟨1, 1⟩, ⟨1, 2⟩, ⟨2, 1⟩, ⟨2, 2⟩] ∧
      unitEqual (filled.map (·.block22)) 3 3 [⟨2, 1⟩] := by decide +kernel

/-- `ctldl/symbolic/filled_in_sparsity_repeating_arrowhead.test.cpp:14-20`. -/
example : unitEqual ((getFilledInSparsityRepeatingArrowhead (emptySparsity 1 1) (emptySparsity 1 1) (emptySparsity 1 1)
    (identityPermutation 1) (identityPermutation 1)).map (·.outer)) 1 1 [] := by decide +kernel

/-- `ctldl/symbolic/filled_in_sparsity_repeating_arrowhead.test.cpp:22-35`. -/
example : unitEqual ((getFilledInSparsityRepeatingArrowhead ⟨3, 3, [⟨1, 0⟩, ⟨2, 1⟩]⟩ (emptySparsity 3 3)
    ⟨1, 3, [⟨0, 0⟩]⟩ (identityPermutation 3) (identityPermutation 1)).map (·.outer)) 1 3
    [⟨0, 0⟩, ⟨0, 1⟩, ⟨0, 2⟩] := by decide +kernel

/-- `ctldl/symbolic/filled_in_sparsity_repeating_arrowhead.test.cpp:37-50`. -/
example : unitEqual ((getFilledInSparsityRepeatingArrowhead ⟨3, 3, [⟨2, 1⟩]⟩ ⟨3, 3, [⟨1, 0⟩]⟩ ⟨1, 3, [⟨0, 0⟩]⟩
    (identityPermutation 3) (identityPermutation 1)).map (·.outer)) 1 3 [⟨0, 0⟩, ⟨0, 1⟩, ⟨0, 2⟩] := by decide +kernel

/-- `ctldl/symbolic/filled_in_sparsity_repeating_arrowhead.test.cpp:52-66`. -/
example : unitEqual ((getFilledInSparsityRepeatingArrowhead (emptySparsity 4 4) ⟨4, 4, [⟨0, 1⟩, ⟨1, 2⟩, ⟨2, 3⟩]⟩
    ⟨1, 4, [⟨0, 3⟩]⟩ (identityPermutation 4) (identityPermutation 1)).map (·.outer)) 1 4
    [⟨0, 0⟩, ⟨0, 1⟩, ⟨0, 2⟩, ⟨0, 3⟩] := by decide +kernel

/-- Block patterns without link and outer block. -/
private def unitSpline (startNext tridiagDiag tridiagSubdiag : List Entry) (permutation : List Nat) :
    ArrowheadSparsity :=
  { start := ⟨emptySparsity 4 4, ⟨7, 4, startNext⟩, emptySparsity 0 4, identityPermutation 4⟩
    tridiag := ⟨⟨7, 7, tridiagDiag⟩, ⟨7, 7, tridiagSubdiag⟩, permutation⟩
    link := ⟨emptySparsity 0 7, emptySparsity 0 0, emptySparsity 0 0, identityPermutation 0⟩
    outer := ⟨emptySparsity 0 7, emptySparsity 0 0, identityPermutation 0⟩ }

/-- The expected pattern of the diagonal blocks, `…arrowhead_linked.test.cpp:48-49, 98-99`. -/
private def splineDiag : List Entry :=
  [⟨3, 0⟩, ⟨3, 2⟩, ⟨4, 2⟩, ⟨4, 3⟩, ⟨5, 1⟩, ⟨5, 3⟩, ⟨5, 4⟩, ⟨6, 4⟩, ⟨6, 5⟩]

/-- The expected pattern of the subdiagonal blocks, `…arrowhead_linked.test.cpp:52-55, 102-105`. -/
private def splineSubdiag : List Entry :=
  [⟨3, 0⟩, ⟨3, 2⟩, ⟨3, 3⟩, ⟨3, 4⟩, ⟨3, 5⟩, ⟨3, 6⟩, ⟨4, 2⟩, ⟨4, 3⟩, ⟨4, 4⟩, ⟨4, 5⟩, ⟨4, 6⟩, ⟨5, 1⟩, ⟨5, 5⟩, ⟨5, 6⟩]

/-- `ctldl/factor_data/factorization_repeating_block_tridiagonal_arrowhead_linked.test.cpp:17-58`. -/
example :
    let T := arrowheadTypes (unitSpline [⟨3, 0⟩, ⟨3, 1⟩, ⟨4, 1⟩, ⟨4, 3⟩, ⟨5, 2⟩, ⟨5, 3⟩]
      [⟨3, 0⟩, ⟨3, 2⟩, ⟨4, 2⟩, ⟨5, 1⟩, ⟨6, 4⟩, ⟨6, 5⟩] [⟨3, 0⟩, ⟨3, 2⟩, ⟨4, 2⟩, ⟨4, 6⟩, ⟨5, 1⟩, ⟨5, 6⟩]
      (identityPermutation 7))
    unitEqual (T.map (·.tridiagDiag.toSparsity)) 7 7 splineDiag ∧
      unitEqual (T.map (·.tridiagSubdiag.toSparsity)) 7 7 splineSubdiag := by decide +kernel

/-- `ctldl/factor_data/factorization_repeating_block_tridiagonal_arrowhead_linked.test.cpp:60-108`. -/
example :
    let T := arrowheadTypes (unitSpline [⟨0, 0⟩, ⟨0, 1⟩, ⟨1, 1⟩, ⟨1, 3⟩, ⟨2, 2⟩, ⟨2, 3⟩]
      [⟨3, 0⟩, ⟨4, 0⟩, ⟨4, 1⟩, ⟨5, 2⟩, ⟨6, 1⟩, ⟨6, 2⟩] [⟨0, 3⟩, ⟨0, 4⟩, ⟨1, 4⟩, ⟨1, 6⟩, ⟨2, 5⟩, ⟨2, 6⟩]
      [3, 5, 4, 0, 1, 2, 6])
    unitEqual (T.map (·.tridiagDiag.toSparsity)) 7 7 splineDiag ∧
      unitEqual (T.map (·.tridiagSubdiag.toSparsity)) 7 7 splineSubdiag := by decide +kernel

/-- `tests/utility/random/procedural_test_permutation.test.cpp:12-19`. -/
example : ((proceduralTestPermutation 0 5).map fun x => decide (x.1.Perm (identityPermutation 5))) = .ok true := by
  decide +kernel

end Ctldl
