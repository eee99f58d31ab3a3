import Verif.Model.Mixed

/-!
# Conversions between number types

It is the same to convert all stored numbers first and then use the functions for one number type.
-/

namespace Ctldl

variable {M K F : Type}

/-- The initial values with each number converted. -/
def Init.map (init : Init M) (g : M → K) : Init K :=
  match init with
  | .none numRows numCols => .none numRows numCols
  | .matrix m => .matrix (m.map g)

theorem Init.sparsity_map (init : Init M) (g : M → K) : (init.map g).sparsity = init.sparsity := by cases init <;> rfl

theorem rd_map (g : M → K) (l : List M) (i : Nat) : rd (l.map g) i = (do return g (← rd l i)) := by
  simp only [rd, List.getElem?_map]
  cases l[i]? <;> rfl

/-! ## Factorizing -/

section

variable [Zero M] [Zero K] [Sub K] [Mul K] [Div K] {cast : M → K} (h0 : cast 0 = 0)

include h0

omit [Sub K] [Mul K] [Div K] in
theorem getMatrixValueAt_map (m : MatIn M) (i j : Nat) :
    getMatrixValueAt (m.map cast) i j = (do return cast (← getMatrixValueAt m i j)) := by
  unfold getMatrixValueAt MatIn.map
  dsimp only
  cases findEntryIndex m.sparsity ⟨i, j⟩ with
  | none => exact congrArg _ h0.symm
  | some k =>
    simp only [MatIn.valueAt, rd, List.getElem?_map]
    cases m.values[k]? <;> rfl

omit [Sub K] [Mul K] [Div K] in
theorem getInitialFactorValueLCast_eq (entryIndex : Nat) (init : Init M) (sparsity : Csr)
    (origEntry : Entry → Res Entry) (L : List K) :
    getInitialFactorValueLCast cast entryIndex init sparsity origEntry L =
      getInitialFactorValueL entryIndex (init.map cast) sparsity origEntry L := by
  cases init <;> simp only [getInitialFactorValueLCast, getInitialFactorValueL, Init.map, getMatrixValueAt_map h0]

omit [Sub K] [Mul K] [Div K] in
theorem getInitialFactorValueDCast_eq (rowIndex : Nat) (init : Init M) (factor : DiagFactor K) :
    getInitialFactorValueDCast cast rowIndex init factor =
      getInitialFactorValueD rowIndex (init.map cast) factor := by
  cases init <;> simp only [getInitialFactorValueDCast, getInitialFactorValueD, Init.map, getMatrixValueAt_map h0]

omit [Sub K] [Mul K] [Div K] in
theorem fillRowWithOriginalMatrixValuesCast_eq (i : Nat) (input : MatIn M) (sparsity : Csr)
    (origEntry : Entry → Res Entry) (L : List K) :
    fillRowWithOriginalMatrixValuesCast cast i input sparsity origEntry L =
      fillRowWithOriginalMatrixValues i (input.map cast) sparsity origEntry L := by
  simp only [fillRowWithOriginalMatrixValuesCast, fillRowWithOriginalMatrixValues, getMatrixValueAt_map h0, bind_assoc,
    pure_bind]

omit [Sub K] [Mul K] [Div K] in
theorem initializeFactorRowCast_eq (i : Nat) (init : Init M) (sparsity : Csr)
    (origEntry : Entry → Res Entry) (L : List K) :
    initializeFactorRowCast cast i init sparsity origEntry L =
      initializeFactorRow i (init.map cast) sparsity origEntry L := by
  cases init <;> simp only [initializeFactorRowCast, initializeFactorRow, Init.map,
    fillRowWithOriginalMatrixValuesCast_eq h0]

omit [Sub K] [Mul K] [Div K] in
theorem fillDiagonalWithOriginalMatrixValueCast_eq (i : Nat) (input : MatIn M) (fact : DiagFactor K) :
    fillDiagonalWithOriginalMatrixValueCast cast i input fact =
      fillDiagonalWithOriginalMatrixValue i (input.map cast) fact := by
  simp only [fillDiagonalWithOriginalMatrixValueCast, fillDiagonalWithOriginalMatrixValue, getMatrixValueAt_map h0,
    bind_assoc, pure_bind]

omit [Sub K] [Mul K] [Div K] in
theorem fillWithOriginalMatrixValuesIncludingDiagonalCast_eq (input : MatIn M) (fact : DiagFactor K) :
    fillWithOriginalMatrixValuesIncludingDiagonalCast cast input fact =
      fillWithOriginalMatrixValuesIncludingDiagonal (input.map cast) fact := by
  simp only [fillWithOriginalMatrixValuesIncludingDiagonalCast, fillWithOriginalMatrixValuesIncludingDiagonal,
    fillDiagonalWithOriginalMatrixValueCast_eq h0, fillRowWithOriginalMatrixValuesCast_eq h0]

theorem factorEntryWiseSubdiagonalImplRowCast_eq (entryIndex : Nat) (factor21 : SubFactor K) (init21 : Init M)
    (factor11 : DiagFactor K) :
    factorEntryWiseSubdiagonalImplRowCast cast entryIndex factor21 init21 factor11 =
      factorEntryWiseSubdiagonalImplRow entryIndex factor21 (init21.map cast) factor11 := by
  simp only [factorEntryWiseSubdiagonalImplRowCast, factorEntryWiseSubdiagonalImplRow, getInitialFactorValueLCast_eq h0]

theorem factorizeEntryWiseSubdiagonalCast_eq (factor21 : SubFactor K) (init21 : Init M) (factor11 : DiagFactor K) :
    factorizeEntryWiseSubdiagonalCast cast factor21 init21 factor11 =
      factorizeEntryWiseSubdiagonal factor21 (init21.map cast) factor11 := by
  simp only [factorizeEntryWiseSubdiagonalCast, factorizeEntryWiseSubdiagonal,
    factorEntryWiseSubdiagonalImplRowCast_eq h0]

theorem factorizeEntryWiseImplRowCast_eq (entryIndex : Nat) (factor22 : DiagFactor K) (init22 : Init M)
    (factor21 : SubFactor K) (factor11 : DiagFactor K) :
    factorizeEntryWiseImplRowCast cast entryIndex factor22 init22 factor21 factor11 =
      factorizeEntryWiseImplRow entryIndex factor22 (init22.map cast) factor21 factor11 := by
  simp only [factorizeEntryWiseImplRowCast, factorizeEntryWiseImplRow, getInitialFactorValueLCast_eq h0]

theorem factorizeEntryWiseRowCast_eq (init22 : Init M) (factor21 : SubFactor K) (factor11 : DiagFactor K)
    (regularize : K → Nat → K) :
    factorizeEntryWiseRowCast cast init22 factor21 factor11 regularize =
      factorizeEntryWiseRow (init22.map cast) factor21 factor11 regularize := by
  funext factor22 i
  simp only [factorizeEntryWiseRowCast, factorizeEntryWiseRow, getInitialFactorValueDCast_eq h0,
    factorizeEntryWiseImplRowCast_eq h0]

theorem factorizeEntryWiseDiagonalCast_eq (factor22 : DiagFactor K) (init22 : Init M) (factor21 : SubFactor K)
    (factor11 : DiagFactor K) (regularize : K → Nat → K) :
    factorizeEntryWiseDiagonalCast cast factor22 init22 factor21 factor11 regularize =
      factorizeEntryWiseDiagonal factor22 (init22.map cast) factor21 factor11 regularize := by
  simp only [factorizeEntryWiseDiagonalCast, factorizeEntryWiseDiagonal, factorizeEntryWiseRowCast_eq h0]

omit h0 [Zero M] [Zero K] [Sub K] [Mul K] [Div K] in
theorem factorizeStaticAssertsCast_eq (factor11 : DiagFactor K) (init21 init22 : Init M) (factor21 : SubFactor K)
    (factor22 : DiagFactor K) :
    factorizeStaticAssertsCast factor11 init21 init22 factor21 factor22 =
      factorizeStaticAsserts factor11 (init21.map cast) (init22.map cast) factor21 factor22 := by
  simp only [factorizeStaticAssertsCast, factorizeStaticAsserts, Init.sparsity_map]

theorem factorizeEntryWiseCast_eq (factor11 : DiagFactor K) (init21 init22 : Init M) (factor21 : SubFactor K)
    (factor22 : DiagFactor K) (regularize : K → Nat → K) :
    factorizeEntryWiseCast cast factor11 init21 init22 factor21 factor22 regularize =
      factorizeEntryWise factor11 (init21.map cast) (init22.map cast) factor21 factor22 regularize := by
  simp only [factorizeEntryWiseCast, factorizeEntryWise, factorizeStaticAssertsCast_eq (cast := cast),
    factorizeEntryWiseSubdiagonalCast_eq h0, factorizeEntryWiseDiagonalCast_eq h0]

theorem factorizeUpLookingImplCast_eq (factor11 : DiagFactor K) (init21 init22 : Init M) (regularize : K → Nat → K) :
    factorizeUpLookingImplCast cast factor11 init21 init22 regularize =
      factorizeUpLookingImpl factor11 (init21.map cast) (init22.map cast) regularize := by
  funext st i
  simp only [factorizeUpLookingImplCast, factorizeUpLookingImpl, getInitialFactorValueDCast_eq h0,
    initializeFactorRowCast_eq h0]

theorem factorizeUpLookingCast_eq (factor11 : DiagFactor K) (init21 init22 : Init M) (factor21 : SubFactor K)
    (factor22 : DiagFactor K) (regularize : K → Nat → K) :
    factorizeUpLookingCast cast factor11 init21 init22 factor21 factor22 regularize =
      factorizeUpLooking factor11 (init21.map cast) (init22.map cast) factor21 factor22 regularize := by
  simp only [factorizeUpLookingCast, factorizeUpLooking, factorizeStaticAssertsCast_eq (cast := cast),
    factorizeUpLookingImplCast_eq h0]

theorem factorizePartialUpLookingImplCast_eq (factor11 : DiagFactor K) (factor21 : SubFactor K)
    (init31 init32 init33 : Init M) :
    factorizePartialUpLookingImplCast cast factor11 factor21 init31 init32 init33 =
      factorizePartialUpLookingImpl factor11 factor21 (init31.map cast) (init32.map cast) (init33.map cast) := by
  funext st i
  simp only [factorizePartialUpLookingImplCast, factorizePartialUpLookingImpl, initializeFactorRowCast_eq h0]

theorem factorizePartialUpLookingCast_eq (factor11 : DiagFactor K) (factor21 : SubFactor K)
    (init31 init32 init33 : Init M) (factor31 factor32 : SubFactor K) (factor33 : DiagFactor K) :
    factorizePartialUpLookingCast cast factor11 factor21 init31 init32 init33 factor31 factor32 factor33 =
      factorizePartialUpLooking factor11 factor21 (init31.map cast) (init32.map cast) (init33.map cast) factor31 factor32
        factor33 := by
  simp only [factorizePartialUpLookingCast, factorizePartialUpLooking, factorizePartialUpLookingImplCast_eq h0]

theorem factorizeBlocksCast_eq (factor11 : DiagFactor K) (init21 init22 : Init M) (factor21 : SubFactor K)
    (factor22 : DiagFactor K) (regularize : K → Nat → K) (method : Method) :
    factorizeBlocksCast cast factor11 init21 init22 factor21 factor22 regularize method =
      factorizeBlocks factor11 (init21.map cast) (init22.map cast) factor21 factor22 regularize method := by
  cases method <;> simp only [factorizeBlocksCast, factorizeBlocks, factorizeEntryWiseCast_eq h0,
    factorizeUpLookingCast_eq h0]

theorem DiagFactor.factorizeCast_eq (factor : DiagFactor K) (matrix : MatIn M) (regularize : K → Nat → K)
    (method : Method) :
    factor.factorizeCast cast matrix regularize method = factor.factorize (matrix.map cast) regularize method := by
  simp only [DiagFactor.factorizeCast, DiagFactor.factorize, factorizeBlocksCast_eq h0, Init.map]
  rfl

theorem ArrowheadFactor.factorizeInnerCast_eq (f : ArrowheadFactor K) (input : ArrowheadMatrix M)
    (regularize : K → Nat → K) (method : Method) :
    f.factorizeInnerCast cast input regularize method = f.factorizeInner (input.map cast) regularize method := by
  simp only [ArrowheadFactor.factorizeInnerCast, ArrowheadFactor.factorizeInner, DiagFactor.factorizeCast_eq h0,
    factorizeBlocksCast_eq h0, Init.map, ArrowheadMatrix.map, rd_map, bind_assoc, pure_bind]

theorem ArrowheadFactor.factorizeOuterCast_eq (dimTridiag dimLink dimOuter : Nat) (f : ArrowheadFactor K)
    (input : ArrowheadMatrix M) (regularize : K → Nat → K) (method : Method) :
    f.factorizeOuterCast cast dimTridiag dimLink dimOuter input regularize method =
      f.factorizeOuter dimTridiag dimLink dimOuter (input.map cast) regularize method := by
  simp only [ArrowheadFactor.factorizeOuterCast, ArrowheadFactor.factorizeOuter, factorizePartialUpLookingCast_eq h0,
    fillWithOriginalMatrixValuesIncludingDiagonalCast_eq h0,
    factorizeBlocksCast_eq h0, Init.map, ArrowheadMatrix.map, rd_map, bind_assoc, pure_bind]

theorem ArrowheadFactor.factorizeCast_eq (dimTridiag dimLink dimOuter : Nat) (f : ArrowheadFactor K)
    (input : ArrowheadMatrix M) (regularize : K → Nat → K) (method : Method) :
    f.factorizeCast cast dimTridiag dimLink dimOuter input regularize method =
      f.factorize dimTridiag dimLink dimOuter (input.map cast) regularize method := by
  simp only [ArrowheadFactor.factorizeCast, ArrowheadFactor.factorize, factorizeInnerCast_eq h0,
    factorizeOuterCast_eq h0]

theorem tridiagonalFactorizeCast_eq (dim : Nat) (base : ArrowheadFactor K) (valuesA valuesB : List (MatIn M))
    (regularize : K → Nat → K) (method : Method) :
    tridiagonalFactorizeCast cast dim base valuesA valuesB regularize method =
      tridiagonalFactorize dim base (valuesA.map (·.map cast)) (valuesB.map (·.map cast)) regularize method := by
  simp only [tridiagonalFactorizeCast, tridiagonalFactorize, ArrowheadFactor.factorizeCast_eq h0]
  congr 1
  simp only [ArrowheadMatrix.map, tridiagonalMatrix, List.map_replicate]
  rfl

end

/-! ## Solving -/

section

variable [Sub F] [Mul F] [Div F] (cast : K → F)

omit [Div F] in
theorem solveForwardSubstitutionRowCast_eq (i : Nat) (fact : SubFactor K) (solution : List F) (init : F) :
    solveForwardSubstitutionRowCast cast i fact solution init =
      solveForwardSubstitutionRow i (fact.map cast) solution init := by
  simp only [solveForwardSubstitutionRowCast, solveForwardSubstitutionRow, SubFactor.map, rd_map, bind_assoc, pure_bind]

omit [Div F] in
theorem solveForwardSubstitutionCast_eq (fact : SubFactor K) (solution partialSolution : List F) :
    solveForwardSubstitutionCast cast fact solution partialSolution =
      solveForwardSubstitution (fact.map cast) solution partialSolution := by
  simp only [solveForwardSubstitutionCast, solveForwardSubstitution, solveForwardSubstitutionRowCast_eq]
  rfl

omit [Div F] in
theorem solveForwardSubstitutionInPlaceCast_eq (diag : DiagFactor K) (rhs : List F) :
    solveForwardSubstitutionInPlaceCast cast diag rhs = solveForwardSubstitutionInPlace (diag.map cast) rhs := by
  simp only [solveForwardSubstitutionInPlaceCast, solveForwardSubstitutionInPlace, solveForwardSubstitutionRowCast_eq]
  rfl

omit [Div F] in
theorem solveForwardSubstitutionLeftCast_eq (diag : DiagFactor K) (rhs : List F) (left : SubFactor K)
    (solutionLeft : List F) :
    solveForwardSubstitutionLeftCast cast diag rhs left solutionLeft =
      solveForwardSubstitutionLeft (diag.map cast) rhs (left.map cast) solutionLeft := by
  simp only [solveForwardSubstitutionLeftCast, solveForwardSubstitutionLeft, solveForwardSubstitutionRowCast_eq]
  rfl

omit [Div F] in
theorem solveBackwardSubstitutionRowCast_eq (i : Nat) (fact : SubFactor K) (solutionI : F)
    (partialSolution : List F) :
    solveBackwardSubstitutionRowCast cast i fact solutionI partialSolution =
      solveBackwardSubstitutionRow i (fact.map cast) solutionI partialSolution := by
  simp only [solveBackwardSubstitutionRowCast, solveBackwardSubstitutionRow, SubFactor.map, rd_map, bind_assoc,
    pure_bind]

omit [Div F] in
theorem solveBackwardSubstitutionCast_eq (fact : SubFactor K) (solution partialSolution : List F) :
    solveBackwardSubstitutionCast cast fact solution partialSolution =
      solveBackwardSubstitution (fact.map cast) solution partialSolution := by
  simp only [solveBackwardSubstitutionCast, solveBackwardSubstitution, solveBackwardSubstitutionRowCast_eq]
  rfl

omit [Div F] in
theorem solveBackwardSubstitutionInPlaceCast_eq (diag : DiagFactor K) (rhs : List F) :
    solveBackwardSubstitutionInPlaceCast cast diag rhs = solveBackwardSubstitutionInPlace (diag.map cast) rhs := by
  simp only [solveBackwardSubstitutionInPlaceCast, solveBackwardSubstitutionInPlace,
    solveBackwardSubstitutionRowCast_eq]
  rfl

omit [Sub F] [Mul F] in
theorem DiagFactor.diagonalSolveCast_eq (f : DiagFactor K) (rhs : List F) :
    f.diagonalSolveCast cast rhs = (f.map cast).diagonalSolve rhs := by
  simp only [DiagFactor.diagonalSolveCast, DiagFactor.diagonalSolve, DiagFactor.map, DiagFactor.origRowIndex, rd_map,
    bind_assoc, pure_bind]

theorem DiagFactor.solveInPlaceCast_eq (f : DiagFactor K) (rhs : List F) :
    f.solveInPlaceCast cast rhs = (f.map cast).solveInPlace rhs := by
  simp only [DiagFactor.solveInPlaceCast, DiagFactor.solveInPlace, solveForwardSubstitutionInPlaceCast_eq,
    DiagFactor.diagonalSolveCast_eq, solveBackwardSubstitutionInPlaceCast_eq]

omit [Sub F] [Mul F] [Div F] in
theorem ArrowheadFactor.numRepetitions_map (f : ArrowheadFactor K) : (f.map cast).numRepetitions = f.numRepetitions := by
  simp [ArrowheadFactor.numRepetitions, ArrowheadFactor.map]

omit [Sub F] [Mul F] [Div F] in
theorem ArrowheadFactor.checkInvariant_map (f : ArrowheadFactor K) : (f.map cast).checkInvariant = f.checkInvariant := by
  simp [ArrowheadFactor.checkInvariant, ArrowheadFactor.numRepetitions, ArrowheadFactor.map]

omit [Div F] in
theorem ArrowheadFactor.forwardSolveCast_eq (f : ArrowheadFactor K) (rhs : ArrowheadVector F) :
    f.forwardSolveCast cast rhs = (f.map cast).forwardSolve rhs := by
  simp only [ArrowheadFactor.forwardSolveCast, ArrowheadFactor.forwardSolve, numRepetitions_map, checkInvariant_map]
  simp only [ArrowheadFactor.map, solveForwardSubstitutionInPlaceCast_eq, solveForwardSubstitutionLeftCast_eq,
    solveForwardSubstitutionCast_eq, rd_map, bind_assoc, pure_bind]

omit [Sub F] [Mul F] in
theorem ArrowheadFactor.diagonalSolveCast_eq (f : ArrowheadFactor K) (rhs : ArrowheadVector F) :
    f.diagonalSolveCast cast rhs = (f.map cast).diagonalSolve rhs := by
  simp only [ArrowheadFactor.diagonalSolveCast, ArrowheadFactor.diagonalSolve, numRepetitions_map, checkInvariant_map]
  simp only [ArrowheadFactor.map, DiagFactor.diagonalSolveCast_eq, rd_map, bind_assoc, pure_bind]

omit [Div F] in
theorem ArrowheadFactor.backwardSolveCast_eq (f : ArrowheadFactor K) (rhs : ArrowheadVector F) :
    f.backwardSolveCast cast rhs = (f.map cast).backwardSolve rhs := by
  simp only [ArrowheadFactor.backwardSolveCast, ArrowheadFactor.backwardSolve, numRepetitions_map, checkInvariant_map]
  simp only [ArrowheadFactor.map, solveBackwardSubstitutionInPlaceCast_eq, solveBackwardSubstitutionCast_eq, rd_map,
    bind_assoc, pure_bind]

theorem ArrowheadFactor.solveInPlaceCast_eq (f : ArrowheadFactor K) (rhs : ArrowheadVector F) :
    f.solveInPlaceCast cast rhs = (f.map cast).solveInPlace rhs := by
  simp only [ArrowheadFactor.solveInPlaceCast, ArrowheadFactor.solveInPlace, forwardSolveCast_eq, diagonalSolveCast_eq,
    backwardSolveCast_eq]

theorem tridiagonalSolveInPlaceCast_eq (base : ArrowheadFactor K) (rhs : List (List F)) :
    tridiagonalSolveInPlaceCast cast base rhs = tridiagonalSolveInPlace (base.map cast) rhs := by
  simp only [tridiagonalSolveInPlaceCast, tridiagonalSolveInPlace, ArrowheadFactor.solveInPlaceCast_eq]

end

end Ctldl
