import Verif.Model.Arrowhead

/-!
# Different number types of matrix, factor and right-hand side

The matrix to factorize, the factor and the right-hand side may have different value types. Values of the matrix are
converted by `static_cast` to the type of the factor when they are read, values of the factor to the type of the
right-hand side. Below are the functions of `Model/Factorize`, `Model/Solve` and `Model/Arrowhead` that do so or
call one that does so, with the conversion as parameter `cast`. The blocks of the matrix are assumed to have the same
value type, and the parts of the right-hand side as well; reading the value of an `EmptyMatrixInput` (of type
`double`) is an error anyway.
-/

namespace Ctldl

variable {M K F : Type}

/-- The factor with each stored number converted. -/
def DiagFactor.map (f : DiagFactor K) (g : K → F) : DiagFactor F := ⟨f.sparsity, f.permutation, f.L.map g, f.D.map g⟩

/-- The factor with each stored number converted. -/
def SubFactor.map (f : SubFactor K) (g : K → F) : SubFactor F :=
  ⟨f.sparsity, f.permutationRow, f.permutationCol, f.L.map g⟩

/-- The factor with each stored number converted. -/
def ArrowheadFactor.map (f : ArrowheadFactor K) (g : K → F) : ArrowheadFactor F :=
  { startDiag := f.startDiag.map g
    startNext := f.startNext.map g
    startOuter := f.startOuter.map g
    tridiagDiag := f.tridiagDiag.map (·.map g)
    tridiagSubdiag := f.tridiagSubdiag.map (·.map g)
    linkPrev := f.linkPrev.map g
    linkDiag := f.linkDiag.map g
    linkNext := f.linkNext.map g
    outerSubdiag := f.outerSubdiag.map (·.map g)
    outerDiag := f.outerDiag.map g }

/-- The matrix with each stored number converted. -/
def MatIn.map (m : MatIn K) (g : K → F) : MatIn F := ⟨m.sparsity, m.values.map g⟩

/-- The matrix with each stored number converted. -/
def ArrowheadMatrix.map (m : ArrowheadMatrix K) (g : K → F) : ArrowheadMatrix F :=
  { startDiag := m.startDiag.map g
    startNext := m.startNext.map g
    startOuter := m.startOuter.map g
    tridiagDiag := m.tridiagDiag.map (·.map g)
    tridiagSubdiag := m.tridiagSubdiag.map (·.map g)
    linkPrev := m.linkPrev.map g
    linkDiag := m.linkDiag.map g
    linkNext := m.linkNext.map g
    outerSubdiag := m.outerSubdiag.map (·.map g)
    outerDiag := m.outerDiag.map g }

/-- The vector with each number converted. -/
def ArrowheadVector.map (x : ArrowheadVector K) (g : K → F) : ArrowheadVector F :=
  ⟨x.start.map g, x.tridiag.map (·.map g), x.link.map g, x.outer.map g⟩

/-! ## Factorizing -/

section

variable [Zero M] [Sub K] [Mul K] [Div K]

/-- `getInitialFactorValueL`, `ctldl/factorize/factor_initialization.hpp:18-37`, for a block with the given
sparsity, `origEntry` and stored values. A `FactorInitNone` of other dimensions has no `valueAt`. -/
def getInitialFactorValueLCast (cast : M → K) (entryIndex : Nat) (init : Init M) (sparsity : Csr)
    (origEntry : Entry → Res Entry) (L : List K) : Res K :=
  match init with
  | .none numRows numCols =>
    if numRows = sparsity.numRows ∧ numCols = sparsity.numCols then rd L entryIndex
    else .error .compile
  | .matrix m => do
    let entry ← rd sparsity.entries entryIndex
    let entryOrig ← origEntry entry
    return cast (← getMatrixValueAt m entryOrig.row entryOrig.col)

/-- `getInitialFactorValueD`, `ctldl/factorize/factor_initialization.hpp:39-56`. -/
def getInitialFactorValueDCast (cast : M → K) (rowIndex : Nat) (init : Init M) (factor : DiagFactor K) : Res K :=
  match init with
  | .none numRows numCols =>
    if numRows = factor.sparsity.numRows ∧ numCols = factor.sparsity.numCols then rd factor.D rowIndex
    else .error .compile
  | .matrix m => do
    let rowIndexOrig ← factor.origRowIndex rowIndex
    return cast (← getMatrixValueAt m rowIndexOrig rowIndexOrig)

/-- `fillRowWithOriginalMatrixValues`, `ctldl/factorize/fill_with_original_matrix.hpp:18-31`; returns the new
values of the block. -/
def fillRowWithOriginalMatrixValuesCast (cast : M → K) (i : Nat) (input : MatIn M) (sparsity : Csr)
    (origEntry : Entry → Res Entry) (L : List K) : Res (List K) := do
  let rowBegin ← rd sparsity.rowBegin i
  let rowEnd ← rd sparsity.rowBegin (i + 1)
  (← entryRange rowBegin rowEnd).foldlM
    (fun L entryIndex => do
      let entryOrig ← origEntry (← rd sparsity.entries entryIndex)
      wr L entryIndex (cast (← getMatrixValueAt input entryOrig.row entryOrig.col)))
    L

/-- `initializeFactorRow`, `ctldl/factorize/factor_initialization.hpp:58-65`. -/
def initializeFactorRowCast (cast : M → K) (i : Nat) (init : Init M) (sparsity : Csr)
    (origEntry : Entry → Res Entry) (L : List K) : Res (List K) :=
  match init with
  | .none numRows numCols =>
    if numRows = sparsity.numRows ∧ numCols = sparsity.numCols then .ok L else .error .compile
  | .matrix m => fillRowWithOriginalMatrixValuesCast cast i m sparsity origEntry L

/-- `fillDiagonalWithOriginalMatrixValue`, `ctldl/factorize/fill_with_original_matrix.hpp:10-16`. -/
def fillDiagonalWithOriginalMatrixValueCast (cast : M → K) (i : Nat) (input : MatIn M) (fact : DiagFactor K) :
    Res (DiagFactor K) := do
  let iOrig ← fact.origRowIndex i
  return { fact with D := ← wr fact.D i (cast (← getMatrixValueAt input iOrig iOrig)) }

/-- `fillWithOriginalMatrixValuesIncludingDiagonal`,
`ctldl/factorize/fill_with_original_matrix.hpp:41-49`. -/
def fillWithOriginalMatrixValuesIncludingDiagonalCast (cast : M → K) (input : MatIn M) (fact : DiagFactor K) :
    Res (DiagFactor K) :=
  (List.range fact.sparsity.numRows).foldlM
    (fun fact i => do
      let L ← fillRowWithOriginalMatrixValuesCast cast i input fact.sparsity fact.origEntry fact.L
      fillDiagonalWithOriginalMatrixValueCast cast i input { fact with L := L })
    fact

/-- `factorEntryWiseSubdiagonalImplRow`, `ctldl/factorize/factorize_entry_wise.hpp:34-53`. -/
def factorEntryWiseSubdiagonalImplRowCast (cast : M → K) (entryIndex : Nat) (factor21 : SubFactor K) (init21 : Init M)
    (factor11 : DiagFactor K) : Res (SubFactor K) := do
  let entry ← rd factor21.sparsity.entries entryIndex
  let Lij ← getInitialFactorValueLCast cast entryIndex init21 factor21.sparsity factor21.origEntry factor21.L
  let contributions ← getContributionsMixed factor11.sparsity factor21.sparsity entry.row entry.col
  let Lij ← contributions.foldlM
    (fun Lij c => do
      return Lij - (← rd factor21.L c.ik) * (← rd factor11.L c.jk) * (← rd factor11.D c.k)) Lij
  return { factor21 with L := ← wr factor21.L entryIndex (Lij / (← rd factor11.D entry.col)) }

/-- `factorizeEntryWiseSubdiagonal`, `ctldl/factorize/factorize_entry_wise.hpp:65-77`. -/
def factorizeEntryWiseSubdiagonalCast (cast : M → K) (factor21 : SubFactor K) (init21 : Init M)
    (factor11 : DiagFactor K) :
    Res (SubFactor K) :=
  (List.range (factor21.sparsity.rowBegin.length - 1)).foldlM
    (fun f i => do
      let rowBegin ← rd f.sparsity.rowBegin i
      let rowEnd ← rd f.sparsity.rowBegin (i + 1)
      (← entryRange rowBegin rowEnd).foldlM
        (fun f entryIndex => factorEntryWiseSubdiagonalImplRowCast cast entryIndex f init21 factor11) f)
    factor21

/-- `factorizeEntryWiseImplRow`, `ctldl/factorize/factorize_entry_wise.hpp:122-146`: the updated block and the
contribution to the diagonal entry. -/
def factorizeEntryWiseImplRowCast (cast : M → K) (entryIndex : Nat) (factor22 : DiagFactor K) (init22 : Init M)
    (factor21 : SubFactor K) (factor11 : DiagFactor K) : Res (DiagFactor K × K) := do
  let entry ← rd factor22.sparsity.entries entryIndex
  let Lij ← getInitialFactorValueLCast cast entryIndex init22 factor22.sparsity factor22.origEntry factor22.L
  let contributions21 ← getContributionsRectangular factor21.sparsity entry.row entry.col
  let contributions22 ← getContributionsLowerTriangle factor22.sparsity entry.row entry.col
  let Lij ← applyContributions factor21.L factor11.D contributions21 Lij
  let Lij ← applyContributions factor22.L factor22.D contributions22 Lij
  let Dj ← rd factor22.D entry.col
  let Lij := Lij / Dj
  return ({ factor22 with L := ← wr factor22.L entryIndex Lij }, (Lij * Lij) * Dj)

/-- One row of `factorizeEntryWise`, `ctldl/factorize/factorize_entry_wise.hpp:170-181`. -/
def factorizeEntryWiseRowCast (cast : M → K) (init22 : Init M) (factor21 : SubFactor K) (factor11 : DiagFactor K)
    (regularize : K → Nat → K) (factor22 : DiagFactor K) (i : Nat) : Res (DiagFactor K) := do
  let rowBegin ← rd factor22.sparsity.rowBegin i
  let rowEnd ← rd factor22.sparsity.rowBegin (i + 1)
  let Di ← getInitialFactorValueDCast cast i init22 factor22
  let Di ← applyContributionsRowDiagonal i factor21 factor11 Di
  let (factor22, Di) ← (← entryRange rowBegin rowEnd).foldlM
    (fun (st : DiagFactor K × K) entryIndex => do
      let (f, c) ← factorizeEntryWiseImplRowCast cast entryIndex st.1 init22 factor21 factor11
      return (f, st.2 - c))
    (factor22, Di)
  return { factor22 with D := ← wr factor22.D i (regularize Di i) }

/-- `factorizeEntryWise` of the diagonal block, `ctldl/factorize/factorize_entry_wise.hpp:159-183`. -/
def factorizeEntryWiseDiagonalCast (cast : M → K) (factor22 : DiagFactor K) (init22 : Init M) (factor21 : SubFactor K)
    (factor11 : DiagFactor K) (regularize : K → Nat → K) : Res (DiagFactor K) := do
  staticAssert (factor22.sparsity.numRows == factor21.sparsity.numRows)
  (List.range factor21.sparsity.numRows).foldlM
    (factorizeEntryWiseRowCast cast init22 factor21 factor11 regularize) factor22

/-- The static assertions shared by both methods, `ctldl/factorize/factorize_entry_wise.hpp:207-214` and
`ctldl/factorize/factorize_up_looking.hpp:200-207`. Constructing the view of the input sparsity checks its
bounds. -/
def factorizeStaticAssertsCast (factor11 : DiagFactor K) (init21 init22 : Init M) (factor21 : SubFactor K)
    (factor22 : DiagFactor K) : Res Unit := do
  staticAssert (← isChordalBlocked factor11.sparsity.toSparsity factor21.sparsity.toSparsity
    factor22.sparsity.toSparsity)
  let s22 := init22.sparsity
  staticAssert (← isSparsitySubsetLowerTriangle (← Sparsity.make s22.numRows s22.numCols s22.entries)
    factor22.sparsity.toSparsity factor22.permutation)
  let s21 := init21.sparsity
  staticAssert (← isSparsitySubset (← Sparsity.make s21.numRows s21.numCols s21.entries)
    factor21.sparsity.toSparsity (some factor21.permutationRow) (some factor21.permutationCol))

/-- `factorizeEntryWise` of two blocks, `ctldl/factorize/factorize_entry_wise.hpp:201-217`. -/
def factorizeEntryWiseCast (cast : M → K) (factor11 : DiagFactor K) (init21 init22 : Init M) (factor21 : SubFactor K)
    (factor22 : DiagFactor K) (regularize : K → Nat → K) : Res (SubFactor K × DiagFactor K) := do
  factorizeStaticAssertsCast factor11 init21 init22 factor21 factor22
  let factor21 ← factorizeEntryWiseSubdiagonalCast cast factor21 init21 factor11
  let factor22 ← factorizeEntryWiseDiagonalCast cast factor22 init22 factor21 factor11 regularize
  return (factor21, factor22)

/-- `factorizeUpLookingImpl`, `ctldl/factorize/factorize_up_looking.hpp:147-176`: one row. -/
def factorizeUpLookingImplCast (cast : M → K) (factor11 : DiagFactor K) (init21 init22 : Init M)
    (regularize : K → Nat → K)
    (st : SubFactor K × DiagFactor K) (i : Nat) : Res (SubFactor K × DiagFactor K) := do
  let (factor21, factor22) := st
  staticAssert (factor22.sparsity.numRows == factor21.sparsity.numRows)
  let Di ← getInitialFactorValueDCast cast i init22 factor22
  let L21 ← initializeFactorRowCast cast i init21 factor21.sparsity factor21.origEntry factor21.L
  let L22 ← initializeFactorRowCast cast i init22 factor22.sparsity factor22.origEntry factor22.L
  let rowBegin21 ← rd factor21.sparsity.rowBegin i
  let rowEnd21 ← rd factor21.sparsity.rowBegin (i + 1)
  let (factor21, factor22, Di) ← (← entryRange rowBegin21 rowEnd21).foldlM
    (fun (st : SubFactor K × DiagFactor K × K) entryIndex => do
      let (f21, f22, c) ← factorizeUpLookingInnerLeft entryIndex factor11 st.1 st.2.1
      return (f21, f22, st.2.2 - c))
    ({ factor21 with L := L21 }, { factor22 with L := L22 }, Di)
  let rowBegin22 ← rd factor22.sparsity.rowBegin i
  let rowEnd22 ← rd factor22.sparsity.rowBegin (i + 1)
  let (factor22, Di) ← (← entryRange rowBegin22 rowEnd22).foldlM
    (fun (st : DiagFactor K × K) entryIndex => do
      let (f22, c) ← factorizeUpLookingInnerSelf entryIndex st.1
      return (f22, st.2 - c))
    (factor22, Di)
  return (factor21, { factor22 with D := ← wr factor22.D i (regularize Di i) })

/-- `factorizeUpLooking` of two blocks, `ctldl/factorize/factorize_up_looking.hpp:194-213`. -/
def factorizeUpLookingCast (cast : M → K) (factor11 : DiagFactor K) (init21 init22 : Init M) (factor21 : SubFactor K)
    (factor22 : DiagFactor K) (regularize : K → Nat → K) : Res (SubFactor K × DiagFactor K) := do
  factorizeStaticAssertsCast factor11 init21 init22 factor21 factor22
  (List.range factor22.sparsity.numRows).foldlM
    (factorizeUpLookingImplCast cast factor11 init21 init22 regularize) (factor21, factor22)

/-- `factorizePartialUpLookingImpl`, `ctldl/factorize/factorize_up_looking.hpp:252-275`: one row. -/
def factorizePartialUpLookingImplCast (cast : M → K) (factor11 : DiagFactor K) (factor21 : SubFactor K)
    (init31 init32 init33 : Init M) (st : SubFactor K × SubFactor K × DiagFactor K) (i : Nat) :
    Res (SubFactor K × SubFactor K × DiagFactor K) := do
  let (factor31, factor32, factor33) := st
  let L31 ← initializeFactorRowCast cast i init31 factor31.sparsity factor31.origEntry factor31.L
  let L32 ← initializeFactorRowCast cast i init32 factor32.sparsity factor32.origEntry factor32.L
  let L33 ← initializeFactorRowCast cast i init33 factor33.sparsity factor33.origEntry factor33.L
  let Di ← rd factor33.D i
  let rowBegin31 ← rd factor31.sparsity.rowBegin i
  let rowEnd31 ← rd factor31.sparsity.rowBegin (i + 1)
  let (factor31, factor32, factor33, Di) ← (← entryRange rowBegin31 rowEnd31).foldlM
    (fun (st : SubFactor K × SubFactor K × DiagFactor K × K) entryIndex => do
      let (f31, f32, f33, c) ← factorizeUpLookingInnerLeft3 entryIndex factor11 factor21 st.1 st.2.1 st.2.2.1
      return (f31, f32, f33, st.2.2.2 - c))
    ({ factor31 with L := L31 }, { factor32 with L := L32 }, { factor33 with L := L33 }, Di)
  return (factor31, factor32, { factor33 with D := ← wr factor33.D i Di })

/-- `factorizePartialUpLooking`, `ctldl/factorize/factorize_up_looking.hpp:295-308`. -/
def factorizePartialUpLookingCast (cast : M → K) (factor11 : DiagFactor K) (factor21 : SubFactor K)
    (init31 init32 init33 : Init M) (factor31 factor32 : SubFactor K) (factor33 : DiagFactor K) :
    Res (SubFactor K × SubFactor K × DiagFactor K) :=
  (List.range factor31.sparsity.numRows).foldlM
    (factorizePartialUpLookingImplCast cast factor11 factor21 init31 init32 init33) (factor31, factor32, factor33)

/-- `factorize` with a left neighbour, `ctldl/factorize/factorize_entry_wise.hpp:238-247` and
`ctldl/factorize/factorize_up_looking.hpp:234-243`. -/
def factorizeBlocksCast (cast : M → K) (factor11 : DiagFactor K) (init21 init22 : Init M) (factor21 : SubFactor K)
    (factor22 : DiagFactor K) (regularize : K → Nat → K) : Method → Res (SubFactor K × DiagFactor K)
  | .entryWise => factorizeEntryWiseCast cast factor11 init21 init22 factor21 factor22 regularize
  | .upLooking => factorizeUpLookingCast cast factor11 init21 init22 factor21 factor22 regularize

/-- `factorize` of a single diagonal block, `ctldl/factorize/factorize_entry_wise.hpp:228-236, 249-254` and
`ctldl/factorize/factorize_up_looking.hpp:224-232, 245-250`, and `Factorization::factorize`,
`ctldl/factor_data/factorization.hpp:65-70`. -/
def DiagFactor.factorizeCast (cast : M → K) (factor : DiagFactor K) (matrix : MatIn M) (regularize : K → Nat → K)
    (method : Method) : Res (DiagFactor K) := do
  let empty21 ← emptyFactorDataLeft factor
  let empty11 ← emptyFactorDataDiagonal K
  let (_, factor) ← factorizeBlocksCast cast empty11 (.matrix (emptyMatrixInput M factor.sparsity.numRows 0))
    (.matrix matrix) empty21 factor regularize method
  return factor

/-- First part of `factorize`: start, tridiagonal and link blocks,
`ctldl/factor_data/factorization_repeating_block_tridiagonal_arrowhead_linked.hpp:165-180`. -/
def ArrowheadFactor.factorizeInnerCast (cast : M → K) (f : ArrowheadFactor K) (input : ArrowheadMatrix M)
    (regularize : K → Nat → K) (method : Method) : Res (ArrowheadFactor K) := do
  let numRepetitions := f.numRepetitions
  let startDiag ← f.startDiag.factorizeCast cast input.startDiag regularize method
  let (startNext, diag0) ← factorizeBlocksCast cast startDiag (.matrix input.startNext)
    (.matrix (← rd input.tridiagDiag 0)) f.startNext (← rd f.tridiagDiag 0) regularize method
  let tridiagDiag ← wr f.tridiagDiag 0 diag0
  let (tridiagDiag, tridiagSubdiag) ← (List.range numRepetitions).foldlM
    (fun (st : List (DiagFactor K) × List (SubFactor K)) i => do
      let (sub, diag) ← factorizeBlocksCast cast (← rd st.1 i) (.matrix (← rd input.tridiagSubdiag i))
        (.matrix (← rd input.tridiagDiag (i + 1))) (← rd st.2 i) (← rd st.1 (i + 1)) regularize method
      return (← wr st.1 (i + 1) diag, ← wr st.2 i sub))
    (tridiagDiag, f.tridiagSubdiag)
  let (linkPrev, linkDiag) ← factorizeBlocksCast cast (← rd tridiagDiag numRepetitions) (.matrix input.linkPrev)
    (.matrix input.linkDiag) f.linkPrev f.linkDiag regularize method
  return { f with startDiag, startNext, tridiagDiag, tridiagSubdiag, linkPrev, linkDiag }

/-- Second part of `factorize`: outer blocks,
`ctldl/factor_data/factorization_repeating_block_tridiagonal_arrowhead_linked.hpp:181-204`. The dimensions of the
`FactorInitNone`s are static members. -/
def ArrowheadFactor.factorizeOuterCast (cast : M → K) (dimTridiag dimLink dimOuter : Nat) (f : ArrowheadFactor K)
    (input : ArrowheadMatrix M) (regularize : K → Nat → K) (method : Method) : Res (ArrowheadFactor K) := do
  let numRepetitions := f.numRepetitions
  let noInitOuterSubdiag : Init M := .none dimOuter dimTridiag
  let noInitOuterDiag : Init M := .none dimOuter dimOuter
  let outerDiag ← fillWithOriginalMatrixValuesIncludingDiagonalCast cast input.outerDiag f.outerDiag
  let (startOuter, sub0, outerDiag) ← factorizePartialUpLookingCast cast f.startDiag f.startNext
    (.matrix input.startOuter) (.matrix (← rd input.outerSubdiag 0)) noInitOuterDiag
    f.startOuter (← rd f.outerSubdiag 0) outerDiag
  let outerSubdiag ← wr f.outerSubdiag 0 sub0
  let (outerSubdiag, outerDiag) ← (List.range numRepetitions).foldlM
    (fun (st : List (SubFactor K) × DiagFactor K) i => do
      let (sub, subNext, outerDiag) ← factorizePartialUpLookingCast cast (← rd f.tridiagDiag i)
        (← rd f.tridiagSubdiag i) noInitOuterSubdiag (.matrix (← rd input.outerSubdiag (i + 1)))
        noInitOuterDiag (← rd st.1 i) (← rd st.1 (i + 1)) st.2
      return (← wr (← wr st.1 i sub) (i + 1) subNext, outerDiag))
    (outerSubdiag, outerDiag)
  let (subLast, linkNext, outerDiag) ← factorizePartialUpLookingCast cast (← rd f.tridiagDiag numRepetitions)
    f.linkPrev noInitOuterSubdiag (.matrix input.linkNext) noInitOuterDiag
    (← rd outerSubdiag numRepetitions) f.linkNext outerDiag
  let outerSubdiag ← wr outerSubdiag numRepetitions subLast
  let (linkNext, outerDiag) ← factorizeBlocksCast cast f.linkDiag (.none dimOuter dimLink) noInitOuterDiag
    linkNext outerDiag regularize method
  return { f with startOuter, outerSubdiag, linkNext, outerDiag }

/-- `factorize`,
`ctldl/factor_data/factorization_repeating_block_tridiagonal_arrowhead_linked.hpp:160-205`. -/
def ArrowheadFactor.factorizeCast (cast : M → K) (dimTridiag dimLink dimOuter : Nat) (f : ArrowheadFactor K)
    (input : ArrowheadMatrix M) (regularize : K → Nat → K) (method : Method) : Res (ArrowheadFactor K) := do
  let f ← f.factorizeInnerCast cast input regularize method
  f.factorizeOuterCast cast dimTridiag dimLink dimOuter input regularize method

/-- `FactorizationRepeatingBlockTridiagonal::factorize`,
`ctldl/factor_data/factorization_repeating_block_tridiagonal.hpp:56-68`. -/
def tridiagonalFactorizeCast (cast : M → K) (dim : Nat) (base : ArrowheadFactor K) (valuesA valuesB : List (MatIn M))
    (regularize : K → Nat → K) (method : Method) : Res (ArrowheadFactor K) :=
  base.factorizeCast cast dim 0 0 (tridiagonalMatrix dim base.numRepetitions valuesA valuesB) regularize method

end

/-! ## Solving -/

section

variable [Sub F] [Mul F] [Div F]

/-- `solveForwardSubstitutionRow`, `ctldl/solve/solve_forward_substitution.hpp:10-26`. -/
def solveForwardSubstitutionRowCast (cast : K → F) (i : Nat) (fact : SubFactor K) (solution : List F) (init : F) :
    Res F := do
  let rowBegin ← rd fact.sparsity.rowBegin i
  let rowEnd ← rd fact.sparsity.rowBegin (i + 1)
  (← entryRange rowBegin rowEnd).foldlM
    (fun value entryIndex => do
      let j := (← rd fact.sparsity.entries entryIndex).col
      let jOrig ← rd fact.permutationCol j
      return value - cast (← rd fact.L entryIndex) * (← rd solution jOrig))
    init

/-- `solveForwardSubstitution` with an off-diagonal block,
`ctldl/solve/solve_forward_substitution.hpp:50-60`; returns the partial solution. -/
def solveForwardSubstitutionCast (cast : K → F) (fact : SubFactor K) (solution partialSolution : List F) : Res
    (List F) :=
  (List.range fact.sparsity.numRows).foldlM
    (fun ps i => do
      let iOrig ← rd fact.permutationRow i
      wr ps iOrig (← solveForwardSubstitutionRowCast cast i fact solution (← rd ps iOrig)))
    partialSolution

/-- `solveForwardSubstitution` in place with a diagonal block,
`ctldl/solve/solve_forward_substitution.hpp:105-109`: the function above with `solution` and
`partial_solution` being the same object. -/
def solveForwardSubstitutionInPlaceCast (cast : K → F) (diag : DiagFactor K) (rhs : List F) : Res (List F) :=
  (List.range diag.sparsity.numRows).foldlM
    (fun v i => do
      let iOrig ← rd diag.permutation i
      wr v iOrig (← solveForwardSubstitutionRowCast cast i diag.toBlock v (← rd v iOrig)))
    rhs

/-- `solveForwardSubstitution` with an off-diagonal and a diagonal block,
`ctldl/solve/solve_forward_substitution.hpp:85-103`. -/
def solveForwardSubstitutionLeftCast (cast : K → F) (diag : DiagFactor K) (rhs : List F) (left : SubFactor K)
    (solutionLeft : List F) : Res (List F) := do
  staticAssert (diag.sparsity.numRows == left.sparsity.numRows)
  staticAssert (permutationEq diag.permutation left.permutationRow)
  (List.range diag.sparsity.numRows).foldlM
    (fun v i => do
      let iOrig ← rd diag.permutation i
      let solutionI ← rd v iOrig
      let solutionI ← solveForwardSubstitutionRowCast cast i left solutionLeft solutionI
      let solutionI ← solveForwardSubstitutionRowCast cast i diag.toBlock v solutionI
      wr v iOrig solutionI)
    rhs

/-- `solveBackwardSubstitutionRow`, `ctldl/solve/solve_backward_substitution.hpp:10-26`; `solutionI` is passed
by value. -/
def solveBackwardSubstitutionRowCast (cast : K → F) (i : Nat) (fact : SubFactor K) (solutionI : F)
    (partialSolution : List F) :
    Res (List F) := do
  let rowBegin ← rd fact.sparsity.rowBegin i
  let rowEnd ← rd fact.sparsity.rowBegin (i + 1)
  (← entryRange rowBegin rowEnd).foldlM
    (fun ps entryIndex => do
      let j := (← rd fact.sparsity.entries entryIndex).col
      let jOrig ← rd fact.permutationCol j
      wr ps jOrig ((← rd ps jOrig) - cast (← rd fact.L entryIndex) * solutionI))
    partialSolution

/-- `solveBackwardSubstitution` with an off-diagonal block,
`ctldl/solve/solve_backward_substitution.hpp:51-62`. -/
def solveBackwardSubstitutionCast (cast : K → F) (fact : SubFactor K) (solution partialSolution : List F) : Res
    (List F) :=
  (List.range fact.sparsity.numRows).reverse.foldlM
    (fun ps i => do
      let iOrig ← rd fact.permutationRow i
      solveBackwardSubstitutionRowCast cast i fact (← rd solution iOrig) ps)
    partialSolution

/-- `solveBackwardSubstitution` in place with a diagonal block,
`ctldl/solve/solve_backward_substitution.hpp:76-81`. -/
def solveBackwardSubstitutionInPlaceCast (cast : K → F) (diag : DiagFactor K) (rhs : List F) : Res (List F) :=
  (List.range diag.sparsity.numRows).reverse.foldlM
    (fun v i => do
      let iOrig ← rd diag.permutation i
      solveBackwardSubstitutionRowCast cast i diag.toBlock (← rd v iOrig) v)
    rhs

/-- `Factorization::diagonalSolve`, `ctldl/factor_data/factorization.hpp:79-86`. -/
def DiagFactor.diagonalSolveCast (cast : K → F) (f : DiagFactor K) (rhs : List F) : Res (List F) :=
  (List.range f.sparsity.numRows).foldlM
    (fun v i => do
      let iOrig ← f.origRowIndex i
      wr v iOrig ((← rd v iOrig) / cast (← rd f.D i)))
    rhs

/-- `Factorization::solveInPlace`, `ctldl/factor_data/factorization.hpp:72-77`. -/
def DiagFactor.solveInPlaceCast (cast : K → F) (f : DiagFactor K) (rhs : List F) : Res (List F) := do
  let rhs ← solveForwardSubstitutionInPlaceCast cast f rhs
  let rhs ← f.diagonalSolveCast cast rhs
  solveBackwardSubstitutionInPlaceCast cast f rhs

/-- `forwardSolve`,
`ctldl/factor_data/factorization_repeating_block_tridiagonal_arrowhead_linked.hpp:214-236`. -/
def ArrowheadFactor.forwardSolveCast (cast : K → F) (f : ArrowheadFactor K) (rhs : ArrowheadVector F) :
    Res (ArrowheadVector F) := do
  f.checkInvariant
  let numRepetitions := f.numRepetitions
  let start ← solveForwardSubstitutionInPlaceCast cast f.startDiag rhs.start
  let tridiag ← wr rhs.tridiag 0 (← solveForwardSubstitutionLeftCast cast (← rd f.tridiagDiag 0)
    (← rd rhs.tridiag 0) f.startNext start)
  let tridiag ← (List.range' 1 numRepetitions).foldlM
    (fun tridiag i => do
      wr tridiag i (← solveForwardSubstitutionLeftCast cast (← rd f.tridiagDiag i) (← rd tridiag i)
        (← rd f.tridiagSubdiag (i - 1)) (← rd tridiag (i - 1))))
    tridiag
  let link ← solveForwardSubstitutionLeftCast cast f.linkDiag rhs.link f.linkPrev (← rd tridiag numRepetitions)
  let outer ← solveForwardSubstitutionCast cast f.startOuter start rhs.outer
  let outer ← (List.range (numRepetitions + 1)).foldlM
    (fun outer i => do solveForwardSubstitutionCast cast (← rd f.outerSubdiag i) (← rd tridiag i) outer)
    outer
  let outer ← solveForwardSubstitutionCast cast f.linkNext link outer
  let outer ← solveForwardSubstitutionInPlaceCast cast f.outerDiag outer
  return ⟨start, tridiag, link, outer⟩

/-- `diagonalSolve`,
`ctldl/factor_data/factorization_repeating_block_tridiagonal_arrowhead_linked.hpp:238-249`. -/
def ArrowheadFactor.diagonalSolveCast (cast : K → F) (f : ArrowheadFactor K) (rhs : ArrowheadVector F) :
    Res (ArrowheadVector F) := do
  f.checkInvariant
  let numRepetitions := f.numRepetitions
  let start ← f.startDiag.diagonalSolveCast cast rhs.start
  let tridiag ← (List.range (numRepetitions + 1)).foldlM
    (fun tridiag i => do
      wr tridiag i (← (← rd f.tridiagDiag i).diagonalSolveCast cast (← rd tridiag i)))
    rhs.tridiag
  let link ← f.linkDiag.diagonalSolveCast cast rhs.link
  let outer ← f.outerDiag.diagonalSolveCast cast rhs.outer
  return ⟨start, tridiag, link, outer⟩

/-- `backwardSolve`,
`ctldl/factor_data/factorization_repeating_block_tridiagonal_arrowhead_linked.hpp:251-279`. -/
def ArrowheadFactor.backwardSolveCast (cast : K → F) (f : ArrowheadFactor K) (rhs : ArrowheadVector F) :
    Res (ArrowheadVector F) := do
  f.checkInvariant
  let numRepetitions := f.numRepetitions
  let outer ← solveBackwardSubstitutionInPlaceCast cast f.outerDiag rhs.outer
  let link ← solveBackwardSubstitutionCast cast f.linkNext outer rhs.link
  let link ← solveBackwardSubstitutionInPlaceCast cast f.linkDiag link
  let last ← solveBackwardSubstitutionCast cast (← rd f.outerSubdiag numRepetitions) outer
    (← rd rhs.tridiag numRepetitions)
  let last ← solveBackwardSubstitutionCast cast f.linkPrev link last
  let last ← solveBackwardSubstitutionInPlaceCast cast (← rd f.tridiagDiag numRepetitions) last
  let tridiag ← wr rhs.tridiag numRepetitions last
  let tridiag ← (List.range numRepetitions).reverse.foldlM
    (fun tridiag k => do -- `k = i - 1` for `i = num_repetitions, ..., 1`
      let v ← solveBackwardSubstitutionCast cast (← rd f.outerSubdiag k) outer (← rd tridiag k)
      let v ← solveBackwardSubstitutionCast cast (← rd f.tridiagSubdiag k) (← rd tridiag (k + 1)) v
      let v ← solveBackwardSubstitutionInPlaceCast cast (← rd f.tridiagDiag k) v
      wr tridiag k v)
    tridiag
  let start ← solveBackwardSubstitutionCast cast f.startOuter outer rhs.start
  let start ← solveBackwardSubstitutionCast cast f.startNext (← rd tridiag 0) start
  let start ← solveBackwardSubstitutionInPlaceCast cast f.startDiag start
  return ⟨start, tridiag, link, outer⟩

/-- `solveInPlace`,
`ctldl/factor_data/factorization_repeating_block_tridiagonal_arrowhead_linked.hpp:207-212`. -/
def ArrowheadFactor.solveInPlaceCast (cast : K → F) (f : ArrowheadFactor K) (rhs : ArrowheadVector F) :
    Res (ArrowheadVector F) := do
  let rhs ← f.forwardSolveCast cast rhs
  let rhs ← f.diagonalSolveCast cast rhs
  f.backwardSolveCast cast rhs

/-- `FactorizationRepeatingBlockTridiagonal::solveInPlace`,
`ctldl/factor_data/factorization_repeating_block_tridiagonal.hpp:70-76`. -/
def tridiagonalSolveInPlaceCast (cast : K → F) (base : ArrowheadFactor K) (rhs : List (List F)) : Res (List
    (List F)) := do
  return (← base.solveInPlaceCast cast ⟨[], rhs, [], []⟩).tridiag

end

/-! ## Multiplying

The matrix, the vector to multiply with and the right-hand side may have different value types. -/

section

variable {S : Type} [Add K] [Mul K]

/-- Body of the loop of `multiply`, `ctldl/matrix/multiply.hpp:16-31`. -/
def multiplyEntryCast (castMatrix : M → K) (castSolution : S → K) (kind : MultiplyKind) (matrix : MatIn M)
    (solution : List S) (rhs : List K) (entryIndex : Nat) : Res (List K) := do
  let entry ← rd matrix.sparsity.entries entryIndex
  let value ← matrix.valueAt entryIndex
  let rhs ← if kind.hasNormal then do
      wr rhs entry.row ((← rd rhs entry.row) + castMatrix value * castSolution (← rd solution entry.col))
    else pure rhs
  if kind = .symmetric ∧ entry.row = entry.col then return rhs
  if kind.hasTransposed then
    wr rhs entry.col ((← rd rhs entry.col) + castMatrix value * castSolution (← rd solution entry.row))
  else return rhs

/-- `multiply<kind>`, `ctldl/matrix/multiply.hpp:10-33`; returns `rhs`. -/
def multiplyCast (castMatrix : M → K) (castSolution : S → K) (kind : MultiplyKind) (matrix : MatIn M)
    (solution : List S) (rhs : List K) : Res (List K) :=
  (List.range matrix.sparsity.entries.length).foldlM
    (multiplyEntryCast castMatrix castSolution kind matrix solution) rhs

/-- `multiply` into one block of a block vector. -/
def multiplyIntoCast (castMatrix : M → K) (castSolution : S → K) (kind : MultiplyKind) (matrix : MatIn M)
    (solution : List S) (rhs : List (List K)) (block : Nat) : Res (List (List K)) := do
  wr rhs block (← multiplyCast castMatrix castSolution kind matrix solution (← rd rhs block))

/-- `multiplyRepeatingBlockTridiagonal`, `ctldl/matrix/multiply_repeating_block_tridiagonal.hpp:11-28`. -/
def multiplyRepeatingBlockTridiagonalCast (castMatrix : M → K) (castSolution : S → K)
    (matricesA matricesB : List (MatIn M)) (solution : List (List S)) (rhs : List (List K)) :
    Res (List (List K)) := do
  let numRepetitions := matricesB.length
  pre (matricesA.length == numRepetitions + 1)
  pre (solution.length == numRepetitions + 1)
  pre (rhs.length == numRepetitions + 1)
  let into := multiplyIntoCast castMatrix castSolution
  let rhs ← into .symmetric (← rd matricesA 0) (← rd solution 0) rhs 0
  (List.range numRepetitions).foldlM
    (fun rhs i => do
      let rhs ← into .transposed (← rd matricesB i) (← rd solution (i + 1)) rhs i
      let rhs ← into .normal (← rd matricesB i) (← rd solution i) rhs (i + 1)
      into .symmetric (← rd matricesA (i + 1)) (← rd solution (i + 1)) rhs (i + 1))
    rhs

/-- `multiplyRepeatingBlockTridiagonalArrowheadLinked`,
`ctldl/matrix/multiply_repeating_block_tridiagonal_arrowhead_linked.hpp:11-42`. -/
def multiplyArrowheadLinkedCast (castMatrix : M → K) (castSolution : S → K) (m : ArrowheadMatrix M)
    (x : ArrowheadVector S) (rhs : ArrowheadVector K) : Res (ArrowheadVector K) := do
  let mul := multiplyCast castMatrix castSolution
  let into := multiplyIntoCast castMatrix castSolution
  let start ← mul .symmetric m.startDiag x.start rhs.start
  let start ← mul .transposed m.startNext (← rd x.tridiag 0) start
  let start ← mul .transposed m.startOuter x.outer start
  let tridiag ← into .normal m.startNext x.start rhs.tridiag 0
  let tridiag ← multiplyRepeatingBlockTridiagonalCast castMatrix castSolution m.tridiagDiag m.tridiagSubdiag x.tridiag
    tridiag
  let numRepetitions := m.tridiagSubdiag.length
  let (tridiag, outer) ← (List.range (numRepetitions + 1)).foldlM
    (fun (st : List (List K) × List K) i => do
      let tridiag ← into .transposed (← rd m.outerSubdiag i) x.outer st.1 i
      let outer ← mul .normal (← rd m.outerSubdiag i) (← rd x.tridiag i) st.2
      return (tridiag, outer))
    (tridiag, rhs.outer)
  let tridiag ← into .transposed m.linkPrev x.link tridiag numRepetitions
  let link ← mul .normal m.linkPrev (← rd x.tridiag numRepetitions) rhs.link
  let link ← mul .transposed m.linkNext x.outer link
  let link ← mul .symmetric m.linkDiag x.link link
  let outer ← mul .normal m.startOuter x.start outer
  let outer ← mul .normal m.linkNext x.link outer
  let outer ← mul .symmetric m.outerDiag x.outer outer
  return ⟨start, tridiag, link, outer⟩

end

end Ctldl
