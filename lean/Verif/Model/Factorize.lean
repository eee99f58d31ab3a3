import Verif.Model.Symbolic

/-!
# `ctldl/factorize/*` and the factor data classes

Everything is generic in the value type `K` with its operations `-`, `*`, `/` and `0`; nothing is assumed about
them here, so `K` may be a floating point type. `static_cast`s between value types are the identity.
-/

namespace Ctldl

/-- An object of class `Factorization` (`ctldl/factor_data/factorization.hpp:22-90`): static sparsity of the
factor and permutation, and the data members `L`, `D`. `permutation_row = permutation_col = permutation`
(`:62-63`). -/
structure DiagFactor (K : Type _) where
  sparsity : Csr
  permutation : List Nat
  L : List K
  D : List K

/-- An object of class `FactorizationSubdiagonalBlock`
(`ctldl/factor_data/factorization_subdiagonal_block.hpp:17-56`). -/
structure SubFactor (K : Type _) where
  sparsity : Csr
  permutationRow : List Nat
  permutationCol : List Nat
  L : List K

/-- Static data of `Factorization<sparsity_orig, Value, permutation>`: the sparsity,
`ctldl/factor_data/factorization.hpp:26, 59-60`. -/
def factorizationSparsity (sparsityOrig : Sparsity) (permutation : List Nat) : Res Csr := do
  staticAssert (isSquare sparsityOrig)
  (← getFilledInSparsity sparsityOrig permutation).toCsr

/-- Static data of `FactorizationAlreadyPermuted`,
`ctldl/factor_data/factorization_already_permuted.hpp:16-21`. -/
def factorizationAlreadyPermutedSparsity (sparsity : Sparsity) (permutation : List Nat) : Res Csr := do
  factorizationSparsity (← getSparsityLowerTriangle sparsity (← invertPermutation permutation)) permutation

/-- `Factorization::origEntry`, `ctldl/factor_data/factorization.hpp:39-41`. -/
def DiagFactor.origEntry {K : Type _} (f : DiagFactor K) (e : Entry) : Res Entry :=
  permutedEntryLowerTriangle e f.permutation

/-- `Factorization::origRowIndex` and `origColIndex`, `ctldl/factor_data/factorization.hpp:47-57`. -/
def DiagFactor.origRowIndex {K : Type _} (f : DiagFactor K) (i : Nat) : Res Nat := rd f.permutation i

/-- `FactorizationSubdiagonalBlock::origEntry`,
`ctldl/factor_data/factorization_subdiagonal_block.hpp:35-37`; `EmptyFactorDataLeft::origEntry`,
`ctldl/factor_data/empty_factor_data_left.hpp:27-29`. -/
def SubFactor.origEntry {K : Type _} (f : SubFactor K) (e : Entry) : Res Entry :=
  permutedEntry e f.permutationRow f.permutationCol

/-- `EmptyFactorDataLeft`, `ctldl/factor_data/empty_factor_data_left.hpp:12-30`. -/
def emptyFactorDataLeft {K : Type _} (f : DiagFactor K) : Res (SubFactor K) := do
  return ⟨← (emptySparsity f.sparsity.numRows 0).toCsr, f.permutation, identityPermutation 0, []⟩

/-- `EmptyFactorDataDiagonal`, `ctldl/factor_data/empty_factor_data_diagonal.hpp:9-15` (it has no permutation;
none is used). -/
def emptyFactorDataDiagonal (K : Type _) : Res (DiagFactor K) := do
  return ⟨← (emptySparsity 0 0).toCsr, [], [], []⟩

/-- `EmptyMatrixInput`, `ctldl/matrix/empty_matrix_input.hpp:10-24`; `valueAt` asserts `false` there and is out of
range here. -/
def emptyMatrixInput (K : Type _) (numRows numCols : Nat) : MatIn K := ⟨emptySparsity numRows numCols, []⟩

/-- Initial values of a block: `FactorInitNone<num_rows, num_cols>`
(`ctldl/factorize/factor_initialization.hpp:12-16`, keep what is stored) or a matrix. -/
inductive Init (K : Type _) where
  | none (numRows numCols : Nat)
  | matrix (m : MatIn K)

/-- `Init::sparsity`, `ctldl/factorize/factor_initialization.hpp:14-15`. -/
def Init.sparsity {K : Type _} : Init K → Sparsity
  | .none numRows numCols => emptySparsity numRows numCols
  | .matrix m => m.sparsity

variable {K : Type _} [Zero K] [Sub K] [Mul K] [Div K]

/-- `getInitialFactorValueL`, `ctldl/factorize/factor_initialization.hpp:18-37`, for a block with the given
sparsity, `origEntry` and stored values. A `FactorInitNone` of other dimensions has no `valueAt`. -/
def getInitialFactorValueL (entryIndex : Nat) (init : Init K) (sparsity : Csr)
    (origEntry : Entry → Res Entry) (L : List K) : Res K :=
  match init with
  | .none numRows numCols =>
    if numRows = sparsity.numRows ∧ numCols = sparsity.numCols then rd L entryIndex
    else .error .compile
  | .matrix m => do
    let entry ← rd sparsity.entries entryIndex
    let entryOrig ← origEntry entry
    getMatrixValueAt m entryOrig.row entryOrig.col

/-- `getInitialFactorValueD`, `ctldl/factorize/factor_initialization.hpp:39-56`. -/
def getInitialFactorValueD (rowIndex : Nat) (init : Init K) (factor : DiagFactor K) : Res K :=
  match init with
  | .none numRows numCols =>
    if numRows = factor.sparsity.numRows ∧ numCols = factor.sparsity.numCols then rd factor.D rowIndex
    else .error .compile
  | .matrix m => do
    let rowIndexOrig ← factor.origRowIndex rowIndex
    getMatrixValueAt m rowIndexOrig rowIndexOrig

/-- Positions `begin, begin+1, ..., end-1` of a loop over entries. -/
def entryRange (b e : Nat) : Res (List Nat) := do return List.range' b (← usub e b)

/-- `fillRowWithOriginalMatrixValues`, `ctldl/factorize/fill_with_original_matrix.hpp:18-31`; returns the new
values of the block. -/
def fillRowWithOriginalMatrixValues (i : Nat) (input : MatIn K) (sparsity : Csr)
    (origEntry : Entry → Res Entry) (L : List K) : Res (List K) := do
  let rowBegin ← rd sparsity.rowBegin i
  let rowEnd ← rd sparsity.rowBegin (i + 1)
  (← entryRange rowBegin rowEnd).foldlM
    (fun L entryIndex => do
      let entryOrig ← origEntry (← rd sparsity.entries entryIndex)
      wr L entryIndex (← getMatrixValueAt input entryOrig.row entryOrig.col))
    L

/-- `initializeFactorRow`, `ctldl/factorize/factor_initialization.hpp:58-65`. -/
def initializeFactorRow (i : Nat) (init : Init K) (sparsity : Csr)
    (origEntry : Entry → Res Entry) (L : List K) : Res (List K) :=
  match init with
  | .none numRows numCols =>
    if numRows = sparsity.numRows ∧ numCols = sparsity.numCols then .ok L else .error .compile
  | .matrix m => fillRowWithOriginalMatrixValues i m sparsity origEntry L

/-- `fillDiagonalWithOriginalMatrixValue`, `ctldl/factorize/fill_with_original_matrix.hpp:10-16`. -/
def fillDiagonalWithOriginalMatrixValue (i : Nat) (input : MatIn K) (fact : DiagFactor K) :
    Res (DiagFactor K) := do
  let iOrig ← fact.origRowIndex i
  return { fact with D := ← wr fact.D i (← getMatrixValueAt input iOrig iOrig) }

/-- `fillWithOriginalMatrixValuesIncludingDiagonal`,
`ctldl/factorize/fill_with_original_matrix.hpp:41-49`. -/
def fillWithOriginalMatrixValuesIncludingDiagonal (input : MatIn K) (fact : DiagFactor K) :
    Res (DiagFactor K) :=
  (List.range fact.sparsity.numRows).foldlM
    (fun fact i => do
      let L ← fillRowWithOriginalMatrixValues i input fact.sparsity fact.origEntry fact.L
      fillDiagonalWithOriginalMatrixValue i input { fact with L := L })
    fact

/-! ## Entry-wise method -/

/-- `factorEntryWiseSubdiagonalImplRow`, `ctldl/factorize/factorize_entry_wise.hpp:34-53`. -/
def factorEntryWiseSubdiagonalImplRow (entryIndex : Nat) (factor21 : SubFactor K) (init21 : Init K)
    (factor11 : DiagFactor K) : Res (SubFactor K) := do
  let entry ← rd factor21.sparsity.entries entryIndex
  let Lij ← getInitialFactorValueL entryIndex init21 factor21.sparsity factor21.origEntry factor21.L
  let contributions ← getContributionsMixed factor11.sparsity factor21.sparsity entry.row entry.col
  let Lij ← contributions.foldlM
    (fun Lij c => do
      return Lij - (← rd factor21.L c.ik) * (← rd factor11.L c.jk) * (← rd factor11.D c.k)) Lij
  return { factor21 with L := ← wr factor21.L entryIndex (Lij / (← rd factor11.D entry.col)) }

/-- `factorizeEntryWiseSubdiagonal`, `ctldl/factorize/factorize_entry_wise.hpp:65-77`. -/
def factorizeEntryWiseSubdiagonal (factor21 : SubFactor K) (init21 : Init K) (factor11 : DiagFactor K) :
    Res (SubFactor K) :=
  (List.range (factor21.sparsity.rowBegin.length - 1)).foldlM
    (fun f i => do
      let rowBegin ← rd f.sparsity.rowBegin i
      let rowEnd ← rd f.sparsity.rowBegin (i + 1)
      (← entryRange rowBegin rowEnd).foldlM
        (fun f entryIndex => factorEntryWiseSubdiagonalImplRow entryIndex f init21 factor11) f)
    factor21

/-- `applyContributionsRowDiagonal`, `ctldl/factorize/factorize_entry_wise.hpp:79-94`; `square` is
`ctldl/utility/square.hpp:5-8`. -/
def applyContributionsRowDiagonal (i : Nat) (fact : SubFactor K) (diag : DiagFactor K) (valueInit : K) :
    Res K := do
  let rowBegin ← rd fact.sparsity.rowBegin i
  let rowEnd ← rd fact.sparsity.rowBegin (i + 1)
  (← entryRange rowBegin rowEnd).foldlM
    (fun value entryIndex => do
      let j := (← rd fact.sparsity.entries entryIndex).col
      let l ← rd fact.L entryIndex
      return value - (l * l) * (← rd diag.D j))
    valueInit

/-- `applyContributions`, `ctldl/factorize/factorize_entry_wise.hpp:96-106`. -/
def applyContributions (L D : List K) (contributions : List Contribution) (valueInit : K) : Res K :=
  contributions.foldlM
    (fun value c => do return value - (← rd L c.ik) * (← rd L c.jk) * (← rd D c.k)) valueInit

/-- `factorizeEntryWiseImplRow`, `ctldl/factorize/factorize_entry_wise.hpp:122-146`: the updated block and the
contribution to the diagonal entry. -/
def factorizeEntryWiseImplRow (entryIndex : Nat) (factor22 : DiagFactor K) (init22 : Init K)
    (factor21 : SubFactor K) (factor11 : DiagFactor K) : Res (DiagFactor K × K) := do
  let entry ← rd factor22.sparsity.entries entryIndex
  let Lij ← getInitialFactorValueL entryIndex init22 factor22.sparsity factor22.origEntry factor22.L
  let contributions21 ← getContributionsRectangular factor21.sparsity entry.row entry.col
  let contributions22 ← getContributionsLowerTriangle factor22.sparsity entry.row entry.col
  let Lij ← applyContributions factor21.L factor11.D contributions21 Lij
  let Lij ← applyContributions factor22.L factor22.D contributions22 Lij
  let Dj ← rd factor22.D entry.col
  let Lij := Lij / Dj
  return ({ factor22 with L := ← wr factor22.L entryIndex Lij }, (Lij * Lij) * Dj)

/-- One row of `factorizeEntryWise`, `ctldl/factorize/factorize_entry_wise.hpp:170-181`. -/
def factorizeEntryWiseRow (init22 : Init K) (factor21 : SubFactor K) (factor11 : DiagFactor K)
    (regularize : K → Nat → K) (factor22 : DiagFactor K) (i : Nat) : Res (DiagFactor K) := do
  let rowBegin ← rd factor22.sparsity.rowBegin i
  let rowEnd ← rd factor22.sparsity.rowBegin (i + 1)
  let Di ← getInitialFactorValueD i init22 factor22
  let Di ← applyContributionsRowDiagonal i factor21 factor11 Di
  let (factor22, Di) ← (← entryRange rowBegin rowEnd).foldlM
    (fun (st : DiagFactor K × K) entryIndex => do
      let (f, c) ← factorizeEntryWiseImplRow entryIndex st.1 init22 factor21 factor11
      return (f, st.2 - c))
    (factor22, Di)
  return { factor22 with D := ← wr factor22.D i (regularize Di i) }

/-- `factorizeEntryWise` of the diagonal block, `ctldl/factorize/factorize_entry_wise.hpp:159-183`. -/
def factorizeEntryWiseDiagonal (factor22 : DiagFactor K) (init22 : Init K) (factor21 : SubFactor K)
    (factor11 : DiagFactor K) (regularize : K → Nat → K) : Res (DiagFactor K) := do
  staticAssert (factor22.sparsity.numRows == factor21.sparsity.numRows)
  (List.range factor21.sparsity.numRows).foldlM
    (factorizeEntryWiseRow init22 factor21 factor11 regularize) factor22

/-- The static assertions shared by both methods, `ctldl/factorize/factorize_entry_wise.hpp:207-214` and
`ctldl/factorize/factorize_up_looking.hpp:200-207`. Constructing the view of the input sparsity checks its
bounds. -/
def factorizeStaticAsserts (factor11 : DiagFactor K) (init21 init22 : Init K) (factor21 : SubFactor K)
    (factor22 : DiagFactor K) : Res Unit := do
  staticAssert (← isChordalBlocked factor11.sparsity.toSparsity factor21.sparsity.toSparsity
    factor22.sparsity.toSparsity)
  let s22 := init22.sparsity
  staticAssert (← isSparsitySubsetLowerTriangle (← Sparsity.make s22.numRows s22.numCols s22.entries)
    factor22.sparsity.toSparsity factor22.permutation)
  let s21 := init21.sparsity
  staticAssert (← isSparsitySubset (← Sparsity.make s21.numRows s21.numCols s21.entries)
    factor21.sparsity.toSparsity (some factor21.permutationRow) (some factor21.permutationCol))

/-- `factorizeEntryWise` of two blocks, `ctldl/factorize/factorize_entry_wise.hpp:201-217`. -/
def factorizeEntryWise (factor11 : DiagFactor K) (init21 init22 : Init K) (factor21 : SubFactor K)
    (factor22 : DiagFactor K) (regularize : K → Nat → K) : Res (SubFactor K × DiagFactor K) := do
  factorizeStaticAsserts factor11 init21 init22 factor21 factor22
  let factor21 ← factorizeEntryWiseSubdiagonal factor21 init21 factor11
  let factor22 ← factorizeEntryWiseDiagonal factor22 init22 factor21 factor11 regularize
  return (factor21, factor22)

/-! ## Up-looking method -/

/-- Loop over influenced entries where source and target are different arrays:
`ctldl/factorize/factorize_up_looking.hpp:75-78, 82-85, 123-126, 130-133, 137-140`. Returns the target. -/
def applyInfluenced (source target : List K) (list : List Influenced) (LijScaled : K) : Res (List K) :=
  list.foldlM
    (fun target inf => do
      wr target inf.target ((← rd target inf.target) - (← rd source inf.source) * LijScaled))
    target

/-- Loop over influenced entries where source and target are the same array,
`ctldl/factorize/factorize_up_looking.hpp:39-42`. -/
def applyInfluencedSelf (L : List K) (list : List Influenced) (LijScaled : K) : Res (List K) :=
  list.foldlM
    (fun L inf => do
      wr L inf.target ((← rd L inf.target) - (← rd L inf.source) * LijScaled))
    L

/-- `factorizeUpLookingInnerSelf`, `ctldl/factorize/factorize_up_looking.hpp:28-47`: updated block and
contribution to the diagonal entry. -/
def factorizeUpLookingInnerSelf (entryIndex : Nat) (fact : DiagFactor K) : Res (DiagFactor K × K) := do
  let entry ← rd fact.sparsity.entries entryIndex
  let LijScaled ← rd fact.L entryIndex
  let influenced ← getInfluencedListLowerTriangle entry.row entry.col fact.sparsity fact.sparsity
  let L ← applyInfluencedSelf fact.L influenced LijScaled
  let Lij := LijScaled / (← rd fact.D entry.col)
  return ({ fact with L := ← wr L entryIndex Lij }, LijScaled * Lij)

/-- `factorizeUpLookingInnerLeft` with one target block, `ctldl/factorize/factorize_up_looking.hpp:63-90`. -/
def factorizeUpLookingInnerLeft (entryIndex : Nat) (factor11 : DiagFactor K) (factor21 : SubFactor K)
    (factor22 : DiagFactor K) : Res (SubFactor K × DiagFactor K × K) := do
  let entry ← rd factor21.sparsity.entries entryIndex
  let LijScaled ← rd factor21.L entryIndex
  let influenced21 ← getInfluencedList entry.row entry.col factor11.sparsity factor21.sparsity
  let L21 ← applyInfluenced factor11.L factor21.L influenced21 LijScaled
  let influenced22 ← getInfluencedListLowerTriangle entry.row entry.col factor21.sparsity factor22.sparsity
  let L22 ← applyInfluenced L21 factor22.L influenced22 LijScaled
  let Lij := LijScaled / (← rd factor11.D entry.col)
  return ({ factor21 with L := ← wr L21 entryIndex Lij }, { factor22 with L := L22 }, LijScaled * Lij)

/-- `factorizeUpLookingInnerLeft` with two target blocks,
`ctldl/factorize/factorize_up_looking.hpp:105-145`. -/
def factorizeUpLookingInnerLeft3 (entryIndex : Nat) (factor11 : DiagFactor K) (factor21 : SubFactor K)
    (factor31 factor32 : SubFactor K) (factor33 : DiagFactor K) :
    Res (SubFactor K × SubFactor K × DiagFactor K × K) := do
  let entry ← rd factor31.sparsity.entries entryIndex
  let LijScaled ← rd factor31.L entryIndex
  let influenced31 ← getInfluencedList entry.row entry.col factor11.sparsity factor31.sparsity
  let L31 ← applyInfluenced factor11.L factor31.L influenced31 LijScaled
  let influenced32 ← getInfluencedList entry.row entry.col factor21.sparsity factor32.sparsity
  let L32 ← applyInfluenced factor21.L factor32.L influenced32 LijScaled
  let influenced33 ← getInfluencedListLowerTriangle entry.row entry.col factor31.sparsity factor33.sparsity
  let L33 ← applyInfluenced L31 factor33.L influenced33 LijScaled
  let Lij := LijScaled / (← rd factor11.D entry.col)
  return ({ factor31 with L := ← wr L31 entryIndex Lij }, { factor32 with L := L32 },
    { factor33 with L := L33 }, LijScaled * Lij)

/-- `factorizeUpLookingImpl`, `ctldl/factorize/factorize_up_looking.hpp:147-176`: one row. -/
def factorizeUpLookingImpl (factor11 : DiagFactor K) (init21 init22 : Init K) (regularize : K → Nat → K)
    (st : SubFactor K × DiagFactor K) (i : Nat) : Res (SubFactor K × DiagFactor K) := do
  let (factor21, factor22) := st
  staticAssert (factor22.sparsity.numRows == factor21.sparsity.numRows)
  let Di ← getInitialFactorValueD i init22 factor22
  let L21 ← initializeFactorRow i init21 factor21.sparsity factor21.origEntry factor21.L
  let L22 ← initializeFactorRow i init22 factor22.sparsity factor22.origEntry factor22.L
  let rowBegin21 ← rd factor21.sparsity.rowBegin i
  let rowEnd21 ← rd factor21.sparsity.rowBegin (i + 1)
  let (factor21, factor22, Di) ← (← entryRange rowBegin21 rowEnd21).foldlM
    (fun (st : SubFactor K × DiagFactor K × K) entryIndex => do
      let (f21, f22, c) ← factorizeUpLookingInnerLeft entryIndex factor11 st.1 st.2.1
      return (f21, f22, st.2.2 - c))
    ({ factor21 with L := L21 }, { factor22 with L := L22 }, Di)
  let rowBegin22 ← rd factor22.sparsity.rowBegin i
  let rowEnd22 ← rd factor22.sparsity.rowBegin (i + 1)
  let (factor22, Di) ← (← entryRange rowBegin22 rowEnd22).foldlM
    (fun (st : DiagFactor K × K) entryIndex => do
      let (f22, c) ← factorizeUpLookingInnerSelf entryIndex st.1
      return (f22, st.2 - c))
    (factor22, Di)
  return (factor21, { factor22 with D := ← wr factor22.D i (regularize Di i) })

/-- `factorizeUpLooking` of two blocks, `ctldl/factorize/factorize_up_looking.hpp:194-213`. -/
def factorizeUpLooking (factor11 : DiagFactor K) (init21 init22 : Init K) (factor21 : SubFactor K)
    (factor22 : DiagFactor K) (regularize : K → Nat → K) : Res (SubFactor K × DiagFactor K) := do
  factorizeStaticAsserts factor11 init21 init22 factor21 factor22
  (List.range factor22.sparsity.numRows).foldlM
    (factorizeUpLookingImpl factor11 init21 init22 regularize) (factor21, factor22)

/-- `factorizePartialUpLookingImpl`, `ctldl/factorize/factorize_up_looking.hpp:252-275`: one row. -/
def factorizePartialUpLookingImpl (factor11 : DiagFactor K) (factor21 : SubFactor K)
    (init31 init32 init33 : Init K) (st : SubFactor K × SubFactor K × DiagFactor K) (i : Nat) :
    Res (SubFactor K × SubFactor K × DiagFactor K) := do
  let (factor31, factor32, factor33) := st
  let L31 ← initializeFactorRow i init31 factor31.sparsity factor31.origEntry factor31.L
  let L32 ← initializeFactorRow i init32 factor32.sparsity factor32.origEntry factor32.L
  let L33 ← initializeFactorRow i init33 factor33.sparsity factor33.origEntry factor33.L
  let Di ← rd factor33.D i
  let rowBegin31 ← rd factor31.sparsity.rowBegin i
  let rowEnd31 ← rd factor31.sparsity.rowBegin (i + 1)
  let (factor31, factor32, factor33, Di) ← (← entryRange rowBegin31 rowEnd31).foldlM
    (fun (st : SubFactor K × SubFactor K × DiagFactor K × K) entryIndex => do
      let (f31, f32, f33, c) ← factorizeUpLookingInnerLeft3 entryIndex factor11 factor21 st.1 st.2.1 st.2.2.1
      return (f31, f32, f33, st.2.2.2 - c))
    ({ factor31 with L := L31 }, { factor32 with L := L32 }, { factor33 with L := L33 }, Di)
  return (factor31, factor32, { factor33 with D := ← wr factor33.D i Di })

/-- `factorizePartialUpLooking`, `ctldl/factorize/factorize_up_looking.hpp:295-308`. -/
def factorizePartialUpLooking (factor11 : DiagFactor K) (factor21 : SubFactor K)
    (init31 init32 init33 : Init K) (factor31 factor32 : SubFactor K) (factor33 : DiagFactor K) :
    Res (SubFactor K × SubFactor K × DiagFactor K) :=
  (List.range factor31.sparsity.numRows).foldlM
    (factorizePartialUpLookingImpl factor11 factor21 init31 init32 init33) (factor31, factor32, factor33)

/-! ## Method selection -/

/-- `FactorizeMethodEntryWise`, `FactorizeMethodUpLooking`, `ctldl/factorize/factorize_method.hpp:5-10`. -/
inductive Method where
  | entryWise
  | upLooking
  deriving DecidableEq, Repr

/-- `factorize` with a left neighbour, `ctldl/factorize/factorize_entry_wise.hpp:238-247` and
`ctldl/factorize/factorize_up_looking.hpp:234-243`. -/
def factorizeBlocks (factor11 : DiagFactor K) (init21 init22 : Init K) (factor21 : SubFactor K)
    (factor22 : DiagFactor K) (regularize : K → Nat → K) : Method → Res (SubFactor K × DiagFactor K)
  | .entryWise => factorizeEntryWise factor11 init21 init22 factor21 factor22 regularize
  | .upLooking => factorizeUpLooking factor11 init21 init22 factor21 factor22 regularize

/-- `factorize` of a single diagonal block, `ctldl/factorize/factorize_entry_wise.hpp:228-236, 249-254` and
`ctldl/factorize/factorize_up_looking.hpp:224-232, 245-250`, and `Factorization::factorize`,
`ctldl/factor_data/factorization.hpp:65-70`. -/
def DiagFactor.factorize (factor : DiagFactor K) (matrix : MatIn K) (regularize : K → Nat → K)
    (method : Method) : Res (DiagFactor K) := do
  let empty21 ← emptyFactorDataLeft factor
  let empty11 ← emptyFactorDataDiagonal K
  let (_, factor) ← factorizeBlocks empty11 (.matrix (emptyMatrixInput K factor.sparsity.numRows 0))
    (.matrix matrix) empty21 factor regularize method
  return factor

/-- `RegularizationNone::regularize`, `ctldl/factorize/regularization_none.hpp:7-13`. -/
def regularizationNone (Di : K) (_ : Nat) : K := Di

/-- `RegularizationSmallPositiveConstant::regularize`,
`ctldl/factorize/regularization_small_positive_constant.hpp:9-21`. The constants `eps^0.625` and `eps^0.5`
and the absolute value are parameters. -/
def regularizationSmallPositiveConstant [LT K] [DecidableLT K] (absValue : K → K)
    (pivotTolerance regularizationConstant : K) (Di : K) (_ : Nat) : K :=
  if absValue Di < pivotTolerance then regularizationConstant else Di

end Ctldl
