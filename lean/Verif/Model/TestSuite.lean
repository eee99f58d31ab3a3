import Verif.Model.Permutation
import Verif.Model.TestFunctor
import Mathlib.Algebra.Field.Rat

/-! # The test suite: `tests/utility/test_set*.hpp`, `tests/test_matrices/*` and the test cases in
`tests/multiply_factorize_solve_correct/*`

A test set is modelled by the list of its instances, an instance by the list of its arguments. -/

namespace Ctldl

/-! ### Test sets -/

/-- `makeTemplateArgument`, `tests/utility/test_set.hpp:39-52`, and `makeFunctionArgument`, `:107-111`. -/
def makeArgument {α : Type} (values : List α) : List (List α) := values.map fun value => [value]

/-- `cartesianProductTestSets`, `tests/utility/test_set.hpp:54-62` and `:113-122`, also as `operator*` (`:79-82`,
`:140-144`). `std::views::cartesian_product` varies its last range fastest. -/
def cartesianProductTestSets {α : Type} (lhs rhs : List (List α)) : List (List α) :=
  lhs.flatMap fun l => rhs.map fun r => l ++ r

/-- `joinTestSets`, `tests/utility/test_set.hpp:64-67`, also as `operator+` (`:84-87`). -/
def joinTestSets {α : Type} (lhs rhs : List (List α)) : List (List α) := lhs ++ rhs

/-- `zipTestSets`, `tests/utility/test_set.hpp:69-77`, also as `operator^` (`:89-92`). `std::views::zip` ends with its
shortest range. -/
def zipTestSets {α : Type} (lhs rhs : List (List α)) : List (List α) := List.zipWith (fun l r => l ++ r) lhs rhs

/-- `foreach`, `tests/utility/test_set_foreach.hpp:10-21`: the calls, as pairs of template and function arguments, in
their order. -/
def foreachCalls {α β : Type} (testSetTemplate : List (List α)) (testSetFunction : List (List β)) :
    List (List α × List β) :=
  testSetTemplate.flatMap fun argsTemplate => testSetFunction.map fun argsFunction => (argsTemplate, argsFunction)

/-! ### Matrices -/

/-- The types of numbers which occur in the tests. -/
inductive ValueType where
  | float
  | double
  deriving DecidableEq, Repr

/-- The matrices of the test cases which are not random, with their template arguments. -/
inductive TestMatrix where
  | tridiagonal (blockDim : Nat) (value : ValueType)
  | singleEntryTopRight (blockDim : Nat) (value : ValueType)
  | indefA (value : ValueType)
  | indefB (value : ValueType)
  | nos2A (value : ValueType)
  | nos2B (value : ValueType)
  | nos4A (value : ValueType)
  | nos4B (value : ValueType)
  | lfat5 (value : ValueType)
  deriving DecidableEq, Repr

/-- `TestMatrixIndefA::Matrix`, `tests/test_matrices/repeating/indef.hpp:11-29`, the values as written. -/
def testMatrixIndefA : MatIn ℚ := ⟨⟨2, 2, [⟨1, 0⟩]⟩, [1]⟩

/-- `TestMatrixIndefB::Matrix`, `tests/test_matrices/repeating/indef.hpp:42-58`. -/
def testMatrixIndefB : MatIn ℚ := ⟨⟨2, 2, []⟩, []⟩

/-- `TestMatrixNos2A::Matrix`, `tests/test_matrices/repeating/nos2.hpp:11-29`. -/
def testMatrixNos2A : MatIn ℚ := ⟨⟨3, 3, [⟨0, 0⟩, ⟨1, 1⟩, ⟨2, 2⟩]⟩, [640000, 25600000, 78643200000]⟩

/-- `TestMatrixNos2B::Matrix`, `tests/test_matrices/repeating/nos2.hpp:42-64`. -/
def testMatrixNos2B : MatIn ℚ :=
  ⟨⟨3, 3, [⟨0, 0⟩, ⟨1, 1⟩, ⟨1, 2⟩, ⟨2, 1⟩, ⟨2, 2⟩]⟩, [-320000, -39321600000, -614400000, 614400000, 6400000]⟩

/-- `TestMatrixNos4A::Matrix`, `tests/test_matrices/repeating/nos4.hpp:16-65`. -/
def testMatrixNos4A (isLastBlock : Bool) : MatIn ℚ :=
  ⟨⟨10, 10, [⟨0, 0⟩, ⟨1, 0⟩, ⟨1, 1⟩, ⟨2, 0⟩, ⟨2, 2⟩, ⟨3, 3⟩, ⟨4, 2⟩, ⟨4, 4⟩, ⟨5, 5⟩, ⟨6, 4⟩, ⟨6, 6⟩, ⟨7, 7⟩, ⟨8, 6⟩,
      ⟨8, 8⟩, ⟨9, 8⟩, ⟨9, 9⟩]⟩,
    if isLastBlock then
      [0.1, 0.0, 0.2, -0.1, 0.34310835, 0.23577709, -0.1, 0.2, 0.2, -0.1, 0.34310835, 0.23577709, -0.1, 0.1, 0.0, 0.2]
    else
      [0.17155418, 0.035777088, 0.41788854, -0.1, 0.34310835, 0.43577709, -0.1, 0.34310835, 0.43577709, -0.1,
        0.34310835, 0.43577709, -0.1, 0.17155418, -0.035777088, 0.41788854]⟩

/-- `TestMatrixNos4B::Matrix`, `tests/test_matrices/repeating/nos4.hpp:83-110`. -/
def testMatrixNos4B : MatIn ℚ :=
  ⟨⟨10, 10, [⟨1, 1⟩, ⟨2, 0⟩, ⟨2, 1⟩, ⟨2, 4⟩, ⟨2, 5⟩, ⟨3, 0⟩, ⟨3, 1⟩, ⟨3, 3⟩, ⟨3, 4⟩, ⟨3, 5⟩, ⟨5, 5⟩, ⟨6, 4⟩, ⟨6, 5⟩,
      ⟨6, 8⟩, ⟨6, 9⟩, ⟨7, 4⟩, ⟨7, 5⟩, ⟨7, 7⟩, ⟨7, 8⟩, ⟨7, 9⟩, ⟨9, 9⟩]⟩,
    [-0.2, -0.071554176, -0.035777088, -0.071554176, 0.035777088, -0.035777088, -0.017888544, -0.2, 0.035777088,
      -0.017888544, -0.2, -0.071554176, -0.035777088, -0.071554176, 0.035777088, -0.035777088, -0.017888544, -0.2,
      0.035777088, -0.017888544, -0.2]⟩

/-- `test_permutation_nos4`, `tests/test_matrices/repeating/nos4.hpp:121-122`. -/
def testPermutationNos4 : List Nat := [7, 8, 0, 4, 3, 2, 6, 5, 9, 1]

/-- `TestMatrixLFAT5::Matrix`, `tests/test_matrices/single/lfat5.hpp:14-42`. -/
def testMatrixLFAT5 : MatIn ℚ :=
  ⟨⟨14, 14, [⟨0, 0⟩, ⟨3, 0⟩, ⟨4, 0⟩, ⟨1, 1⟩, ⟨5, 1⟩, ⟨2, 2⟩, ⟨6, 2⟩, ⟨3, 3⟩, ⟨7, 3⟩, ⟨8, 3⟩, ⟨4, 4⟩, ⟨7, 4⟩, ⟨8, 4⟩,
      ⟨5, 5⟩, ⟨9, 5⟩, ⟨6, 6⟩, ⟨10, 6⟩, ⟨7, 7⟩, ⟨11, 7⟩, ⟨12, 7⟩, ⟨8, 8⟩, ⟨11, 8⟩, ⟨12, 8⟩, ⟨9, 9⟩, ⟨10, 10⟩, ⟨11, 11⟩,
      ⟨13, 11⟩, ⟨12, 12⟩, ⟨13, 12⟩, ⟨13, 13⟩]⟩,
    [1.57088000000000005e+00, -9.42527999999999935e+01, 7.85440000000000027e-01, 1.25664000000000000e+07,
      -6.28320000000000000e+06, 6.08806201550387560e-01, -3.04403100775193780e-01, 1.50804479999999967e+04,
      -7.54022399999999834e+03, 9.42527999999999935e+01, 3.14176000000000011e+00, -9.42527999999999935e+01,
      7.85440000000000027e-01, 1.25664000000000000e+07, -6.28320000000000000e+06, 6.08806201550387560e-01,
      -3.04403100775193780e-01, 1.50804479999999967e+04, -7.54022399999999834e+03, 9.42527999999999935e+01,
      3.14176000000000011e+00, -9.42527999999999935e+01, 7.85440000000000027e-01, 1.25664000000000000e+07,
      6.08806201550387560e-01, 1.50804479999999967e+04, 9.42527999999999935e+01, 3.14176000000000011e+00,
      7.85440000000000027e-01, 1.57088000000000005e+00]⟩

/-- `test_permutation_lfat5`, `tests/test_matrices/single/lfat5.hpp:53-55`. -/
def testPermutationLFAT5 : List Nat := [13, 11, 12, 8, 7, 0, 4, 3, 9, 1, 5, 10, 2, 6]

/-- `Matrix::sparsity` of the matrices. -/
def TestMatrix.sparsity : TestMatrix → Sparsity
  | .tridiagonal n _ => (testMatrixTridiagonal ℚ n).sparsity
  | .singleEntryTopRight n _ => (testMatrixSingleEntryTopRight ℚ n).sparsity
  | .indefA _ => testMatrixIndefA.sparsity
  | .indefB _ => testMatrixIndefB.sparsity
  | .nos2A _ => testMatrixNos2A.sparsity
  | .nos2B _ => testMatrixNos2B.sparsity
  | .nos4A _ => (testMatrixNos4A false).sparsity
  | .nos4B _ => testMatrixNos4B.sparsity
  | .lfat5 _ => testMatrixLFAT5.sparsity

/-- `Value` of the matrices. -/
def TestMatrix.value : TestMatrix → ValueType
  | .tridiagonal _ v | .singleEntryTopRight _ v | .indefA v | .indefB v | .nos2A v | .nos2B v | .nos4A v | .nos4B v
  | .lfat5 v => v

/-- `generate` of the matrices, the values as written, `tests/test_matrices/repeating/tridiagonal.hpp:52-56`, `:74-78`,
`indef.hpp:33-37`, `:62-66`, `nos2.hpp:33-37`, `:68-72`, `nos4.hpp:69-77`, `:114-118` and
`tests/test_matrices/single/lfat5.hpp:46-50`. Only the last one of the matrices of NOS4 is different. -/
def TestMatrix.generate (m : TestMatrix) (numMatrices : Nat) : List (MatIn ℚ) :=
  match m with
  | .tridiagonal n _ => List.replicate numMatrices (testMatrixTridiagonal ℚ n)
  | .singleEntryTopRight n _ => List.replicate numMatrices (testMatrixSingleEntryTopRight ℚ n)
  | .indefA _ => List.replicate numMatrices testMatrixIndefA
  | .indefB _ => List.replicate numMatrices testMatrixIndefB
  | .nos2A _ => List.replicate numMatrices testMatrixNos2A
  | .nos2B _ => List.replicate numMatrices testMatrixNos2B
  | .nos4A _ =>
    if numMatrices = 0 then [] else List.replicate (numMatrices - 1) (testMatrixNos4A false) ++ [testMatrixNos4A true]
  | .nos4B _ => List.replicate numMatrices testMatrixNos4B
  | .lfat5 _ => List.replicate numMatrices testMatrixLFAT5

/-! ### Solutions -/

/-- The solution generators, `tests/utility/solution_generator.cpp:11-44`, with the standard deviation of the third. -/
inductive SolutionGenerator where
  | allOnes
  | iota
  | normallyDistributed (standardDeviation : Nat)
  deriving DecidableEq, Repr

/-- `SolutionGenerator::generate`, `tests/utility/solution_generator.cpp:11-44`. `std::iota` increments by one from each
element to the next. The normally distributed vectors are given by `normal`. -/
def SolutionGenerator.generate {F : Type} [One F] [Add F] (normal : Nat → Nat → F) (g : SolutionGenerator) (dim : Nat) :
    List F :=
  match g with
  | .allOnes => List.replicate dim 1
  | .iota => (List.range dim).map fun i => (fun x : F => x + 1)^[i] 1
  | .normallyDistributed _ => (List.range dim).map (normal dim)

/-! ### Test cases -/

/-- The template arguments in the test cases. -/
inductive TemplateArgument where
  | matrix (m : TestMatrix)
  | permutation (p : List Nat)
  | value (v : ValueType)
  | method (m : Method)
  | number (n : Nat)
  deriving DecidableEq, Repr

/-- The function arguments in the test cases, without the reference to the generator of values, which is the same in all
calls. -/
inductive FunctionArgument where
  | solution (g : SolutionGenerator)
  | repetitions (n : Nat)
  deriving DecidableEq, Repr

/-- `factorize_value_types`, for example
`tests/multiply_factorize_solve_correct/single/small_examples_all_permutations.cpp:40-41`. -/
def factorizeValueTypes : List (List TemplateArgument) := makeArgument [.value .double, .value .float]

/-- `factorize_method`, for example
`tests/multiply_factorize_solve_correct/single/small_examples_all_permutations.cpp:42-44`. -/
def factorizeMethods : List (List TemplateArgument) := makeArgument [.method .upLooking, .method .entryWise]

/-- `solution_generators`, for example
`tests/multiply_factorize_solve_correct/single/small_examples_all_permutations.cpp:45-47`. -/
def solutionGenerators : List (List FunctionArgument) :=
  makeArgument [.solution .allOnes, .solution .iota, .solution (.normallyDistributed 1000)]

/-- `repetition_counts`, for example
`tests/multiply_factorize_solve_correct/repeating/small_examples_all_permutations.cpp:56-57`. -/
def repetitionCounts : List (List FunctionArgument) :=
  makeArgument [.repetitions 0, .repetitions 1, .repetitions 2, .repetitions 9]

/-- `makeTemplateArgument(enumeratePermutationsStatic(dim))`, for example
`tests/multiply_factorize_solve_correct/single/small_examples_all_permutations.cpp:30-31`. -/
def permutationArguments (dim : Nat) : List (List TemplateArgument) :=
  makeArgument ((enumeratePermutations dim).map .permutation)

/-- `test_set_template` from `matrix_permutation_pairs`, for example
`tests/multiply_factorize_solve_correct/single/small_examples_all_permutations.cpp:50-51`. -/
def withTypesAndMethods (pairs : List (List TemplateArgument)) : List (List TemplateArgument) :=
  cartesianProductTestSets (cartesianProductTestSets pairs factorizeValueTypes) factorizeMethods

/-- `matrices_1x1`, `matrices_2x2` and `matrices_3x3` of
`tests/multiply_factorize_solve_correct/single/small_examples_all_permutations.cpp:22-29`. -/
def singleMatrices : Nat → List (List TemplateArgument)
  | 1 => makeArgument [.matrix (.tridiagonal 1 .double)]
  | 2 => makeArgument [.matrix (.tridiagonal 2 .double)]
  | 3 => makeArgument [.matrix (.tridiagonal 3 .double), .matrix (.tridiagonal 3 .float), .matrix (.nos2A .double),
      .matrix (.nos2A .float)]
  | _ => []

/-- `matrix_permutation_pairs` from the matrices, for example
`tests/multiply_factorize_solve_correct/single/small_examples_all_permutations.cpp:36-38`. -/
def matrixPermutationPairs (matrices : Nat → List (List TemplateArgument)) : List (List TemplateArgument) :=
  joinTestSets
    (joinTestSets (cartesianProductTestSets (matrices 1) (permutationArguments 1))
      (cartesianProductTestSets (matrices 2) (permutationArguments 2)))
    (cartesianProductTestSets (matrices 3) (permutationArguments 3))

/-- The test case `SmallExamplesAllPermutations` for single matrices,
`tests/multiply_factorize_solve_correct/single/small_examples_all_permutations.cpp:21-57`. -/
def singleSmallExamples : List (List TemplateArgument × List FunctionArgument) :=
  foreachCalls (withTypesAndMethods (matrixPermutationPairs singleMatrices)) solutionGenerators

/-- The test case `LargerExamplesGoodPermutation` for single matrices,
`tests/multiply_factorize_solve_correct/single/larger_examples_good_permutation.cpp:20-44`. -/
def singleLargerExamples : List (List TemplateArgument × List FunctionArgument) :=
  foreachCalls
    (withTypesAndMethods
      (cartesianProductTestSets (makeArgument [.matrix (.lfat5 .double), .matrix (.lfat5 .float)])
        (makeArgument [.permutation testPermutationLFAT5])))
    solutionGenerators

/-- `matrices_1x1`, `matrices_2x2` and `matrices_3x3` of
`tests/multiply_factorize_solve_correct/repeating/small_examples_all_permutations.cpp:23-37`. -/
def repeatingMatrices : Nat → List (List TemplateArgument)
  | 1 => cartesianProductTestSets (makeArgument [.matrix (.tridiagonal 1 .double)])
      (makeArgument [.matrix (.singleEntryTopRight 1 .double)])
  | 2 => zipTestSets (makeArgument [.matrix (.tridiagonal 2 .double), .matrix (.indefA .double)])
      (makeArgument [.matrix (.singleEntryTopRight 2 .double), .matrix (.indefB .double)])
  | 3 => zipTestSets
      (makeArgument [.matrix (.tridiagonal 3 .double), .matrix (.tridiagonal 3 .float), .matrix (.nos2A .double),
        .matrix (.nos2A .float)])
      (makeArgument [.matrix (.singleEntryTopRight 3 .double), .matrix (.singleEntryTopRight 3 .float),
        .matrix (.nos2B .double), .matrix (.nos2B .float)])
  | _ => []

/-- The test case `SmallExamplesAllPermutations` for block tridiagonal matrices,
`tests/multiply_factorize_solve_correct/repeating/small_examples_all_permutations.cpp:22-68`. -/
def repeatingSmallExamples : List (List TemplateArgument × List FunctionArgument) :=
  foreachCalls (withTypesAndMethods (matrixPermutationPairs repeatingMatrices))
    (cartesianProductTestSets solutionGenerators repetitionCounts)

/-- The test case `LargerExamplesGoodPermutation` for block tridiagonal matrices,
`tests/multiply_factorize_solve_correct/repeating/larger_examples_good_permutation.cpp:17-46`. -/
def repeatingLargerExamples : List (List TemplateArgument × List FunctionArgument) :=
  foreachCalls
    (withTypesAndMethods
      (cartesianProductTestSets
        (zipTestSets (makeArgument [.matrix (.nos4A .double), .matrix (.nos4A .float)])
          (makeArgument [.matrix (.nos4B .double), .matrix (.nos4B .float)]))
        (makeArgument [.permutation testPermutationNos4])))
    (cartesianProductTestSets solutionGenerators repetitionCounts)

/-- The test case `RandomExamples` for block tridiagonal matrices,
`tests/multiply_factorize_solve_correct/repeating/random_examples.cpp:19-41`. -/
def repeatingRandomExamples : List (List TemplateArgument × List FunctionArgument) :=
  foreachCalls
    (cartesianProductTestSets
      (cartesianProductTestSets
        (cartesianProductTestSets (makeArgument ((List.range 100).map .number)) (makeArgument [.number 3]))
        (makeArgument [.value .double]))
      factorizeMethods)
    (cartesianProductTestSets (makeArgument [.solution (.normallyDistributed 1000)]) repetitionCounts)

/-- The test case `RandomExamples` for matrices with start, link and outer blocks,
`tests/multiply_factorize_solve_correct/repeating_arrowhead_linked/random_examples.cpp:19-50`. -/
def arrowheadRandomExamples : List (List TemplateArgument × List FunctionArgument) :=
  foreachCalls
    (cartesianProductTestSets
      (cartesianProductTestSets
        (cartesianProductTestSets (makeArgument ((List.range 8).map .number))
          (zipTestSets
            (zipTestSets (zipTestSets (makeArgument [.number 4]) (makeArgument [.number 3])) (makeArgument [.number 2]))
            (makeArgument [.number 5])))
        (makeArgument [.value .double]))
      factorizeMethods)
    (cartesianProductTestSets (makeArgument [.solution (.normallyDistributed 1000)]) repetitionCounts)

end Ctldl
