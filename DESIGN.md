# Formal model of ctldl — design

Subject: `mjacobse/ctldl` (header-only C++ library for sparse LDLᵀ factorization with compile-time
sparsity, with repeating block tridiagonal arrowhead structure). Prover: Lean 4.33.0 with Mathlib.

## Trusted base

* The Lean kernel. Theorems depend at most on Lean's standard axioms `propext`, `Classical.choice`,
  `Quot.sound`. No own axioms, no `sorry`, no `native_decide`/`bv_decide`, no `implemented_by`/`unsafe`.
* That the hand-written Lean definitions in `lean/Verif/Model/*` mirror the C++ text. Every
  definition cites file and lines.
* That the specifications in `lean/Verif/Spec/*` mean what they say in English.

## What is modelled and how

* **Outcome monad** `Res α = Except Err α`. Undefined behaviour is an outcome of its own:
  `Err.ub` (array access out of range, division by zero), `Err.pre` (a `pre(...)` contract
  violation), `Err.assertion` (`assert`), `Err.staticAssert` (`static_assert`), `Err.compile`
  (ill-formed instantiation), `Err.wrap` (an unsigned subtraction that wraps around), `Err.fuel`
  (a `while` loop that did not finish within the fuel handed to it) and `Err.mtx` (exception of the
  matrix file reader). Every array read/write in the model is checked (`rd`, `wr`). So a theorem
  `f x = .ok y` (or `Sat (f x) P`) says at once: no out-of-range access, no violated contract or
  assertion, no wrap-around, termination, and the stated result.
* **Arrays / vectors / spans** are Lean lists with checked access. `std::size_t` is `Nat`; overflow
  of additions and multiplications is not modelled (sizes are bounded by memory), except in
  `factorial`, where it happens for small arguments, and in the reader of matrix files (`Model/Words`, C79), where the
  numbers come from the file; wrap-around of subtractions is (`usub`). The sentinel `no_parent = SIZE_MAX` is kept as the number `2^64-1`.
* **Templates / constexpr / static_assert**: compile-time computations are modelled as ordinary
  computations; template parameters become ordinary arguments; a `static_assert` becomes a check
  that fails with `Err.staticAssert`.
* **Loops**: range loops are `List.foldlM` over `List.range`; `while` loops are recursion on fuel,
  and the theorems prove that the fuel never runs out.
* **Numbers**: numeric routines are generic over a type `K` with `+ - * /` and `0`. Results on memory
  safety, history independence and ignored inputs hold for *every* such arithmetic, floating point
  included. Results about products and solutions in exact arithmetic hold over every `Field K` (C48 over
  every linearly ordered field). Results about rounding (C46, C47, C52, C53, C57, C58, C75, C76, C90, C92 to C95) hold for every number type which
  satisfies the standard model of floating point arithmetic with underflow (`Spec/Rounding`); an IEEE 754
  binary format (`Spec/Binary`: any precision and exponent range, round to nearest, ties to even, gradual
  underflow, overflow to infinity, one NaN) is proved to satisfy it. In these results
  matrix, factor and vectors have the same number type. C49 is about different number types: `Model/Mixed`
  has the functions again with the conversions made when a number is used; they are proved to be the same as
  converting all stored numbers first (`Lemmas/Cast`, C49_convert_first, C52_convert_first). All blocks of a matrix and all parts of a right-hand side have the same number type. C50 is about
  compilers which contract `a - b * c` into a fused multiply-add (`Spec/Contracted`): the number type has
  products which are not rounded yet, and tags of the operands decide which products are left like that.
* **Uninitialised storage**: factor objects start with arbitrary contents of the right size.
* **Aliasing**: in the in-place substitutions solution and partial solution are the same vector; the
  model has separate in-place versions.

Not modelled: a number which is kept with extended precision in one place and rounded to its type in another at the same
time (C88 has one decision per operation), NaN payloads (in `Spec/Binary`), rounding modes other than to nearest except in C81, C91 and C97,
sums in any order (C90, C92 to C97) together with contraction to fused multiply-adds, inlining/unrolling attributes, C++ lifetime and
ownership, `std::iota` with an `int` start value on more than 2^31 elements, locales other than "C", compiler and standard library correctness,
the library of benchmarks and measured times,
`std::normal_distribution` and Boost.Test (the test functors, random structures, test matrices, test sets and
test cases are modelled). Without behaviour of their own, and therefore without definitions in the model, are
`utility/ctad.hpp`, `utility/static_sized_range.hpp`, `utility/fix_init_if_zero_length_array.hpp`, `factorize/regularization.hpp`
(a concept), `utility/dummy_range.hpp` (the empty blocks of `matrix/*` are modelled directly) and
`tests/utility/{generate_matrices,test_static}.hpp`.

## Layers

| Lean module | C++ |
|---|---|
| `Model/Basic` | outcome monad, checked access |
| `Model/Permutation` | `permutation/*` |
| `Model/Sparsity` | `sparsity/*` |
| `Model/Symbolic` | `symbolic/*` |
| `Model/Factorize` | `factorize/*`, `factor_data/factorization*.hpp` |
| `Model/Solve` | `solve/*` |
| `Model/Arrowhead` | `factor_data/factorization_repeating_*`, `sparsity_to_factorize_*` |
| `Model/Multiply` | `matrix/*` |
| `Model/Mixed` | conversions between number types in `factorize/*`, `solve/*` and `matrix/*` |
| `Model/Vector`, `Model/Mtx`, `Model/TestUtil` | `vector/*`, `fileio/*`, `tests/utility/random/*` |
| `Model/Scan` | `std::getline` and `std::sscanf` with `%zu` and `%lf`, as defined by the C standard, as used in `fileio/*` |
| `Model/Numeral` | the conversion of numerals by `%lf` as in the GNU C library (rounded to nearest, infinite if too large; the C standard leaves both open). In `Model/Scan` it is a parameter |
| `Model/Examples` | `examples/repeating/example_mtx.cpp` and the structures it is compiled with |
| `Model/Program` | `main` of `examples/repeating/example_mtx.cpp`: arguments, `std::stoull`, opening of the file, text written (an uncaught exception is an outcome) |
| `Model/Benchmark` | `examples/repeating/benchmark_mtx.cpp` |
| `Model/FixedExamples` | the other examples, `examples/repeating/example_{tridiagonal,nos2,nos4,indef}.cpp` and `examples/single/*`; `Spec/FixedExamples` has the digits written by `printf("%f")` with rounding to nearest as in the GNU C library |
| `Model/Text` | texts of diagnostics: `sparsity/entry_print.hpp`, `utility/contracts.cpp`, `tests/utility/to_test_info.cpp` |
| `Model/Words` | the reader of matrix files and the constructor of the repeating factorization with words of 64 bits and failing allocations |
| `Model/TestMatrix`, `Model/TestFunctor`, `Model/TestSuite` | random patterns, functors, matrices, test sets and test cases of the tests |

`Spec/*` are the specifications, `Props/*` the property theorems (`Cxx_...`) with concrete cases meeting
their hypotheses, `Lemmas/*` everything in between. `Tests/Unit` has the unit tests `*.test.cpp` of the repository
evaluated for the model: tests of the model, not proofs.

| Specification | says |
|---|---|
| `Spec/Permutation`, `Spec/Sparsity` | permutations, patterns and CSR layout |
| `Spec/Fill` | fill-in, elimination tree |
| `Spec/Factor` | single and blocked factors, products, systems of equations |
| `Spec/Multiply` | matrix-vector products |
| `Spec/Shaped`, `Spec/Arrowhead`, `Spec/Tridiagonal` | repeating block matrices: shape, declared patterns, elements, systems |
| `Spec/Mtx`, `Spec/EndToEnd` | matrix files: well-formed files, place of an entry, the system of a file |
| `Spec/Scan` | texts of matrix files: lines, spellings of numbers |
| `Spec/Messages` | what is wrong with a matrix file, with the sentence which says so |
| `Spec/Words` | sizes declared by a file, memory which suffices |
| `Spec/Rounding`, `Spec/Binary` | standard model of rounding, IEEE binary formats |
| `Spec/Nearest` | correct rounding |
| `Spec/Textbook` | formulas of factor and solution, in order of evaluation |
| `Spec/SignChange` | numbers up to sign |
| `Spec/Environment`, `Spec/EnvironmentAdd` | floating point environments: arithmetic in the four rounding directions, with or without subnormal numbers, also with a flag for results which are too large |
| `Spec/Lockstep` | pairs of a floating point number and an exact number, computed in lockstep, with a note whether all contributing operations were exact |
| `Spec/Parts` | unknowns which are not coupled with others, and leading rows, which two matrices have in common |
| `Spec/Superset` | one matrix whose entries are all in the pattern of a repeating block factor |
| `Spec/Least` | patterns of repeating block matrices: the same for all repetitions, closed under elimination; declarations with more entries |
| `Spec/Nearby` | systems of equations close to a given one |
| `Spec/Mixed` | conversions between number types |
| `Spec/Contracted` | binary formats with fused multiply-add where a compiler chooses |
| `Spec/RoundingAdd` | sums with rounding |
| `Spec/Oblivious` | expressions in the numbers given |
| `Spec/TestMatrix` | closed form of the generator, the matrix of second differences |
| `Spec/Range` | no overflow below a bound; precision and range which suffice for a matrix |
| `Spec/RangeAdd`, `Spec/ForwardError` | the same for sums; bounds of errors of solutions |
| `Spec/BinaryOrder` | magnitude and comparison of floating point numbers |
| `Spec/Scaling` | scaling by powers of two; whether underflow or overflow had an influence on a value |
| `Spec/Assembled` | the blocks of a repeating block matrix as parts of one matrix |
| `Spec/Inertia` | determinant, quadratic form and indices of inertia of a matrix |
| `Spec/Definite` | positive definite and quasidefinite matrices, regular leading submatrices |
| `Spec/QuasiRange` | precision and range which suffice for quasidefinite matrices |
| `Spec/Extended`, `Spec/ExtendedAdd`, `Spec/DoubleRounding` | intermediate results with extended precision; formats wide enough for it to make no difference |
| `Spec/AnyOrder`, `Spec/AnyOrderRange` | sums in any order and products with reciprocals; precision and range which suffice for them |
| `Spec/Examples`, `Spec/FixedExamples`, `Spec/TestSuite` | the example programs; well-defined calls of the test suite |

Specifications (`Spec/*`) do not mention model helpers: permutations are `p.Perm (List.range n)`;
fill-in is the inductively defined least relation containing the pattern and closed under
elimination (`Fill`); matrices are functions to the field; products are `Finset` sums.

## Properties: model and proof plan

* C01 invert: loop invariant on the inverse array. C02: `std::next_permutation` as in libstdc++
  (longest non-increasing suffix, swap, reverse); proof that it is the lexicographic successor, so
  iterating it from the identity lists all permutations.
* C03 direct. C04: loop invariants of counting sort (row counts, prefix sums, insertion positions).
* C05: from C04's layout. C06, C07: from C01. C08: loop invariant "marked exactly the columns of the
  current row". C09: induction over the two-pointer merge. C10: loop invariant. C11: list search.
* C12: invariant relating parent array to `Fill` of the entries processed so far and ancestor array to
  the forest; the climbing loop links the root of the climbed path. C13: the same lemma with offsets.
* C14, C15: row subtree characterisation of fill + invariant of the visitor array; sorting is
  an insertion sort.
* C16: ancestor relation grows monotonically in the iteration, hence at most dim² + 1 rounds; fixed
  point from the loop exit. C17: closure of the returned blocks, then induction on `Fill` of the assembled
  pattern. C18: compare with the sequence of true block trees.
* C19: C15 plus counting. C20: C14 plus closedness. C21: composition of C14, C15, C17.
* C22–C24: row / entry invariants over a field with sums over all columns (absent entries are zero);
  block versions with a left neighbour and with two left neighbours (partial factorization).
* C25: memory safety for arbitrary arithmetic. C26, C27: relational invariant of two runs.
* C28: ordered fields. C29–C31: triangular solves. C32, C33: loops over entries as sums.
* C34, C35: block equations, assembled over the index type start ⊕ (block × row) ⊕ link ⊕ outer.
* C36, C37: composition. C38: from C08, with a counterexample for the outer blocks.
* C39: lists. C40, C41: fold over file lines, counterexamples for the violated parts. C42, C43, C44 direct.
* C45: composition of C40, C41, C21, C35 over a numbering of the unknowns of the file.
* C46, C47: a calculus of approximations (`Apx`: exact value, product of `k` factors in `[1/(1+u)…]`, an underflow
  term) follows the loops of the kernels; the same invariants as in C22, C34 and C29 with the rounded
  operations. `Binary.rounding` shows that IEEE binary formats satisfy the hypotheses.
* C48: restriction of the product `LDLᵀ` to leading submatrices (congruence by a unit triangular matrix).
  The theorems C46, C47, C48, C53, C57, C58, C75, C76 `_tridiagonal` follow from those on the general class, of which the class for block
  tridiagonal matrices is the case with empty blocks (C37).
* C49: C46 and C47 with converted numbers, one more rounding error per element of the matrix.
* C50: the calculus of C46 and C47 with the underflow error of a product split between the product and its
  subtraction; invariant that everything stored is a quotient or difference.
* C51: functions which respect the operations commute with every function of the model; applied to the evaluation of
  expressions. The regularization, which may branch on values, is one of the operations.
* C52: the multiplication run on tuples (computed value, exact value, value with absolute values, number of terms) with
  an invariant of the tuples; C32 and C33 for the components. The round trip composes with C47.
* C53: from the bound of C46; for the first pivot which is not positive, the vector `x` with `Lᵀx = e_k` would give a
  value of the form at most that pivot, up to `γ` times a sum of squares which Cauchy–Schwarz over the entries
  of a column bounds by the diagonal of the matrix. The underflow bound `ε` and finiteness are hypotheses on the computed factor.
* C54: closed form of the generator; its period from the order of the multiplier modulo powers of two. The pattern
  follows by invariants over the cells, validity of the template arguments from that and C44.
* C55: composition of C21, C25, C28 (unused regularization), C35 to C37, C39, C49, C52 and C54 along the test functors.
  Generating random values and solutions (`std::mt19937`, `std::normal_distribution`) and the comparison itself
  (Boost.Test, relative tolerance) are not modelled: values and solution are arbitrary, the functions of the model
  return both sides of the comparison.
* C56: element by element comparison with the matrix of second differences, whose quadratic form is a sum of squares of
  differences; C48 and C55.
* C57: one induction over the rows of an abstract elimination (`Lemmas/Forward`, indices of any type), which both
  methods and all classes are instances of: as long as the rows before satisfy the bounds, no intermediate value of the
  next row exceeds `4α` (Cauchy–Schwarz with the squares `l² d` of the row, which sum up to about the diagonal element),
  so nothing overflows and the argument of C53 applies to the rows up to this one.
* C58: the same kind of induction for the substitutions (`Lemmas/ForwardFinite`): as long as the components before are
  finite, the rounding errors are a perturbation in the weighted norms `Σ y²/d` and `Σ d z²`, which definiteness bounds by the
  norm of the right hand side, so the next component is finite too. `Lemmas/SolveLists` writes each component computed by
  the substitutions of the block classes as one list of subtractions.
* C59: positions and multiplicities in lists made by `flatMap`; the calls are unfolded and C55 is applied to each kind.
* C60: definiteness of a fixed matrix from the positive pivots of its shifted matrix, evaluated by the kernel (C48); the
  indefinite matrix from C35 and the equations for its two by two blocks. NOS4 is not covered: its smallest eigenvalue tends
  to about 1e-7 of its norm as the number of repetitions grows; for C59 its values do not matter.
* C61: the proofs of C52 for a pair of a sum and its bound in the range; both are instances of one homomorphism argument
  with four components (computed, exact, absolute values, count), `Lemmas/MultiplyFour`.
* C62: C61 gives a finite product, C58 a finite solution; the residuals of C52 and C58 are added and definiteness turns the
  residual into an error (`μ ‖e‖² ≤ eᵀAe`, in the 1-norm).
* C63: C62 with explicit constants for double precision, with definiteness from C56; the conditions on the constants are
  rational inequalities evaluated by the kernel. Factors of type `float` are not covered (the bound exceeds the tolerance),
  nor are normally distributed solutions (some component may be far smaller than the others).
* C64: each scanning function is characterised by the spellings it accepts (`Lemmas/Scan`), by splitting the text at the
  first character which does not belong to it; the rest is composition with C41. In `Model/Mtx` the scanner is a parameter
  which may report undefined behaviour; `textScanner` of `Model/Scan` is the one of the code.
* C65: placing an entry equals placing the moved entry (`mtxPlaceEntry_moved`), and moved entries are in the range of the
  invariant of C40 unless they overrun the block below the start, where the look-up reads beyond the row offsets.
* C66: the loop is an instance of C26 (history independence); printing is `flat` of C45 with headings; definiteness of the
  matrix of the file is carried over to the blocks by the bijection of rows and positions, then C48 applies. Reading for
  any arithmetic follows from C65 since every type with a zero has some addition (`Lemmas/AnyAddition`).
* C67: the loops by induction with C26; the exact solution by inserting it into C37_solve_unique (definiteness is C56).
  The programs in floating point are, by C26, C28_exchange and C49, those of a particular new object and a particular
  regularization, which the kernel evaluates in the arithmetic of `Spec/Binary`.
* C68: two executions are one execution with pairs of numbers (`Lemmas/Scaling*`; the projections commute with everything
  by the homomorphism theorems of C51). In that execution the values have weights (`Lemmas/Graded*`): differences keep the
  weight, products add and quotients subtract weights, so the recurrences give each value its weight by induction. The
  flags of `Spec/Scaling` record whether rounding with bounded and unbounded exponents differ in an operation.
* C69: the determinant by `L D Lᵀ` and the triangular determinant of Mathlib. Inertia is Sylvester's law
  (`Lemmas/Inertia`): on a space where the form is negative, the coordinates of `Lᵀ x` which belong to negative pivots
  determine `x`. The same lemma with eigenvectors in place of `L` gives the numbers of eigenvalues.
* C70: C26 for each repetition; the solution is that of C66.
* C71: the recurrences of both classes are brought into one form (`Lemmas/SameOperations`): rows with a total order, and
  for each entry the list, in order, of the entries whose products are subtracted. These lists are sorted, so they are
  equal if they have the same members (`Lemmas/Placed`), and equality of all values follows by induction over the rows;
  nothing about the arithmetic is used. Existence of the assembled pattern uses that the blocks are closed (C21).
* C72: correct rounding of `Format.round`, also in ties and at the upper end of the range (`Lemmas/Nearest`). Numerals are
  a number type whose numbers stand for rational numbers, and reading is a conversion from it, so C49 applies.
* C73: the recurrences of C25 and C71, with the sorted lists of entries identified (`Lemmas/MixedOperations` for the
  entry-wise method with an outer block). That the formulas determine the numbers is an induction over rows and columns.
* C75: the same induction as for C57 with other bounds (`Lemmas/ForwardQuasi`). Instead of positive pivots it uses that a
  quasidefinite matrix with the signs of one block of rows changed has a definite form (`quasi_sign`), so Schur complements
  and pivots are bounded from both sides (`Lemmas/QuasiRounding`); the bound of the growth is worse than for definite
  matrices. `quasiDef_of_dominant` gives a criterion in terms of the elements, used for the examples.
* C76: the induction of C58 with other bounds. The factors of C75 multiply to a matrix which still has a definite form after
  the change of signs, so that the norm of a vector is bounded by that of its product (`SignedDef.norm_le`); applied to the
  leading part of the matrix up to the largest component this bounds the forward substitution, and applied to a continued
  vector the backward substitution (`Lemmas/QuasiSolve`, `Lemmas/QuasiFinite`). The conditions contain the root of the number
  of rows and the square of the bound of the entries of the factor; they are sufficient, not necessary.
* C77: each line is accepted, has exactly one of the listed defects, cannot be scanned, or has undefined behaviour
  (`foreachLine_cases`); induction over the lines. C78: digits are not separators, so texts split in one way only.
* C79: every step with words is the step with numbers as long as the size in the file is below `2 ^ 64` (`Lemmas/Words`).
* C80: the formulas of C73 are evaluated twice with numbers related up to sign (`Lemmas/SignChange`); every operation keeps
  the relation but division by zero, which takes its sign from that of the zero. Hence the condition on pivots
  (`C80_nonzero_needed`).
* C81: the operations of an environment satisfy the error model `Rounding` of C46 to C58 once results which are too large are
  flagged (`Lemmas/Environment`); the bounds follow by instantiating those theorems, and the flags are removed by a
  homomorphism. Without flags the bound is false when rounding towards zero (`C81_overflow_unnoticed`). `C81_enclosed`, `C81_operations`, `C81_flag`, `C81_special` and
  `C81_flush` specify the operations themselves, independently of the error model.
* C82: from the bounds of residuals in C47 and C58 (`Lemmas/Nearby`: a vector with a small residual solves a nearby system;
  existence and uniqueness of the exact solution from definiteness, not from the algorithm). The forward error is in the
  1-norm, relative to the exact solution, as in C62.
* C83: pairs (floating point number, exact number) form an arithmetic whose projections are homomorphisms, so that the model executed
  with pairs is both executions at once (`C83_lockstep`). Exactness is tracked per value. As an error model the arithmetic of
  pairs has unit roundoff zero, hence `C83_solution` from the bound of residuals in C47.
* C84: from the formulas of C73: by induction over rows, rows of one matrix which are rows of another one have the same
  factor (`Lemmas/Parts`). Coupling is stated for the original pattern for single matrices, and for the pattern of the factor
  for repeating ones, where the pattern shared by all repetitions may couple more than the fill-in of one matrix (C17, C18).
* C85: from the formulas of C73 again: entries which only one of the factors has are zeros, and subtracting a product with a zero
  changes a number at most in the sign of zero (`Lemmas/Superset`, with the rules for zeros as a structure which fields and binary
  formats both satisfy). Finiteness of one of the two factors is required because zero times infinity is NaN: then more entries do
  make a difference.
* C86: the loops of the symbolic factorization add entries only for one of the reasons for which they must be in every pattern which
  is closed (`Lemmas/Least`: induction along the loops, besides the invariants for C17 to C21). For zero repetitions the pattern may be
  larger than needed, since the types do not depend on the number of repetitions.
* C87: rounding is monotone (`Format.round_mono`), so that all operations respect comparisons as in exact arithmetic where
  their operands have the right signs (`Lemmas/Comparison`); then by induction along the formulas of C73 (`Lemmas/ComparisonFactor`, for
  any arithmetic with these rules). `C87_entryWise` is a concrete case showing why the comparison of two matrices is limited to the
  up-looking method: entry-wise factorization multiplies the rounded quotient by the pivot again. This is not a bug, but
  a difference between the methods which callers can observe.
* C88: numbers of a program with extended precision are numbers of the wider format with a tag which encodes the history of
  the value, and tags decide which results are rounded to the type (`Spec/Extended`). They satisfy the error model of C46 to
  C58, with the unit roundoff of two roundings.
* C89: rounding twice differs from rounding once only if the intermediate result is in the middle between two numbers and the
  exact one is not (`Format.round_round`), and differences, products and quotients of numbers with less than half of the
  precision never are (`Lemmas/DoubleRounding`). Hence conversion to the wider format is a homomorphism, and the program
  computes the same. `C89_x87` shows that the condition on the precision is needed.
* C90: ways of evaluating a sum are trees (`Spec/AnyOrder`). Seen from the result, what is subtracted from is the result plus the
  terms, up to rounding errors (`SumTree.backward`). Programs with other orders are specified by the formulas of C73 for the
  whole matrix with the order left open, not by executing the model. `C90_in_order`, `C90_factor` and `C90_repeating` show that the
  model is one of these programs.
* C91: C75 and C76 for the arithmetics of C50, C88 and C81. In environments the flags which tell that a result was too large are
  part of the proof only: the conditions on matrix and right hand side ensure that none is raised.
* C92: the formulas of C90 with a relation in place of the quotient (`FormulasWith`, `SolveWith`); a product with a reciprocal
  has two rounding errors (`Rounding.Divides 2`). Arithmetics in which only some results can be stored (C50) are not covered.
* C93: the lemmas behind C53 and C75 need nothing but the bounds of the backward error (`NearFactors`). Other than in C75 it is a
  hypothesis that nothing overflows.
* C94: for quasidefinite matrices (definite ones are the case of a single group) the factorization does not overflow, by
  induction over rows and columns: the errors of the entries computed so far are small, hence these entries are bounded
  (`quasi_leading`), hence the next sum is finite in any order (`SumTree.fin_value`). That solutions are finite is
  a hypothesis here, and proved in C95.
* C95: solutions are finite, by induction over the rows: the numbers computed so far are bounded, hence the next sum is finite
  in any order with a small error, hence the numbers including the new one are bounded by the definiteness of the leading
  (forward) or trailing (backward) part of the computed factors (`Firm`, as for C76), and not by products of bounds of the entries.
* C96: C94 and C95 for the arithmetic of C88. Sums have the tags of differences (`Spec/ExtendedAdd`). Reciprocals are accurate if
  their size is that of normal numbers in both formats.
* C97: C94 and C95 for the environments of C81. They are proved for numbers with a flag for results which are too large
  (`C97_overflow`) and carried over to numbers without it (`C97_quasidefinite`): whatever trees and products the formulas were
  evaluated with, the same can be done with flags, entry by entry in the order in which they depend on each other
  (`Lemmas/EnvironmentLift`). That reciprocals of pivots are not subnormal has to be assumed (`C97_reciprocal_flushed`).

## Seeded bugs

`seeded/LOG.jsonl` has one line for each realistic wrong edit of a definition of the model tried in a scratch copy, with
the claim which the edit breaks and the theorems (or the lemmas below them) which then failed to build. Where a theorem
still proved although its claim had become false, it was tightened: `C25_repeating_total`, the `C49_*` theorems,
`C01_identity`, `C01_equality`, `C15_blocked2x2_unpermuted`, `C12_dimensions`, `C72_invalid`, `C72_infinite`, `C72_fused` and
`C78_contract_given` were added or changed for that reason.
Besides the edits made by hand, the log has edits made by a program (ids beginning with `auto_`): in the definitions of the
model it replaces operators, constants and names by others of the same type. Edits after which everything still builds were
looked at one by one; the log says why the edited definition does the same as the original one.

## Findings (disagreements between the code and what a user would expect)

1. `mtxAddEntryOuterSubdiag` reduces the *row* modulo the inner block size: wrong place (or spurious
   error) for outer rows `>= dim_tridiag` (`C40_outer_row_misplaced`).
2. `mtxAddEntryTridiag` accepts entries two or more blocks below the diagonal and stores them in the
   subdiagonal block of their column (`C40_far_block_accepted`).
3. `mtxAddEntryStart` reads row offsets out of range for an entry that couples start columns with a
   tridiagonal block other than the first (`C40_start_row_undefined`).
   Because of 1 to 3 the full claim C40 is false of the code; `C40_placed_partial` proves it for files
   without such entries, `C40_small` for dimensions where they cannot occur.
4. `isChordalBlocked` compares numbers of non-zeros: duplicates can hide missing fill-in
   (`C19_duplicates_wrong`).
5. The comment in `get_entries_with_fill.hpp` that sorting is not needed for correctness is wrong: the
   numeric kernels need rows sorted by column.
6. Duplicate input entries: `factorize` uses the first, `multiply` sums them (`C36_repeated_entry_differs`);
   entries above the diagonal likewise (`C36_upper_entry_differs`).
7. `factorizePartialUpLooking` has no check that input non-zeros are in the declared pattern, so
   undeclared non-zeros of outer blocks are silently ignored (`C38_outer_accepted`, `C38_outer_ignored` in
   general, `C38_outer_not_rejected` as a witness).
8. `UniformIntDistribution(a, b)` never returns `b` for `a < b` (`C44_uniform_bounds`), hence `shuffle` never moves
   the last element (`C44_last_stays`).
9. Reading a matrix file for an empty repeating block divides by zero (`C41_zero_block_undefined`); `block` with
   block size zero too (`C39_block_zero`).
10. The multiplication of a repeating block matrix does not check the number of its outer blocks
    (`C33_outer_count_unchecked`).
11. `invertPermutation` writes out of range if an index is not less than the length
    (`C01_invert_out_of_range`).
12. In the random tests of the arrowhead class the permutations of start and repeating block are shuffled with the
    same generator state, so they coincide whenever the dimensions do (`C54_arrowhead`).
13. `contracts.hpp`: the default arguments `std::source_location{}` of `pre`, `post` and `contract_assert_` are empty
    locations, not that of the caller (`std::source_location::current()`), so messages about violated contracts do not
    say where (`C78_contract_location`).
14. `operator+` and `operator^` for function test sets (`TestSetFunction`) would not compile when used (the deduction of
    the class template arguments gives an empty pack); the tests use them for template test sets only. `operator^` drops
    instances silently if the lengths differ (`C59_zip`). (The first by reading.)
15. NOS2 in the tests and in `examples/nos2` is indefinite for every positive number of repetitions
    (`C60_nos2_indefinite`), while the matrix NOS2 of the literature is positive definite: the second and third rows of `B`
    seem to be exchanged relative to those of `A`. The test still passes because no pivot happens to be small.
16. The test with the indefinite matrix returns a solution whose relative error is `c |v_first| / |v_second|`
    (`C60_indefinite`). It passes only if this ratio of elements of the solution is below about `eps^(-1/4)` (54 for
    `float`), which for normally distributed solutions is a matter of the fixed seed.
17. The reader of matrix files accepts integers with a minus, modulo `2^64` (`C64_negative_accepted`), splits a fraction in
    place of the column into column and value (`C64_fraction_split`), ignores the rest of a line, so that complex
    matrices are read as their real parts (`C64_rest_ignored`), and throws for empty lines, also at the end of the file
    (`C64_empty_line`). Integers which do not fit are undefined behaviour of `sscanf` (`C64_too_large`).
18. The programs of `examples/repeating/example_mtx.cpp` print ones if the number of iterations is zero
    (`C66_zero_iterations`, `C74_zero`). A negative number is accepted and taken modulo 2^64 (`C74_number`); an argument
    without a number or with one which is too large ends them with an exception which is not caught (`C74_no_number`,
    `C74_large_number`), and a file which cannot be opened is reported as one without sizes (`C74_missing`).
19. The examples with an indefinite matrix in single precision print solutions wrong in the fourth digit, for example
    0.999655 in place of 1: the constant of the regularization, about 0.000345, is the relative error (`C67_indef`,
    `C67_indef_single`). The lines depend on the method and on the last bit of the constant.
20. `factorial` wraps around at 2^64 from the argument 21 on. `enumeratePermutationsStatic` and
    `enumeratePermutationsDynamic` then miss permutations (`C02_enumeration_wraps`) and return nothing at all for 66 and
    more elements (`C02_enumeration_empty`). The tests enumerate at most three elements.
21. `RegularizationSmallPositiveConstant` compares pivots with fixed constants: multiplying a matrix by a power of two
    changes the digits of the solution (`C68_fixed_constants`), while without regularization it does not (C68).
22. `benchmark_mtx.cpp`: in `benchmarkSolve` and `benchmarkCombined` the variable `factorization_B_data` points to the
    diagonal blocks again and not to the subdiagonal ones, so that only one of the two is kept from being optimized. No
    effect on the numbers computed. (By reading.)
