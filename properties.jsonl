{"id": "C01", "title": "Inverting a permutation really inverts it", "statement": "For every valid permutation p, invertPermutation(p) is a valid permutation q of the same size with q[p[i]] = i and p[q[i]] = i for every index, and inverting twice returns p. No element access leaves the arrays. A default-constructed permutation is the identity and its own inverse, and two permutations compare equal exactly if they have the same size and the same elements.", "quantifier": "every size n and every permutation of 0..n-1", "why_tests_cant": "Tests invert a few fixed permutations; the n! permutations of every n cannot be enumerated.", "anchors": ["ctldl/permutation/invert_permutation.hpp: invertPermutation", "ctldl/permutation/permutation.hpp: PermutationDynamic, PermutationStatic"]}
{"id": "C02", "title": "Enumerating permutations yields each one exactly once", "statement": "For n up to 20, enumeratePermutationsStatic/Dynamic(n) returns n! permutations, starting from the identity, in strictly increasing lexicographic order; every permutation of 0..n-1 appears in the result and none appears twice. For larger n the count n! wraps around at 2^64: what is returned are permutations in strictly increasing order, but only n! mod 2^64 of them, and none at all for n of 66 and more.", "quantifier": "every size n", "why_tests_cant": "Exhaustive listing is only possible for tiny n; the successor step must be right for every arrangement.", "anchors": ["ctldl/permutation/permutation_enumeration.hpp: enumeratePermutationsDynamic", "ctldl/permutation/factorial.hpp: factorial"]}
{"id": "C03", "title": "Sparsity construction rejects exactly the out-of-range patterns", "statement": "Constructing a SparsityDynamic from dimensions and an entry list fails with a contract violation if and only if some entry has row >= num_rows or column >= num_cols; otherwise dimensions, number of non-zeros and entries are exactly those given.", "quantifier": "all dimensions and all entry lists", "why_tests_cant": "A test can only try individual lists; the claim is an equivalence over all lists.", "anchors": ["ctldl/sparsity/sparsity.hpp: SparsityDynamic, InBounds", "ctldl/utility/contracts.hpp: pre"]}
{"id": "C04", "title": "Conversion to compressed rows keeps every entry, in order", "statement": "Building a compressed-row sparsity from any in-range entry list (any order, duplicates allowed) succeeds; the row view of row i is precisely the subsequence of the given entries with that row in their given order, so no entry is lost, duplicated or moved between rows, and no array access is out of range.", "quantifier": "all dimensions, all in-range entry lists, all row indices", "why_tests_cant": "The counting sort has to be right for every order and multiplicity of entries.", "anchors": ["ctldl/sparsity/get_entries_csr.hpp: getRowCounts, getRowBeginIndices, getEntriesCSR", "ctldl/sparsity/sparsity_csr.hpp: SparsityDynamicCSR::rowView"]}
{"id": "C05", "title": "Structural look-ups are exact", "statement": "For every compressed-row sparsity built from an in-range entry list, isNonZero(i, j) is true exactly if (i, j) is one of the entries, and entryIndex(i, j) of a stored entry is an index whose entry is (i, j); with no duplicates it is the only such index. Asking entryIndex for an entry that is not stored trips the assertion.", "quantifier": "all sparsities, all row indices in range, all column indices", "why_tests_cant": "Look-ups are exercised only on a handful of patterns by tests.", "anchors": ["ctldl/sparsity/sparsity_csr.hpp: find, isNonZero, entryIndex"]}
{"id": "C06", "title": "Permuting a sparsity pattern relabels it and nothing else", "statement": "For valid row and column permutations, the permuted sparsity contains (i, j) exactly if the original contains (row_perm[i], col_perm[j]); multiplicities are kept, dimensions are kept, and construction never fails its range check. Permuting entries back recovers the original entries.", "quantifier": "all in-range sparsities and all pairs of permutations", "why_tests_cant": "The property is quantified over all pattern/permutation pairs.", "anchors": ["ctldl/sparsity/sparsity_permuted.hpp: getSparsityDynamicPermuted", "ctldl/permutation/permuted_entry.hpp: permutedEntry"]}
{"id": "C07", "title": "Symmetric lower-triangle permutation keeps exactly the strictly lower pattern", "statement": "For a square sparsity and a valid permutation p, the lower-triangle sparsity contains (i, j) exactly if i > j and the original contains the strictly-lower entry {max(p[i],p[j]), min(p[i],p[j])}; diagonal and strictly-upper input entries are dropped, everything produced is strictly lower, and the map back to original coordinates is a two-sided inverse.", "quantifier": "all square sparsities (any entry order, with or without diagonal/upper entries) and all permutations", "why_tests_cant": "Tests try few permutations of few matrices.", "anchors": ["ctldl/sparsity/sparsity_lower_triangle.hpp: getSparsityDynamicLowerTriangle", "ctldl/permutation/permuted_entry_lower_triangle.hpp: permutedEntryLowerTriangle"]}
{"id": "C08", "title": "Sparsity subset and equality checks decide set inclusion", "statement": "For equal dimensions and valid permutations, isSparsitySubset(lhs, rhs, pr, pc) is true exactly if every entry of lhs, relabelled by the permutations, is an entry of rhs; isSparsitySubsetLowerTriangle does so for the strictly lower part under a symmetric permutation; isSparsityEqual is true exactly if both contain the same set of entries. Different dimensions are reported as a contract violation. The marking array used internally never leaks marks between rows.", "quantifier": "all pairs of in-range sparsities (duplicates allowed) and all permutations", "why_tests_cant": "The checks guard compile-time assertions; a wrong answer on one untested pattern silently admits or rejects a program.", "anchors": ["ctldl/sparsity/is_sparsity_subset.hpp: isSparsitySubset, isSparsitySubsetLowerTriangle", "ctldl/sparsity/is_sparsity_equal.hpp: isSparsityEqual"]}
{"id": "C09", "title": "Contribution lists are exact", "statement": "For rows sorted by column, the contributions to entry (i, j) are exactly the columns k below the column limit that are present both in row i of the one pattern and in row j of the other, each once, in increasing order, and each carries the indices of precisely those two entries.", "quantifier": "all sorted sparsities, all row pairs, all column limits", "why_tests_cant": "The two-pointer merge must be right for all interleavings of two rows.", "anchors": ["ctldl/sparsity/get_contributions.hpp: foreachContributingEntry, getContributionsMixed, getContributionsLowerTriangle, getContributionsRectangular"]}
{"id": "C10", "title": "Influenced lists are exact", "statement": "The entries influenced by entry (i, j) are exactly, for each row k (below i in the lower-triangle variant) with (k, j) in the source pattern, the pair of indices of (k, j) in the source and (i, k) in the target, each once; the look-up assertions never fire if the target contains all those (i, k), and do fire if one is missing.", "quantifier": "all sparsities and all entry positions", "why_tests_cant": "Quantifies over all pattern pairs.", "anchors": ["ctldl/sparsity/get_influenced.hpp: getInfluencedList, getInfluencedListLowerTriangle"]}
{"id": "C11", "title": "Matrix value look-up returns the stored value or zero", "statement": "Looking up (i, j) in a sparse matrix returns the value belonging to the first stored entry with that position and zero if there is none; with duplicate-free patterns this is the value of that matrix element.", "quantifier": "all matrices and all positions", "why_tests_cant": "Quantifies over all matrices.", "anchors": ["ctldl/sparsity/get_matrix_value_at.hpp: getMatrixValueAt"]}
{"id": "C12", "title": "Elimination tree is the mathematically defined one", "statement": "For every strictly lower-triangular pattern, in any entry order and with duplicates, the computed parent of column j is the smallest row index i > j such that (i, j) is non-zero after fill-in, and j is a root exactly if there is none. The computation terminates and stays in bounds although it shortens paths on the way.", "quantifier": "all sizes and all strictly lower patterns", "why_tests_cant": "The path-compressed algorithm has to agree with the fill-in definition on every graph.", "anchors": ["ctldl/symbolic/compute_elimination_tree.hpp: computeEliminationTree", "ctldl/symbolic/add_row_elimination_tree.hpp: addRowEliminationTree"]}
{"id": "C13", "title": "Blocked elimination tree equals that of the assembled matrix", "statement": "The elimination tree computed from a 2x2 or 3x3 partition of a symmetric matrix into blocks is the tree of the assembled matrix; inconsistent block dimensions are reported as contract violations.", "quantifier": "all block dimensions (including zero) and all block patterns", "why_tests_cant": "Quantifies over all partitions and patterns.", "anchors": ["ctldl/symbolic/compute_elimination_tree_blocked.hpp: computeEliminationTreeBlocked"]}
{"id": "C14", "title": "Filled-in sparsity is exactly the fill-in of elimination", "statement": "getFilledInSparsity(sparsity, permutation) succeeds for every square sparsity and permutation and contains (i, j) exactly if (i, j) belongs to the smallest strictly-lower pattern that contains the permuted input and is closed under elimination; the entries are in strictly increasing row-major order, hence without duplicates.", "quantifier": "all sizes, all patterns, all permutations", "why_tests_cant": "Minimality and completeness are statements about all eliminations; a missing entry corrupts memory silently in release builds.", "anchors": ["ctldl/symbolic/filled_in_sparsity.hpp: getFilledInSparsity", "ctldl/symbolic/get_entries_with_fill.hpp: getEntriesWithFill", "ctldl/symbolic/foreach_nonzero_with_fill.hpp: foreachNonZeroWithFill"]}
{"id": "C15", "title": "Blocked filled-in sparsity consists of the blocks of the assembled fill-in", "statement": "getFilledInSparsityBlocked (2x2 with and without permutations, 3x3) returns, for every block of the lower triangle, exactly the block of the fill-in pattern of the assembled permuted matrix, row-major sorted and duplicate-free.", "quantifier": "all block dimensions, all patterns, all per-block permutations", "why_tests_cant": "Quantifies over all partitions, patterns and permutations.", "anchors": ["ctldl/symbolic/filled_in_sparsity_blocked.hpp: getFilledInSparsityBlocked", "ctldl/symbolic/foreach_nonzero_with_fill_blocked.hpp: foreachNonZeroWithFillBlocked"]}
{"id": "C16", "title": "The repeating elimination tree iteration terminates at a fixed point", "statement": "For all square diagonal-block and subdiagonal-block patterns the fixed-point loop for the repeating block tridiagonal elimination tree stops after at most dim*dim + 1 iterations, never underflows an index, and the tree it stops with reproduces itself when one more block is appended.", "quantifier": "all block dimensions and all patterns of the two blocks", "why_tests_cant": "Termination of a while(true) loop for all inputs is not testable.", "anchors": ["ctldl/symbolic/compute_elimination_tree_repeating.hpp: computeEliminationTreeRepeating"]}
{"id": "C17", "title": "Repeating fill-in covers every number of repetitions", "statement": "The diagonal, subdiagonal and outer patterns returned by getFilledInSparsityRepeatingArrowhead contain, for every number of repetitions N, every block and every position, all non-zeros of the fill-in of the assembled block tridiagonal arrowhead matrix with N repetitions.", "quantifier": "all patterns, all permutations, every N, every block index", "why_tests_cant": "N is unbounded; tests use a few N.", "anchors": ["ctldl/symbolic/filled_in_sparsity_repeating_arrowhead.hpp: getFilledInSparsityRepeatingArrowhead", "ctldl/symbolic/foreach_nonzero_with_fill_repeating_arrowhead.hpp"]}
{"id": "C18", "title": "Repeating fill-in is not larger than necessary", "statement": "Every entry of the patterns returned by getFilledInSparsityRepeatingArrowhead is a fill-in non-zero of some block of the assembled matrix for all sufficiently large numbers of repetitions; the patterns are sorted and duplicate-free.", "quantifier": "all patterns, all permutations", "why_tests_cant": "Asserts existence of a repetition count for each entry of each pattern.", "anchors": ["ctldl/symbolic/filled_in_sparsity_repeating_arrowhead.hpp", "ctldl/symbolic/compute_elimination_tree_repeating.hpp"]}
{"id": "C19", "title": "The chordality check is true exactly for patterns without fill-in", "statement": "For duplicate-free block patterns, isChordalBlocked returns true exactly if the diagonal blocks are strictly lower triangular and eliminating the assembled matrix creates no new non-zero. (For patterns with duplicates the answer can be wrong.)", "quantifier": "all block dimensions and duplicate-free patterns", "why_tests_cant": "The check is used as a static assertion guarding memory safety; it must be right on all patterns.", "anchors": ["ctldl/symbolic/is_chordal_blocked.hpp: isChordalBlocked"]}
{"id": "C20", "title": "Re-wrapping an already permuted filled-in pattern is lossless", "statement": "For a pattern that is strictly lower, closed under elimination and row-major sorted, the type obtained by un-permuting it and letting Factorization permute and fill it in again has exactly the same pattern in the same order.", "quantifier": "all closed patterns and all permutations", "why_tests_cant": "Quantifies over all closed patterns and permutations.", "anchors": ["ctldl/factor_data/factorization_already_permuted.hpp: FactorizationAlreadyPermuted", "ctldl/factor_data/factorization.hpp: Factorization::sparsity"]}
{"id": "C21", "title": "Every consistent arrowhead sparsity can be instantiated and is closed", "statement": "For every dimension-consistent sparsity description with valid permutations, all factor block patterns of FactorizationRepeatingBlockTridiagonalArrowheadLinked are computed without contract violation, contain the (permuted) user patterns, and are closed under block elimination, so that every static assertion in the factorization (chordality and subset for the declared sparsity) holds and every look-up of an updated entry succeeds.", "quantifier": "all dimensions, all patterns of the nine blocks, all four permutations", "why_tests_cant": "Each test instantiates a few types; the claim is about every instantiation.", "anchors": ["ctldl/factor_data/factorization_repeating_block_tridiagonal_arrowhead_linked.hpp: FactorizationRepeatingBlockTridiagonalArrowheadLinked", "ctldl/factor_data/sparsity_to_factorize_tridiagonal_arrowhead_linked.hpp"]}
{"id": "C22", "title": "Up-looking factorization reproduces the matrix", "statement": "In exact arithmetic, if all pivots are non-zero, Factorization::factorize with the up-looking method yields L and D with L D L^T equal to the permuted symmetric matrix plus a diagonal perturbation which is exactly the change made by the regularization to each pivot.", "quantifier": "all fields, sizes, patterns, permutations, matrix values, regularizations, previous contents of the factor object", "why_tests_cant": "Tests check a few matrices numerically up to tolerance.", "anchors": ["ctldl/factorize/factorize_up_looking.hpp: factorizeUpLooking", "ctldl/factor_data/factorization.hpp: Factorization::factorize"]}
{"id": "C23", "title": "Entry-wise factorization reproduces the matrix", "statement": "In exact arithmetic, if all pivots are non-zero, Factorization::factorize with the entry-wise method yields L and D with L D L^T equal to the permuted symmetric matrix plus the diagonal perturbation made by the regularization.", "quantifier": "all fields, sizes, patterns, permutations, matrix values, regularizations, previous contents", "why_tests_cant": "Tests check a few matrices numerically up to tolerance.", "anchors": ["ctldl/factorize/factorize_entry_wise.hpp: factorizeEntryWise", "ctldl/factor_data/factorization.hpp: Factorization::factorize"]}
{"id": "C24", "title": "Both factorization methods agree", "statement": "In exact arithmetic the up-looking and entry-wise methods give identical L and D for the same input, also with a neighbouring block to the left.", "quantifier": "all fields, patterns, values and regularizations for which the pivots are non-zero", "why_tests_cant": "Quantifies over all inputs; the algorithms access memory in entirely different orders.", "anchors": ["ctldl/factorize/factorize_method.hpp", "ctldl/factorize/factorize_up_looking.hpp", "ctldl/factorize/factorize_entry_wise.hpp"]}
{"id": "C25", "title": "Factorization never touches memory out of bounds", "statement": "For every arithmetic (including floating point with zero pivots, infinities or NaNs) factorize, with either method, performs only in-range accesses and raises no assertion, for every declared pattern, permutation and input values.", "quantifier": "all arithmetics, patterns, permutations, values, previous contents", "why_tests_cant": "Release builds do not check bounds; absence of out-of-range access is universally quantified.", "anchors": ["ctldl/factorize/factorize_up_looking.hpp", "ctldl/factorize/factorize_entry_wise.hpp", "ctldl/factorize/factor_initialization.hpp"]}
{"id": "C26", "title": "Re-factorizing does not depend on history", "statement": "For every arithmetic, the result of factorize depends only on the input matrix and the regularization and not on what the factor object contained before (earlier factorizations or uninitialized storage), for single and for repeating factorizations and both methods.", "quantifier": "all arithmetics, inputs and pairs of previous contents", "why_tests_cant": "Histories are unbounded; tests re-factorize at most a few times.", "anchors": ["ctldl/factor_data/factorization.hpp: Factorization::factorize", "ctldl/factorize/factor_initialization.hpp: initializeFactorRow", "ctldl/factor_data/factorization_repeating_block_tridiagonal_arrowhead_linked.hpp: factorize"]}
{"id": "C27", "title": "Only the lower triangle of the input matters", "statement": "Strictly upper entries of a matrix given to factorize have no influence on the result: two inputs agreeing on the lower triangle including the diagonal give the same factor.", "quantifier": "all arithmetics and all pairs of inputs agreeing on the lower triangle", "why_tests_cant": "Quantifies over all values of ignored entries.", "anchors": ["ctldl/factorize/factor_initialization.hpp: getInitialFactorValueL", "ctldl/factor_data/factorization.hpp: origEntry"]}
{"id": "C28", "title": "Small positive constant regularization bounds pivots away from zero", "statement": "With RegularizationSmallPositiveConstant every resulting pivot has magnitude at least the smaller of tolerance and replacement constant, a pivot is changed only if its magnitude was below the tolerance, and then it becomes the constant; so factorize and solve never divide by zero and solve exactly solves the matrix whose diagonal was perturbed at those pivots only. RegularizationNone never changes a pivot. In any arithmetic, if no pivot of the unregularized factorization has a magnitude below the tolerance, or if the constant is not among the resulting pivots, then the factor is the one without regularization.", "quantifier": "all ordered fields and all inputs", "why_tests_cant": "Quantifies over all matrices including singular ones.", "anchors": ["ctldl/factorize/regularization_small_positive_constant.hpp", "ctldl/factorize/regularization_none.hpp"]}
{"id": "C29", "title": "Solving with a single factor solves the linear system", "statement": "In exact arithmetic with non-zero pivots, after Factorization::factorize the in-place solve replaces b by x with (A + E) x = b in the original ordering, where A is the symmetric matrix read from the lower triangle and E the diagonal regularization; with unchanged pivots A x = b.", "quantifier": "all fields, sizes, patterns, permutations, values, right-hand sides, both methods", "why_tests_cant": "Tests check residuals for a few matrices and tolerances.", "anchors": ["ctldl/factor_data/factorization.hpp: solveInPlace", "ctldl/solve/solve_forward_substitution.hpp", "ctldl/solve/solve_backward_substitution.hpp"]}
{"id": "C30", "title": "The computed solution does not depend on the permutation or method", "statement": "In exact arithmetic, with unregularized non-zero pivots for both choices, solving with two different permutations and/or methods gives the same solution.", "quantifier": "all pairs of permutations and methods, all inputs", "why_tests_cant": "Quantifies over n! squared permutation pairs.", "anchors": ["ctldl/factor_data/factorization.hpp: solveInPlace"]}
{"id": "C31", "title": "Block substitutions subtract the right products", "statement": "Forward substitution with an off-diagonal block subtracts block*solution from the partial solution and backward substitution subtracts transpose(block)*solution, in original ordering, leaving the other vector unchanged; the diagonal versions invert multiplication with the unit lower triangular factor and its transpose in place.", "quantifier": "all patterns, permutations, values, vectors", "why_tests_cant": "Quantifies over all inputs.", "anchors": ["ctldl/solve/solve_forward_substitution.hpp: solveForwardSubstitution", "ctldl/solve/solve_backward_substitution.hpp: solveBackwardSubstitution"]}
{"id": "C32", "title": "Sparse multiplication adds the right product", "statement": "multiply adds A*x (normal), transpose(A)*x (transposed) or the symmetric product defined by the lower triangle including diagonal (symmetric) to the right-hand side; duplicates are summed; nothing else is changed.", "quantifier": "all matrices (any entry order, duplicates), all vectors", "why_tests_cant": "Quantifies over all matrices and vectors.", "anchors": ["ctldl/matrix/multiply.hpp: multiply", "ctldl/matrix/multiply_kind.hpp"]}
{"id": "C33", "title": "Repeating multiplication is multiplication with the assembled matrix", "statement": "multiplyRepeatingBlockTridiagonal and multiplyRepeatingBlockTridiagonalArrowheadLinked add the product of the assembled symmetric block matrix with the given vector, for every number of repetitions. Inconsistent numbers of tridiagonal blocks are reported as contract violations (by the tridiagonal function before anything is modified); the number of outer blocks is not checked.", "quantifier": "all block dimensions, patterns, values, vectors, every number of repetitions", "why_tests_cant": "Number of repetitions is unbounded.", "anchors": ["ctldl/matrix/multiply_repeating_block_tridiagonal.hpp", "ctldl/matrix/multiply_repeating_block_tridiagonal_arrowhead_linked.hpp"]}
{"id": "C34", "title": "Arrowhead factorization reproduces the assembled matrix", "statement": "In exact arithmetic with non-zero pivots, factorize of FactorizationRepeatingBlockTridiagonalArrowheadLinked yields block factors whose assembled L D L^T equals the assembled, block-permuted matrix plus the diagonal regularization, for every number of repetitions and both methods.", "quantifier": "all fields, dimensions, patterns, permutations, values, every number of repetitions, previous contents", "why_tests_cant": "The number of repetitions and the patterns are unbounded.", "anchors": ["ctldl/factor_data/factorization_repeating_block_tridiagonal_arrowhead_linked.hpp: factorize", "ctldl/factorize/factorize_up_looking.hpp: factorizePartialUpLooking"]}
{"id": "C35", "title": "Arrowhead solve solves the assembled system", "statement": "After such a factorize, solveInPlace replaces the block right-hand side b by x with (A + E) x = b for the assembled matrix in original ordering; with unchanged pivots A x = b. forwardSolve, diagonalSolve and backwardSolve invert L, D and L^T respectively.", "quantifier": "all fields, dimensions, patterns, permutations, values, right-hand sides, every number of repetitions", "why_tests_cant": "Unbounded repetitions and all patterns.", "anchors": ["ctldl/factor_data/factorization_repeating_block_tridiagonal_arrowhead_linked.hpp: solveInPlace, forwardSolve, diagonalSolve, backwardSolve"]}
{"id": "C36", "title": "Multiply then solve is the identity", "statement": "In exact arithmetic with unregularized non-zero pivots, multiplying any x by the matrix (starting from zero) and solving returns x, for single and repeating arrowhead matrices whose lower-triangular patterns have no duplicates. With duplicate entries this can fail.", "quantifier": "all such matrices and all vectors", "why_tests_cant": "Round trips over all inputs.", "anchors": ["ctldl/matrix/multiply.hpp", "ctldl/factor_data/factorization.hpp", "ctldl/factor_data/factorization_repeating_block_tridiagonal_arrowhead_linked.hpp"]}
{"id": "C37", "title": "The plain repeating block tridiagonal class is the arrowhead class without arrow", "statement": "FactorizationRepeatingBlockTridiagonal factorizes and solves the assembled block tridiagonal matrix for every number of repetitions; its result is that of the arrowhead class with empty start, link and outer blocks.", "quantifier": "all patterns, values, right-hand sides, every number of repetitions", "why_tests_cant": "Unbounded repetitions.", "anchors": ["ctldl/factor_data/factorization_repeating_block_tridiagonal.hpp: FactorizationRepeatingBlockTridiagonal"]}
{"id": "C38", "title": "Input matrices with undeclared non-zeros are rejected", "statement": "Factorizing an input whose pattern has a (lower triangular) non-zero outside the declared filled-in pattern is rejected at compile time instead of silently ignoring the value. (Holds for the blocks handled by factorize; the outer blocks of the arrowhead class lack the check.)", "quantifier": "all pairs of declared and actual pattern", "why_tests_cant": "Quantifies over all pattern pairs.", "anchors": ["ctldl/factorize/factorize_up_looking.hpp: factorizeUpLooking, factorizePartialUpLooking", "ctldl/factorize/factorize_entry_wise.hpp: factorizeEntryWise"]}
{"id": "C39", "title": "Blocking and flattening vectors are inverse to each other", "statement": "block cuts a flat vector whose size is a multiple of the block size into consecutive blocks whose concatenation is the vector; flatten concatenates; both round trips are the identity. A remainder is silently cut off, and a zero block size is undefined.", "quantifier": "all vectors and block sizes", "why_tests_cant": "Quantifies over all vectors.", "anchors": ["ctldl/vector/block.hpp: block", "ctldl/vector/flatten.hpp: flatten"]}
{"id": "C40", "title": "Reading a matrix file places each value at its own position", "statement": "Reading a Matrix Market file into the repeating arrowhead form stores the value of each file entry at the block and position that correspond to its global row and column (last one wins for repeated positions), leaves every other stored value zero, and throws if an entry has no place in the declared pattern. (Violated for outer rows beyond the tridiagonal block size and for entries two or more blocks off the diagonal.)", "quantifier": "all dimensions, declared patterns, all files", "why_tests_cant": "Quantifies over all files.", "anchors": ["ctldl/fileio/mtx_file_read_repeating_block_tridiagonal_arrowhead_linked.hpp: mtxFileReadRepeatingBlockTridiagonalArrowheadLinked"]}
{"id": "C41", "title": "Matrix file format errors are detected", "statement": "The reader throws for non-square sizes, sizes not of the form start + (N+1)*block + link + outer, unreadable header or entry lines, indices outside 1..size, and an entry count different from the announced one; a file without these defects is traversed entirely, every entry being delivered exactly once, in order, with indices reduced by one.", "quantifier": "all files", "why_tests_cant": "Quantifies over all files.", "anchors": ["ctldl/fileio/mtx_foreach_entry.cpp: mtxForeachEntry", "ctldl/fileio/mtx_read_header.cpp: mtxReadHeader", "ctldl/fileio/mtx_check.cpp: mtxCheck"]}
{"id": "C42", "title": "Dimension consistency checks accept exactly consistent descriptions", "statement": "all_equal is true exactly if all elements are equal, and the sparsity descriptions report consistent dimensions exactly if all block row/column counts and permutation sizes belonging to the same dimension agree; the dimension accessors then return that value and otherwise report a contract violation.", "quantifier": "all descriptions", "why_tests_cant": "Quantifies over all descriptions.", "anchors": ["ctldl/utility/all_equal.hpp", "ctldl/factor_data/sparsity_to_factorize_tridiagonal_arrowhead_linked.hpp: has_consistent_dim_*"]}
{"id": "C43", "title": "Boolean matrix conversion lists exactly the true cells", "statement": "Converting a boolean matrix to sparse entries lists each true cell exactly once in row-major order and its internal count assertion never fires.", "quantifier": "all boolean matrices", "why_tests_cant": "Quantifies over all matrices.", "anchors": ["ctldl/sparsity/bool_matrix.hpp: getNumNonZero, makeSparseEntriesFromBoolMatrix"]}
{"id": "C44", "title": "Random test permutations are permutations", "statement": "Shuffling with the test generator always yields a rearrangement of the input within bounds, for every seed and length, so the procedural test permutations are valid; the distribution stays in [a, b]. (It never returns b unless a = b.)", "quantifier": "all seeds, all lengths", "why_tests_cant": "2^64 seeds and all lengths.", "anchors": ["tests/utility/random/shuffle.hpp", "tests/utility/random/uniform_int_distribution.hpp", "tests/utility/random/linear_congruence_generator.hpp"]}
{"id": "C45", "title": "From a matrix file to the solution of its system of equations", "statement": "A Matrix Market file of the right size whose entries are in the declared pattern (and looked for in the right place, see C40) is read into a matrix which every factorization object constructed for the number of repetitions of the file can factorize, with any arithmetic, method and regularization; without regularization, in exact arithmetic and with no zero pivot, solving then returns the one and only solution of the system whose matrix is the symmetric matrix of the file and whose right-hand side is the given one, block after block.", "quantifier": "all dimensions, declared patterns and permutations, all files, all right-hand sides, both methods", "why_tests_cant": "Quantifies over all files and right-hand sides; tests read two files.", "anchors": ["ctldl/fileio/mtx_file_read_repeating_block_tridiagonal_arrowhead_linked.hpp: mtxFileReadRepeatingBlockTridiagonalArrowheadLinked", "ctldl/factor_data/factorization_repeating_block_tridiagonal_arrowhead_linked.hpp: factorize, solveInPlace"]}
{"id": "C46", "title": "Rounding errors of the factorization are bounded", "statement": "In floating point arithmetic (any number type whose finite results are exact up to a relative error u and an underflow error eta, in particular IEEE binary formats), if the computed pivots are finite (and come from finite values if the regularization is not one of the library), then the product of the computed factors equals the permuted matrix, plus the changes made by the regularization, up to at most gamma(n+2) times the product of the absolute values of the factors in each element, where n is the number of stored entries in a row and gamma(k) <= k u / (1 - k u), plus an underflow term. This holds for both methods, single matrices and all numbers of repetitions of both repeating classes.", "quantifier": "all number types satisfying the standard model, all patterns, permutations, matrices, numbers of repetitions, regularizations, both methods", "why_tests_cant": "Tests compare with tolerances on particular matrices; the bound is for all matrices and sizes.", "anchors": ["ctldl/factorize/factorize_up_looking.hpp", "ctldl/factorize/factorize_entry_wise.hpp", "ctldl/factor_data/factorization_repeating_block_tridiagonal_arrowhead_linked.hpp: factorize"]}
{"id": "C47", "title": "Rounding errors of solving are bounded", "statement": "In floating point arithmetic, if the computed pivots (and the values they come from if the regularization is not one of the library) and the computed solution are finite, then the residual of the computed solution with the computed factors is in each element at most gamma(n+m+3) times the product of the absolute values of the factors and of the solution, where n and m bound the number of stored entries in a row and a column of the factor, plus an underflow term; together with the previous property this bounds the residual of the given system, for single matrices and both repeating classes. The three parts forwardSolve, diagonalSolve and backwardSolve have corresponding bounds.", "quantifier": "all number types satisfying the standard model, all patterns, permutations, matrices, right-hand sides, numbers of repetitions, both methods", "why_tests_cant": "Tests compare with tolerances on particular matrices; the bound is for all matrices and sizes.", "anchors": ["ctldl/solve/solve_forward_substitution.hpp", "ctldl/solve/solve_backward_substitution.hpp", "ctldl/factor_data/factorization_repeating_block_tridiagonal_arrowhead_linked.hpp: solveInPlace"]}
{"id": "C48", "title": "Definite and quasidefinite matrices factorize without breakdown", "statement": "In exact arithmetic and without regularization no pivot is zero exactly if all leading principal submatrices of the permuted matrix are regular. For a quasidefinite matrix (positive definite on some rows, negative definite on the others), whatever the permutation, every pivot is nonzero, has the sign of its row and is at least the margin of definiteness away from zero; so a regularization which leaves such pivots alone changes nothing, factors and solutions are those of the given matrix. All pivots are positive exactly if the matrix is positive definite. Holds for single matrices and for all numbers of repetitions of both repeating classes.", "quantifier": "all patterns, permutations, matrices, numbers of repetitions, right-hand sides, both methods", "why_tests_cant": "Tests check a few positive definite and indefinite matrices only.", "anchors": ["ctldl/factorize/factorize_up_looking.hpp", "ctldl/factorize/factorize_entry_wise.hpp", "ctldl/factor_data/factorization.hpp: factorize, solveInPlace", "ctldl/factor_data/factorization_repeating_block_tridiagonal_arrowhead_linked.hpp: factorize, solveInPlace", "ctldl/factorize/regularization_small_positive_constant.hpp"]}
{"id": "C49", "title": "Matrix, factor and right-hand side may have different number types", "statement": "If the matrix has another number type than the factorization, and the right-hand side yet another one, each number is converted when it is used, and the bounds of the rounding errors hold with one more rounding of each matrix element: the errors of factorizing come with the accuracy of the factorization's number type, the errors of solving with the accuracy of the number type of the right-hand side (plus errors of converting the factor to it, which are zero if it is at least as wide). As for equal number types, this is as long as nothing overflows. In particular it holds for any three IEEE binary formats of which the one of the right-hand side is at least as wide as the one of the factorization, such as a double matrix, a float factor and a double right-hand side.", "quantifier": "all number types satisfying the standard model, all patterns, permutations, matrices, right-hand sides, numbers of repetitions, both methods", "why_tests_cant": "Tests compare with tolerances on particular matrices; the bound is for all matrices, sizes and formats.", "anchors": ["ctldl/factorize/factorize_up_looking.hpp", "ctldl/factorize/factorize_entry_wise.hpp", "ctldl/factorize/factor_initialization.hpp", "ctldl/solve/solve_forward_substitution.hpp", "ctldl/solve/solve_backward_substitution.hpp", "ctldl/factor_data/factorization.hpp: factorize, solveInPlace"]}
{"id": "C50", "title": "Contraction to fused multiply-adds keeps the bounds", "statement": "If the compiler evaluates any differences a - b * c with fused multiply-adds, in the places of its choice, then nothing but rounded numbers ends up in the factor and in the solution, and the bounds of the rounding errors of factorizing and solving still hold, with twice the bound of the underflow error.", "quantifier": "all IEEE binary formats, all choices of products to contract, all patterns, permutations, matrices, right-hand sides, numbers of repetitions, both methods", "why_tests_cant": "A test sees one compiler's choice on one matrix.", "anchors": ["ctldl/factorize/factorize_up_looking.hpp", "ctldl/factorize/factorize_entry_wise.hpp", "ctldl/solve/solve_forward_substitution.hpp", "ctldl/solve/solve_backward_substitution.hpp", "ctldl/factor_data/factorization_repeating_block_tridiagonal_arrowhead_linked.hpp: factorize, solveInPlace"]}
{"id": "C51", "title": "The operations performed do not depend on the numbers", "statement": "Factorizing and solving are straight-line computations: for given patterns, permutations, sizes and method, whether the call succeeds is fixed, and every number of the factor and of the solution is a fixed expression, built with the operations of the number type and the regularization, of the numbers of the matrix, of the right-hand side and those stored before. There is no other influence of values, such as pivoting or skipping of zeros. In particular a function between number types which respects the operations, such as the embedding of one field into another, can be applied before or after.", "quantifier": "all number types and operations on them, all patterns, permutations, numbers of repetitions, values, regularizations, both methods, all three classes", "why_tests_cant": "A test sees the results for particular values only.", "anchors": ["ctldl/factorize/factorize_up_looking.hpp", "ctldl/factorize/factorize_entry_wise.hpp", "ctldl/solve/solve_forward_substitution.hpp", "ctldl/solve/solve_backward_substitution.hpp", "ctldl/factor_data/factorization.hpp: factorize, solveInPlace", "ctldl/factor_data/factorization_repeating_block_tridiagonal_arrowhead_linked.hpp: factorize, solveInPlace", "ctldl/factor_data/factorization_repeating_block_tridiagonal.hpp: factorize, solveInPlace"]}
{"id": "C52", "title": "Rounding errors of multiplications are bounded", "statement": "Each element of y + A x computed in floating point differs from the exact value by at most ((1 - u)^-(n+1) - 1) times the value computed with absolute values, plus an underflow term, where n is the number of stored entries met in the row; for normal, transposed and symmetric multiplication, for the tridiagonal and the arrowhead multiplication with any number of repetitions. Matrix, vector and result may have different number types; the numbers are then converted first. Multiplying in floating point and then factorizing and solving with the result gives back the vector up to an error y - x whose product with the matrix is bounded by the sum of the bounds of the parts.", "quantifier": "all number types satisfying the standard model, all patterns, matrices, vectors, numbers of repetitions", "why_tests_cant": "Tests compare with tolerances on particular matrices; the bound is for all matrices and sizes.", "anchors": ["ctldl/matrix/multiply.hpp", "ctldl/matrix/multiply_repeating_block_tridiagonal.hpp", "ctldl/matrix/multiply_repeating_block_tridiagonal_arrowhead_linked.hpp"]}
{"id": "C53", "title": "Definite matrices keep positive pivots in floating point", "statement": "If a matrix is positive definite by a margin, that is, stays positive definite (with all values of the form above mu times the squares) when its diagonal elements a_ii are reduced by about c gamma(n+2) a_ii plus an underflow term, where n and c bound the number of stored entries in a row and a column of the factor, then every pivot computed in floating point is greater than mu, provided the pivots are finite; a regularization which leaves pivots above mu alone is inactive. The product of the computed factors then differs from the permuted matrix by at most about gamma(n+2) (a_ii + a_jj) / 2 plus an underflow term, and the residual of a computed solution is bounded by the diagonal elements of the matrix in the same way: there is no growth. Holds for single matrices and all numbers of repetitions of both repeating classes.", "quantifier": "all number types satisfying the standard model, all patterns, permutations, matrices, right-hand sides, numbers of repetitions, regularizations, both methods", "why_tests_cant": "Tests check a few positive definite matrices only; the claim is for all matrices and sizes.", "anchors": ["ctldl/factorize/factorize_up_looking.hpp", "ctldl/factorize/factorize_entry_wise.hpp", "ctldl/factor_data/factorization.hpp: factorize", "ctldl/factor_data/factorization_repeating_block_tridiagonal_arrowhead_linked.hpp: factorize, solveInPlace"]}
{"id": "C54", "title": "Random test structures are valid", "statement": "For every seed and all dimensions the random patterns and permutations of the tests are valid template arguments: the symmetric patterns are lower triangles with full diagonal, the other ones have the requested dimensions, all are sorted without duplicates, and a cell is filled exactly if the number the generator yields for it is in the lower half of its range. The generator has the full period 2^64 and the limit computed in floating point for probability one half is exactly the middle of the range.", "quantifier": "all seeds and dimensions", "why_tests_cant": "2^64 seeds and all dimensions; the tests use a few.", "anchors": ["tests/utility/random/procedural_test_matrix.hpp", "tests/utility/random/bool_matrix_distribution.hpp", "tests/utility/random/bernoulli_distribution.hpp", "tests/utility/random/linear_congruence_generator.hpp", "tests/utility/random/procedural_test_permutation.hpp"]}
{"id": "C55", "title": "The tests that multiply, factorize and solve are well-defined and pass in exact arithmetic", "statement": "For each of the three classes, the test which multiplies a matrix with a vector, factorizes the matrix and solves with the product runs without undefined behaviour or violated contract, for any number types, conversions, values and numbers of repetitions; for the random tests also for every seed and dimension (positive for the repeating block: with dimension zero it divides by zero). In exact arithmetic both sides of the final comparison are equal if no pivot has a magnitude below the tolerance of the regularization.", "quantifier": "all patterns, permutations, values, numbers of repetitions, seeds, dimensions, both methods", "why_tests_cant": "The tests run on a few patterns, seeds, dimensions and numbers of repetitions.", "anchors": ["tests/multiply_factorize_solve_correct/single/test_functor.hpp", "tests/multiply_factorize_solve_correct/repeating/test_functor.hpp", "tests/multiply_factorize_solve_correct/repeating_arrowhead_linked/test_functor.hpp", "tests/multiply_factorize_solve_correct/repeating/test_functor_random.hpp", "tests/multiply_factorize_solve_correct/repeating_arrowhead_linked/test_functor_random.hpp"]}
{"id": "C56", "title": "The tridiagonal test matrix is positive definite for every block dimension", "statement": "The block tridiagonal matrix built of TestMatrixTridiagonal<n> and TestMatrixSingleEntryTopRight<n> is, for every block dimension n >= 1 and every number of repetitions, the matrix with 2 on the diagonal and -1 beside it, and is positive definite with margin 2/(m(m+1)) where m is the number of rows. So in exact arithmetic the test with it passes for every block dimension, permutation, number of repetitions, method and solution if the tolerance of the regularization is below this margin.", "quantifier": "all block dimensions, permutations, numbers of repetitions, solutions, both methods", "why_tests_cant": "The tests run block dimensions 1 to 3 and up to 9 repetitions.", "anchors": ["tests/test_matrices/repeating/tridiagonal.hpp", "tests/multiply_factorize_solve_correct/repeating/small_examples_all_permutations.cpp"]}
{"id": "C57", "title": "Factorizations of definite matrices do not overflow", "statement": "If all elements of a matrix are finite, its diagonal elements are at most alpha, it is positive definite by the margin of the previous claim with bound mu > 0, and the number type has enough precision and range for alpha and mu (2 conditions on the largest number, one on the underflow threshold, one on the precision), then the factorization in floating point succeeds without overflow, NaN or breakdown: all pivots are finite and between mu and 3 alpha, all entries of the factor are finite and at most sqrt(alpha / mu), a regularization which leaves pivots above mu alone changes nothing, and the product of the factors is close to the permuted matrix. No condition is on computed values. Holds for single matrices and for all numbers of repetitions of both repeating classes.", "quantifier": "all number types satisfying the standard model with a range, in particular all IEEE binary formats; all patterns, permutations, matrices, numbers of repetitions, regularizations, both methods", "why_tests_cant": "The tests factorize a few matrices; the claim is for all definite matrices and sizes.", "anchors": ["ctldl/factorize/factorize_up_looking.hpp", "ctldl/factorize/factorize_entry_wise.hpp", "ctldl/factor_data/factorization.hpp: factorize", "ctldl/factor_data/factorization_repeating_block_tridiagonal_arrowhead_linked.hpp: factorize", "ctldl/factor_data/factorization_repeating_block_tridiagonal.hpp: factorize"]}
{"id": "C58", "title": "Systems with definite matrices are solved without overflow", "statement": "For a symmetric matrix with finite entries which is positive definite by a margin, and a number type whose precision and range meet explicit conditions, factorize followed by solveInPlace succeeds for every right-hand side whose norm is at most a bound beta: every entry of the computed solution is finite, the Euclidean norm of the computed solution is at most 9 beta / mu where mu is the margin of definiteness, and the residual with the original matrix is bounded by unit roundoffs of the diagonal elements of the matrix times the solution, plus underflow. No condition refers to computed values. It holds for single matrices, repeating block matrices and block tridiagonal matrices, every number of repetitions, every factorization method and every regularization that leaves pivots greater than mu alone.", "quantifier": "All valid structures and permutations, all matrices definite by a margin, all right-hand sides up to the bound, all arithmetics with rounding meeting the stated conditions, all numbers of repetitions, all methods and such regularizations.", "why_tests_cant": "Overflow depends on the values of matrix and right-hand side and on rounding errors; tests run a few well scaled random systems.", "anchors": ["ctldl/factor_data/factorization.hpp: factorize, solveInPlace", "ctldl/factor_data/factorization_repeating_block_tridiagonal.hpp: factorize, solveInPlace", "ctldl/factor_data/factorization_repeating_block_tridiagonal_arrowhead_linked.hpp: factorize, solveInPlace", "ctldl/solve/solve_forward_substitution.hpp", "ctldl/solve/solve_backward_substitution.hpp"]}
{"id": "C59", "title": "The test suite runs every combination once and all its calls are well-defined", "statement": "The combinators of test sets do what their operators suggest: the product has every combination of instances exactly as often as its parts occur, in lexicographic order, the sum has the instances one after the other, the zip pairs instances at the same position and drops the rest of the longer one, and foreach calls every template instance with every function instance. In the test cases for small matrices every matrix is thereby combined with every permutation of its dimension, every type of the factor and every method exactly once. Every call made by the test cases has valid template arguments and runs without undefined behaviour or violated contract, for every arithmetic, conversion and generated solution; the random test cases run exactly the listed seeds, dimensions, methods and numbers of repetitions.", "quantifier": "all test sets; all calls of the six test cases; all arithmetics, conversions and solutions", "why_tests_cant": "A test suite cannot check that it runs what it is meant to run.", "anchors": ["tests/utility/test_set.hpp", "tests/utility/test_set_foreach.hpp", "tests/test_matrices", "tests/multiply_factorize_solve_correct/single", "tests/multiply_factorize_solve_correct/repeating", "tests/multiply_factorize_solve_correct/repeating_arrowhead_linked"]}
{"id": "C60", "title": "What the tests with the other fixed matrices compute in exact arithmetic", "statement": "LFAT5 (single) and the diagonal block of NOS2 are positive definite with explicit margins, so in exact arithmetic the tests with them return exactly the given solution for every permutation, method and solution, if the tolerance of the regularization is below the margin. The block tridiagonal matrix built of the blocks of NOS2 is, for every positive number of repetitions, not positive semidefinite, and whatever the permutation and the method some pivot is not positive. For the indefinite matrix, for every number of repetitions, permutation and method, the zero pivots are replaced by the constant c of the regularization, the others are -1/c, and the solution returned agrees with the given one in the component eliminated first of each block and is smaller by c times that component in the other.", "quantifier": "all permutations, methods, solutions, tolerances and constants in the stated ranges, all numbers of repetitions", "why_tests_cant": "The tests compare one fixed solution per generator up to a tolerance; they cannot tell how the result depends on solution, constant and number of repetitions, nor whether NOS2 is definite.", "anchors": ["tests/test_matrices/single/lfat5.hpp", "tests/test_matrices/repeating/nos2.hpp", "tests/test_matrices/repeating/indef.hpp", "tests/multiply_factorize_solve_correct/single/test_functor.hpp", "tests/multiply_factorize_solve_correct/repeating/test_functor.hpp", "ctldl/factorize/regularization_small_positive_constant.hpp"]}
{"id": "C61", "title": "Multiplications do not overflow", "statement": "Each element of y + A x computed in floating point is finite if all numbers of A, x and y are finite and (1 - u)^-(n+1) times the value computed exactly with absolute values, plus an underflow term, is in the range of the number type, where n is the number of stored entries met in the row; for normal, transposed and symmetric multiplication and for the tridiagonal and the arrowhead multiplication with any number of repetitions. A bound with absolute values is needed: there are finite numbers with exact result zero whose computed result is not finite.", "quantifier": "all number types satisfying the standard model with a range, in particular all IEEE binary formats; all patterns, matrices, vectors, numbers of repetitions", "why_tests_cant": "Tests multiply a few matrices with vectors of moderate size.", "anchors": ["ctldl/matrix/multiply.hpp", "ctldl/matrix/multiply_repeating_block_tridiagonal.hpp", "ctldl/matrix/multiply_repeating_block_tridiagonal_arrowhead_linked.hpp"]}
{"id": "C62", "title": "The vector multiplied with a definite matrix is recovered up to a bound", "statement": "For a symmetric matrix with finite entries which is positive definite by a margin mu and a number type whose precision and range meet explicit conditions, multiplying a vector x with the matrix, factorizing the matrix and solving with the product succeeds, everything computed is finite, and the solution y satisfies mu sum |y_i - x_i| <= 2 m (relative error * sum |x_i| + underflow), where m is the number of unknowns and the relative error is a sum of unit roundoffs times the largest diagonal element. All conditions and bounds are on the given matrix, vector and numbers of entries, none on computed values. It holds for single matrices, repeating block matrices and block tridiagonal matrices, every number of repetitions, every factorization method and every regularization that leaves pivots greater than mu alone.", "quantifier": "all valid structures and permutations, all matrices definite by a margin, all vectors up to a bound, all arithmetics with rounding meeting the stated conditions, all numbers of repetitions, methods and such regularizations", "why_tests_cant": "This is what the tests check, for a few matrices and vectors and with a tolerance chosen by trial.", "anchors": ["ctldl/factor_data/factorization.hpp: factorize, solveInPlace", "ctldl/factor_data/factorization_repeating_block_tridiagonal.hpp: factorize, solveInPlace", "ctldl/factor_data/factorization_repeating_block_tridiagonal_arrowhead_linked.hpp: factorize, solveInPlace", "ctldl/matrix/multiply.hpp", "ctldl/matrix/multiply_repeating_block_tridiagonal.hpp", "ctldl/matrix/multiply_repeating_block_tridiagonal_arrowhead_linked.hpp"]}
{"id": "C63", "title": "The tests with the tridiagonal test matrix pass in double precision", "statement": "With up to 64 unknowns, the test of the block tridiagonal class with the tridiagonal test matrix in double precision, whether or not the compiler contracts multiplications and subtractions, succeeds for every block dimension, permutation, number of repetitions, method and solution of magnitude up to 2^980, computes finite numbers only, and the sum of the errors is at most 2^-25 times the sum of the magnitudes of the solution plus 2^-1040. With the regularization of the tests for every tolerance up to 2^-32 and every constant, and with the solutions of all ones and of increasing numbers, every component computed agrees with the generated one within the tolerance of the comparison, relative to either.", "quantifier": "all block dimensions and numbers of repetitions with at most 64 unknowns in total; all permutations, methods, solutions up to a bound, regularizations leaving pivots above 1/2100 alone, contractions", "why_tests_cant": "The tests run on one machine with one compiler; that they pass there does not tell whether they pass with other choices of contraction, permutation or solution.", "anchors": ["tests/test_matrices/repeating/tridiagonal.hpp", "tests/multiply_factorize_solve_correct/repeating/test_functor.hpp", "tests/utility/solution_generator.cpp", "ctldl/factorize/regularization_small_positive_constant.hpp", "ctldl/factor_data/factorization_repeating_block_tridiagonal.hpp"]}
{"id": "C64", "title": "The text of matrix files is read as written", "statement": "Going through a matrix file delivers, for every text in Matrix Market format, the entries as spelled: lines end with newlines, except possibly the last one; lines starting with % before the sizes are skipped; indices are decimal numbers below 2^64 and values are decimal or hexadecimal numerals with optional sign, point and exponent, or infinities or NaNs, separated by any white space, and may be followed by white space and more text. Conversely whatever is accepted starts with numbers spelled like that. Unless an integer of 2^64 or more occurs in the text, which is undefined behaviour, every text is either delivered completely or an exception is thrown; lines with nothing but white space throw. Not every accepted text is in the format: an integer may have a minus, which is taken modulo 2^64, and a fraction in place of the column is split into column and value.", "quantifier": "all texts; all sizes, entries and spellings of numbers; all conversions of numerals to floating point numbers", "why_tests_cant": "Tests read a handful of files written by one program; the spellings of numbers and the possible defects of files are unbounded.", "anchors": ["ctldl/fileio/mtx_read_header.cpp", "ctldl/fileio/mtx_foreach_entry.cpp", "ctldl/fileio/mtx_file_read_repeating_block_tridiagonal_arrowhead_linked.hpp"]}
{"id": "C65", "title": "What reading a matrix file does is described for every file", "statement": "Let a file have the size of the structure for some number of repetitions. The reader treats an entry two or more repeated blocks below the diagonal like the one in the same row of the block right below the diagonal, and an entry in a row of the outer block like the one in the row modulo the size of the repeated blocks. With entries moved like this, the file is read element by element if all of them are in the declared pattern and rejected with an exception otherwise; but if there is an entry in the columns of the start below the first repeated block and above the outer block, and everything before it is accepted, the behaviour is undefined. All other files throw. Therefore, for a structure without start, every text without integers of 2^64 and more is either read as described or throws.", "quantifier": "all valid structures with nonempty repeated blocks, all files and texts, all numbers of repetitions", "why_tests_cant": "Tests read a handful of files which belong to the structures they are read with.", "anchors": ["ctldl/fileio/mtx_file_read_repeating_block_tridiagonal_arrowhead_linked.hpp", "ctldl/fileio/mtx_foreach_entry.cpp", "ctldl/fileio/mtx_read_header.cpp"]}
{"id": "C66", "title": "The example programs for matrix files print solutions", "statement": "The six programs built from one example source with six structures have patterns and permutations which fit together. Such a program fails exactly like reading the file fails; if reading succeeds it prints as many numbers as the file has rows. For the four structures without start and every text without integers of 2^64 and more it prints or throws, its behaviour is defined. The output does not depend on the number of iterations, unless that is zero, when it prints ones, nor on the content of uninitialized memory. In exact arithmetic, if the matrix of the file is quasi-definite by a margin not less than the tolerance of the regularization, then the printed numbers in order are the unique solution of the system with right-hand side one.", "quantifier": "all texts, all positive numbers of iterations, all arithmetics, conversions and methods; all structures which fit together, among them the six of the programs", "why_tests_cant": "The programs are not run by the tests at all.", "anchors": ["examples/repeating/example_mtx.cpp: main", "examples/repeating/mtx_includes/*/*/ctldl_repeating_mtx_include.hpp", "examples/repeating/CMakeLists.txt", "ctldl/fileio/mtx_file_read_repeating_block_tridiagonal_arrowhead_linked.hpp", "ctldl/factor_data/factorization_repeating_block_tridiagonal_arrowhead_linked.hpp: factorize, solveInPlace"]}
{"id": "C67", "title": "The example programs with fixed matrices print what they are meant to, but for regularization", "statement": "For every arithmetic and whatever the numbers in a new object, the examples which factorize and solve many times print the numbers of one factorization and one solution, as many as there are unknowns. With the tridiagonal matrix, in exact arithmetic, with any size and number of blocks, any permutation and any number of passes, number a of m is (a + 1) (m - a) / 2; and the example in double precision prints exactly these numbers. The lines printed by the example with LFAT5 in double precision are determined. The examples with an indefinite matrix in single precision print, for every tolerance of the regularization between zero and one and each of the three numbers next to the square root of the machine precision as its constant, lines which differ from the solution in the fourth digit.", "quantifier": "all arithmetics, initial contents of objects, numbers of passes, block sizes, numbers of blocks, permutations, methods, tolerances", "why_tests_cant": "The examples are not tested at all; their output is for people to look at.", "anchors": ["examples/repeating/example_tridiagonal.cpp", "examples/repeating/example_nos2.cpp", "examples/repeating/example_nos4.cpp", "examples/repeating/example_indef.cpp", "examples/single/example_lfat5.cpp", "examples/single/example_indef_single.cpp"]}
{"id": "C68", "title": "Scaling by powers of two changes nothing but exponents", "statement": "Let the rows and columns of a symmetric matrix be multiplied by powers of two (row and column i both by 2^a_i) and the whole matrix by 2^c, and element i of the right-hand side by 2^(e + a_i). In IEEE floating point arithmetic the factor and the solution are then exactly those computed before, element i of the solution multiplied by 2^(e - c - a_i), entries of L by 2^(a_i - a_j), pivots by 2^(c + 2 a_i), infinities and NaNs included; except for values on which underflow or overflow had an influence in one of the two executions. It holds for single, repeating block and block tridiagonal matrices, every number of repetitions and method, and every regularization which is scaled in the same way; the one for small pivots is if both constants are multiplied like the pivots, but with fixed constants the solution changes.", "quantifier": "all binary formats, valid structures and permutations, matrices, right-hand sides, powers of two, numbers of repetitions, methods, regularizations with scaling", "why_tests_cant": "Equality of all digits for all matrices and scalings; tests compare a few solutions up to a tolerance.", "anchors": ["ctldl/factor_data/factorization.hpp: factorize, solveInPlace", "ctldl/factor_data/factorization_repeating_block_tridiagonal.hpp: factorize, solveInPlace", "ctldl/factor_data/factorization_repeating_block_tridiagonal_arrowhead_linked.hpp: factorize, solveInPlace", "ctldl/factorize/regularization_small_positive_constant.hpp"]}
{"id": "C69", "title": "Pivots tell determinant and inertia", "statement": "Without regularization and in exact arithmetic, if no pivot which is divided by is zero, the product of all pivots is the determinant of the (assembled) matrix, and the numbers of negative and positive pivots are its indices of inertia: the largest dimensions of spaces of vectors on which the quadratic form of the matrix is negative or positive. For real matrices these are the numbers of negative and positive eigenvalues. Hence product and numbers depend neither on permutations nor on declared patterns, method or former contents of the factor object. It holds for single, repeating block and block tridiagonal matrices.", "quantifier": "all fields (ordered fields, the reals), valid structures and permutations, matrices, numbers of repetitions, both methods", "why_tests_cant": "A statement about all matrices and all subspaces; tests look at solutions only, never at pivots.", "anchors": ["ctldl/factor_data/factorization.hpp: factorize", "ctldl/factor_data/factorization_repeating_block_tridiagonal.hpp: factorize", "ctldl/factor_data/factorization_repeating_block_tridiagonal_arrowhead_linked.hpp: factorize"]}
{"id": "C70", "title": "The benchmarks repeat the computation of the example programs", "statement": "However often and with however many repetitions the benchmarks factorize, solve and combined are run for a matrix file, every repetition leaves the same factor and the same solution (the right-hand side is restored before each one, and nothing is left of the previous one or of the new object), the solution is the one printed by the example program for the same file, and all calls are well-defined. If the file cannot be read, nothing is run.", "quantifier": "all arithmetics, structures of the programs, texts without integers of 2^64 and more, sequences of runs, numbers of repetitions, contents of new objects", "why_tests_cant": "Benchmarks have no tests; that repetitions do not influence each other must hold for all of them.", "anchors": ["examples/repeating/benchmark_mtx.cpp"]}
{"id": "C71", "title": "A repeating block matrix is factorized and solved like the assembled matrix, bit for bit", "statement": "For every repeating block matrix there are a pattern, a permutation and a matrix for the class for single matrices which are the assembled ones: rows block after block, eliminated in that order and within blocks in the order of the permutation of the block, with an entry of the factor exactly where the factors of the blocks have one. For any arithmetic, exact or not, both classes then store the same numbers in corresponding entries of L and D and compute the same solution for every right-hand side, with the up-looking method, and with both methods if there is no outer block, hence always for block tridiagonal matrices; also with a regularization which treats corresponding rows alike. With the entry-wise method and an outer block this is not so: in double precision the two classes compute different pivots for a matrix with two rows.", "quantifier": "all valid structures and permutations, matrices, right-hand sides, numbers of repetitions, arithmetics, regularizations; both methods where stated", "why_tests_cant": "Equality of all digits for all matrices, structures and numbers of repetitions; tests compare solutions with the generated ones up to a tolerance.", "anchors": ["ctldl/factor_data/factorization.hpp: factorize, solveInPlace", "ctldl/factor_data/factorization_repeating_block_tridiagonal.hpp: factorize, solveInPlace", "ctldl/factor_data/factorization_repeating_block_tridiagonal_arrowhead_linked.hpp: factorize, solveInPlace", "ctldl/factorize/factorize_up_looking.hpp", "ctldl/factorize/factorize_entry_wise.hpp"]}
{"id": "C72", "title": "Numerals of a file are read correctly rounded, from the text to the solution", "statement": "A numeral in a matrix file is read as the number nearest to its exact value, the even one of two which are equally near, with the sign of the text also for zeros; it is read exactly if it is a number of the type, as infinity exactly if its magnitude is at least half a unit above the largest number, and as infinity or not a number if the words are given. For a text whose entries are declared, the elements of the matrix which is read are these numbers. If it is then factorized and a system of equations solved in floating point, without overflow and with any regularization which does not hide infinities, the residual with respect to the matrix with the exact values of the numerals (and the changes of the diagonal by the regularization) is at most a small multiple of unit roundoff times the product of the absolute values of the factors and the solution, plus a bound for underflow. The operations of the floating point numbers of the model themselves (differences, products, quotients, sums and fused multiply-adds) are proved to be rounded correctly, with the signs demanded by IEEE 754, also for infinite and invalid operands, and this determines them.", "quantifier": "all numerals, binary formats, texts with declared entries, structures, numbers of repetitions, regularizations, right-hand sides; both methods", "why_tests_cant": "There are infinitely many numerals for each number, and ties and the ends of the range are rare; that the errors of reading, factorizing and solving do not add up to more must hold for all matrices.", "anchors": ["ctldl/fileio/mtx_foreach_entry.cpp", "ctldl/fileio/mtx_file_read_repeating_block_tridiagonal_arrowhead_linked.hpp", "examples/repeating/example_mtx.cpp"]}
{"id": "C73", "title": "Factor and solution are given by the textbook formulas, with a fixed order of operations", "statement": "Whatever the arithmetic and the former contents of the factor object, the numbers computed for a matrix A and a permutation are given by the textbook formulas, in which only entries of the filled-in pattern occur. Entry-wise method: L_ij = (a_ij - sum over k of l_ik l_jk d_k) / d_j and d_i = a_ii - sum over k of l_ik l_ik d_k, then regularized. Up-looking method: w_j = a_ij - sum over k of l_jk w_k, L_ij = w_j / d_j and d_i = a_ii - sum over k of w_k (w_k / d_k), then regularized. Solving: y_i = b_i - sum over j of l_ij y_j, x_i = y_i / d_i - sum over k of l_ki x_k. The terms of each sum are subtracted one after the other, in the order of increasing columns, in the last sum of decreasing rows. The formulas determine all numbers, hence nothing else has an influence. For repeating block matrices the same formulas hold for the assembled matrix, with one exception: with the entry-wise method the terms subtracted in the rows of the outer block are those of the up-looking method for all columns before the link block.", "quantifier": "all arithmetics, valid structures and permutations, matrices, right-hand sides, regularizations, numbers of repetitions; both methods where stated", "why_tests_cant": "Without laws of arithmetic each different order of operations is a different result; tests accept every result within a tolerance.", "anchors": ["ctldl/factor_data/factorization.hpp: factorize, solveInPlace", "ctldl/factor_data/factorization_repeating_block_tridiagonal_arrowhead_linked.hpp: factorize, solveInPlace", "ctldl/factorize/factorize_up_looking.hpp", "ctldl/factorize/factorize_entry_wise.hpp", "ctldl/solve/solve_forward_substitution.hpp", "ctldl/solve/solve_backward_substitution.hpp"]}
{"id": "C74", "title": "The example programs, from the command line to the text written", "statement": "The programs made from example_mtx.cpp explain their usage and report failure if and only if they are not called with one or two arguments. A second argument without an integer at its beginning, or with an integer of more than 64 bits, ends the program with an exception, before the file is looked at; zero makes it write the number one for each row of the matrix; any other integer has no influence on what is written. A file which cannot be opened is reported as a file without a line for the sizes. In a successful run the lines which are not headings are the numbers of the computed solution, one in each line and in the order of the rows; a finite number is written with its sign and six digits after the point and is off by at most half a millionth. For matrices without a start block nothing is undefined, whatever the arguments and files are, except for files with integers of 2^64 and more.", "quantifier": "all command lines, files, arithmetics, structures, methods, contents of new objects; all binary formats for the digits", "why_tests_cant": "The programs have no tests; all argument lists, files and numbers.", "anchors": ["examples/repeating/example_mtx.cpp: main", "ctldl/fileio/mtx_foreach_entry.cpp", "ctldl/fileio/mtx_read_header.cpp"]}
{"id": "C75", "title": "Factorizations of quasidefinite matrices do not overflow, and the pivots have the right signs", "statement": "Let the rows of a symmetric matrix be divided into two groups such that the matrix is positive definite on the first and negative definite on the second group, both by a margin 2 mu, as it is the case for the systems of interior point methods. Let all elements be finite and the sums of the absolute values in its rows be at most rho, and let the number type have enough precision and range for rho and mu (explicit conditions, none on computed values). Then for every permutation, without pivoting, the factorization in floating point succeeds without overflow, NaN or breakdown: every pivot is finite, greater than mu for the rows of the first group, less than -mu for the rows of the second group, and at most beta = 6 rho^2 / mu in absolute value; all entries of the factor are finite and at most beta / mu; a regularization which leaves pivots alone which are greater than mu in absolute value changes nothing; and in each row the absolute values of the differences between the permuted matrix and the product of the factors sum up to at most about gamma(n+2) (n+1) c beta^2 / mu plus an underflow term, where n and c bound the number of stored entries in rows and columns of the factor. Holds for single matrices and for all numbers of repetitions of both repeating classes.", "quantifier": "all number types satisfying the standard model with a range, in particular all IEEE binary formats; all patterns, permutations, matrices, groups of rows, numbers of repetitions, regularizations, both methods", "why_tests_cant": "The tests factorize a few matrices; indefinite matrices are not among those tested with rounding in mind, and the claim is for all of them.", "anchors": ["ctldl/factorize/factorize_up_looking.hpp", "ctldl/factorize/factorize_entry_wise.hpp", "ctldl/factor_data/factorization.hpp: factorize", "ctldl/factor_data/factorization_repeating_block_tridiagonal_arrowhead_linked.hpp: factorize", "ctldl/factor_data/factorization_repeating_block_tridiagonal.hpp: factorize"]}
{"id": "C76", "title": "Systems with quasidefinite matrices are solved without overflow and accurately", "statement": "For the matrices of the preceding property let the entries of the right-hand side be finite and at most B in absolute value, and let precision and range suffice for B, rho, mu and the number of rows (explicit conditions, none on computed values). Then, after the factorization, solving succeeds without overflow or NaN for every such right-hand side: the solution is finite and its entries are at most X, an explicit multiple of B; each entry of the residual with respect to the matrix given by the user is at most about (gamma(n+c+2) + gamma(n+2)) (n+1) c beta^2 / mu times the largest entry of the computed solution, plus underflow terms; and the euclidean distance between the computed and the exact solution is at most the root of the number of rows times that bound, divided by 2 mu. Holds for single matrices and for all numbers of repetitions of both repeating classes.", "quantifier": "all number types satisfying the standard model with a range, in particular all IEEE binary formats; all patterns, permutations, quasidefinite matrices, right-hand sides, numbers of repetitions, regularizations which leave large pivots alone, both methods", "why_tests_cant": "The tests solve a few systems; the absence of overflow and the bound of the error must hold for all right-hand sides and matrices.", "anchors": ["ctldl/solve/solve_forward_substitution.hpp", "ctldl/solve/solve_backward_substitution.hpp", "ctldl/factor_data/factorization.hpp: factorize, solveInPlace", "ctldl/factor_data/factorization_repeating_block_tridiagonal_arrowhead_linked.hpp: factorize, solveInPlace", "ctldl/factor_data/factorization_repeating_block_tridiagonal.hpp: factorize, solveInPlace"]}
{"id": "C77", "title": "The message of the exception names the first thing wrong with a matrix file", "statement": "Reading a matrix file for a structure with repeated blocks which are not empty throws an exception if and only if something is wrong with the file, and the message names the first thing which is: no line of sizes or fewer than three numbers in it ('Error reading matrix dimensions'), different numbers of rows and columns, a size which is too small or not that of a whole number of repeated blocks; then, line by line, fewer than three numbers, a row of zero, a column of zero, a row or column which is too large, an entry above the diagonal, an entry which is not in the declared pattern (with the known moves of entries of the preceding properties); and at last a wrong number of entries. All these messages are different, and for every file at most one applies.", "quantifier": "all structures with non-empty repeated blocks, all texts (also ill-formed ones), all element types and conversions of numerals", "why_tests_cant": "There are no tests of wrong files; which of several defects is reported must hold for all combinations.", "anchors": ["ctldl/fileio/mtx_check.cpp", "ctldl/fileio/mtx_read_header.cpp", "ctldl/fileio/mtx_foreach_entry.cpp", "ctldl/fileio/mtx_file_read_repeating_block_tridiagonal_arrowhead_linked.hpp"]}
{"id": "C78", "title": "Texts of entries, permutations and violated contracts tell what they are about", "statement": "The text written for an entry has its row and column in decimal digits, the text of a permutation its numbers in decimal digits, with one space between them and in brackets. Different entries, and different permutations, have different texts, and a number in them is read back by the conversion used for matrix files. The messages of violated preconditions, postconditions and assertions are different from each other; they do not depend on the place of the violated contract, unless that is given explicitly. If it is given, the message has its file, its line in decimal digits and its function.", "quantifier": "all entries, permutations of any length, locations", "why_tests_cant": "Injectivity is about all pairs of values.", "anchors": ["ctldl/sparsity/entry_print.hpp", "tests/utility/to_test_info.cpp", "ctldl/utility/contracts.cpp", "ctldl/utility/contracts.hpp"]}
{"id": "C79", "title": "Sizes and indices of files do not overflow; without memory the reader and the constructor throw and nothing else", "statement": "With sizes and indices which are unsigned integers of 64 bits, reading a matrix file gives what unlimited integers would give, whatever numbers below 2^64 stand in it: no sum, product or difference wraps around, for any structure with repeated blocks which are not empty. The number of elements asked for in the three vectors of blocks is exactly that of the size in the file; if one of them, or of their copies in the returned matrix, cannot be allocated, an exception about memory is thrown, before any entry is looked at in the former case. The constructor of the repeating factorization gives N + 1, N and N + 1 blocks for N repetitions or throws because of memory, also for the largest N; its assertions fail exactly if there were memory for 2^64 - 1 elements.", "quantifier": "all structures with non-empty repeated blocks, all files of less than 2^64 characters, all behaviours of the allocator, all numbers of repetitions below 2^64", "why_tests_cant": "Files with sizes near 2^64 and failing allocations are not tested.", "anchors": ["ctldl/fileio/mtx_file_read_repeating_block_tridiagonal_arrowhead_linked.hpp", "ctldl/fileio/mtx_foreach_entry.cpp", "ctldl/factor_data/factorization_repeating_block_tridiagonal_arrowhead_linked.hpp:130-155"]}
{"id": "C80", "title": "Changing signs changes nothing but signs", "statement": "Let the signs of some rows and of the same columns of a symmetric matrix be changed, or the sign of the whole matrix, and the sign of the right-hand side or of the corresponding elements of it. In IEEE floating point arithmetic the factor and the solution are then exactly those computed before with signs changed: pivots if the sign of the whole matrix is changed, entries of L if the sign of exactly one of row and column is changed, elements of the solution accordingly; also if there are overflow, underflow, infinities or NaNs, signs of zeros aside, provided no pivot of the first matrix is zero. It holds for single, repeating block and block tridiagonal matrices, every number of repetitions and method, and every regularization which changes sign with the pivot; the one for small pivots does if the sign of the whole matrix is kept or the sign of its constant is changed as well, and does not otherwise.", "quantifier": "all binary formats, valid structures and permutations, matrices, right-hand sides, choices of signs, numbers of repetitions below the limit of the index type, methods, regularizations", "why_tests_cant": "Equality of all digits for all matrices and signs; tests compare a few solutions up to a tolerance.", "anchors": ["ctldl/factor_data/factorization.hpp: factorize, solveInPlace", "ctldl/factor_data/factorization_repeating_block_tridiagonal.hpp: factorize, solveInPlace", "ctldl/factor_data/factorization_repeating_block_tridiagonal_arrowhead_linked.hpp: factorize, solveInPlace", "ctldl/factorize/regularization_small_positive_constant.hpp"]}
{"id": "C81", "title": "Accuracy and absence of overflow do not depend on the floating point environment", "statement": "If the program runs with another rounding direction (towards zero, upwards, downwards), or with subnormal numbers replaced by zero in operands and results, then a matrix which is positive definite by a margin is still factorized into finite positive pivots, and systems with it are solved without overflow and with a small residual: the bounds are those for rounding to nearest with twice the unit roundoff, and with the smallest normal number in place of the smallest subnormal one. For other matrices the residual is bounded in terms of the computed factors provided that no result which contributed to the pivots and the solution was too large. (It is not enough that they are finite: when rounding towards zero, a result which is too large becomes the largest finite number, and nothing in the solution shows that it is wrong.) With the default environment the arithmetic is the one of the other properties. Results rounded downwards and upwards enclose the exact ones, also where they are too large; results are reported as too large exactly if rounding makes them so; operations with infinities and NaNs are the same in all environments; and replacing subnormal numbers by zero changes no other results.", "quantifier": "all binary formats with at least two digits, environments, valid structures and permutations, matrices, right-hand sides, numbers of repetitions, methods", "why_tests_cant": "Tests run in one environment; -ffast-math start-up code and callers which change the environment are not tested.", "anchors": ["ctldl/factor_data/factorization.hpp: factorize, solveInPlace", "ctldl/factor_data/factorization_repeating_block_tridiagonal_arrowhead_linked.hpp: factorize, solveInPlace", "ctldl/factorize", "ctldl/solve"]}
{"id": "C82", "title": "Computed solutions are exact solutions of nearby systems, and close to the exact solution", "statement": "The solution computed with rounding is exactly the solution of a system, each entry of the matrix and each element of the right-hand side of which differs from the given one by at most a small bound. For matrices which are positive definite by a margin the bound is explicit in the diagonal of the matrix, the numbers of entries per row and column of the factor, and the unit roundoff; the given system then has exactly one solution, and the sum of the absolute differences between it and the computed one is at most a small multiple of the sum of its absolute values, plus a tiny amount in case of underflow. For any other matrix the bound is in terms of the absolute values of the computed factors, provided that pivots and solution are finite; regularized pivots add their change to the diagonal.", "quantifier": "all arithmetics satisfying the standard model (in particular all IEEE formats), valid structures and permutations, matrices, right-hand sides, numbers of repetitions, methods", "why_tests_cant": "Tests compare with known solutions of a few systems.", "anchors": ["ctldl/factor_data/factorization.hpp: factorize, solveInPlace", "ctldl/factor_data/factorization_repeating_block_tridiagonal.hpp: factorize, solveInPlace", "ctldl/factor_data/factorization_repeating_block_tridiagonal_arrowhead_linked.hpp: factorize, solveInPlace"]}
{"id": "C83", "title": "Without rounding the results are those of exact arithmetic", "statement": "If every operation which contributed to the pivots and to the solution has an exact result which is a number of the floating point format - for example, with small integers and pivots which are powers of two - then the computed solution exactly solves the given system. More generally, let the factorization and the solve be executed with floating point numbers and in lockstep with the exact numbers: they take the same steps, and each pivot, entry of the factor and element of the solution for which all contributing operations were exact is the exact one, also if other operations were rounded; in particular changes of the regularization are the same. An operation with finite numbers is exact if and only if the exact result is a number of the format, and then its result is the same in all rounding directions.", "quantifier": "all binary formats and any other arithmetic whose values may stand for exact numbers, valid structures and permutations, matrices, right-hand sides, numbers of repetitions, methods, regularizations", "why_tests_cant": "Tests choose integer matrices and compare with known solutions of a few systems; that exactness is kept by all steps, for all patterns, is not tested.", "anchors": ["ctldl/factor_data/factorization.hpp: factorize, solveInPlace", "ctldl/factor_data/factorization_repeating_block_tridiagonal_arrowhead_linked.hpp: factorize, solveInPlace", "ctldl/factorize", "ctldl/solve"]}
{"id": "C84", "title": "Parts which are not coupled do not influence each other, and rows depend on what comes before only", "statement": "Let a symmetric matrix have unknowns which are not coupled with the others by entries of its lower triangle. Then pivots, factor and solution of these unknowns are, to the last digit, those computed with any other matrix and right-hand side which contain the same unknowns with the same coefficients, in the same order of elimination - in particular those computed without the other unknowns at all. Infinities, NaNs and zero pivots of the other unknowns do not spread to them. Furthermore pivots and factor of the first rows in the order of elimination depend on the first rows and columns of the matrix only. For repeating block matrices the same holds for unknowns which are not coupled in the factor; and the factor of the first blocks depends neither on the number of repetitions nor on later blocks, links and outer diagonal block.", "quantifier": "all arithmetics (floating point included), valid structures and permutations, matrices, right-hand sides, numbers of repetitions below the limit of the index type, methods, regularizations", "why_tests_cant": "Tests with one matrix at a time do not compare the results for different matrices, and not to the last digit.", "anchors": ["ctldl/factor_data/factorization.hpp: factorize, solveInPlace", "ctldl/factor_data/factorization_repeating_block_tridiagonal_arrowhead_linked.hpp: factorize, solveInPlace", "ctldl/factorize", "ctldl/solve"]}
{"id": "C85", "title": "Declaring more entries than needed changes nothing", "statement": "Let the same matrix be declared twice with the same order of elimination: once with some entries, and once with further ones whose values are zero or which are never given. In exact arithmetic pivots, factor and solutions are the same, provided that the pivots are not zero. In floating point arithmetic they are the same to the last digit, up to signs of zeros, as soon as the values of one of the two factors are finite and its pivots not zero, and one of the two solutions is finite; entries which only one factor has are zeros. The same holds for two declarations of a repeating block matrix one of which has more entries in any blocks, and for a repeating block matrix (whose factor has the same pattern for all repetitions, whether or not they need it) compared with the same matrix as one matrix, whose factor has no more than its own fill-in. A matrix which may be handed over for a declaration may be handed over for every larger one.", "quantifier": "all fields and all binary formats, valid structures and permutations, matrices, right-hand sides, numbers of repetitions below the limit of the index type, regularizations which do not look at signs of zeros; comparison with one matrix: up-looking method, or no outer block", "why_tests_cant": "Tests compare the residuals, not factors and solutions for different declarations of the same matrix.", "anchors": ["ctldl/factor_data/factorization.hpp: factorize, solveInPlace", "ctldl/factor_data/factorization_repeating_block_tridiagonal_arrowhead_linked.hpp: factorize, solveInPlace", "ctldl/factor_data/sparsity_to_factorize_tridiagonal_arrowhead_linked.hpp", "ctldl/symbolic"]}
{"id": "C86", "title": "The pattern of a repeating factor is the smallest one possible", "statement": "The pattern of the factor of a repeating block matrix is the same for all repetitions, contains the entries of the declared blocks after the permutations, and can be eliminated without further entries. Among all patterns with these three properties, for any positive number of repetitions, it is the smallest one: no entry is stored which could be left out. Declaring more entries yields a pattern with at least the same entries.", "quantifier": "all valid structures with permutations, positive numbers of repetitions, patterns", "why_tests_cant": "Tests compare the pattern for a few examples; that no smaller pattern would do is not tested.", "anchors": ["ctldl/symbolic/compute_elimination_tree_repeating.hpp", "ctldl/symbolic/filled_in_sparsity_repeating_arrowhead.hpp", "ctldl/factor_data/factorization_repeating_block_tridiagonal_arrowhead_linked.hpp", "ctldl/symbolic"]}
{"id": "C87", "title": "Without positive entries off the diagonal, signs and order of the results are right despite rounding", "statement": "Let no entry off the diagonal be positive and all computed pivots be positive. Then no computed entry of the factor is positive; if no element of the right-hand side is negative, then no element of the computed solution is negative; and increasing any elements of the right-hand side decreases no element of the computed solution. For the up-looking method moreover: if a second such matrix of the same structure has no smaller entries, then its computed factor has no smaller entries and its computed pivots are not smaller, hence positive; and if its right-hand side has neither negative nor greater elements, then its computed solution has no greater elements. All of this holds without any tolerance, whether or not values are finite; comparisons with a NaN say nothing. In exact arithmetic all methods keep the order. In floating point arithmetic the entry-wise method does not: for matrices with two rows, increasing an entry of the diagonal from 7 to the next double precision number decreases the other pivot.", "quantifier": "all binary formats and all ordered fields, valid structures and permutations, matrices, right-hand sides, numbers of repetitions below the limit of the index type, methods as stated, regularizations (increasing ones for the comparison of two matrices)", "why_tests_cant": "Tests compare solutions of a few systems up to a tolerance, and never two matrices.", "anchors": ["ctldl/factor_data/factorization.hpp: factorize, solveInPlace", "ctldl/factor_data/factorization_repeating_block_tridiagonal_arrowhead_linked.hpp: factorize, solveInPlace", "ctldl/factorize", "ctldl/solve"]}
{"id": "C88", "title": "Extended precision of intermediate results does no harm", "statement": "Let a compiler evaluate expressions in a format which contains that of the number type (as for x87 processors, or FLT_EVAL_METHOD 1 and 2), and round any of the results to the number type and keep others as they are. Whatever it decides, the residual of the computed solution is bounded in terms of the computed factor as for computations in the number type alone, where the unit roundoff 2^-p is replaced by 2^-p + 2^-q + 2^-(p+q) for the precisions p of the number type and q of the wider format. Matrices which are positive definite by a margin are factorized, and systems with them are solved, without overflow of the number type and with a small residual; all conditions are on the matrix, the right-hand side and the arithmetic.", "quantifier": "all pairs of formats one of which contains the other, decisions of the compiler, valid structures and permutations, matrices, right-hand sides, numbers of repetitions, methods, finite results (residual) or definite matrices", "why_tests_cant": "Tests run with the decisions of one compiler for one processor.", "anchors": ["ctldl/factor_data/factorization.hpp: factorize, solveInPlace", "ctldl/factor_data/factorization_repeating_block_tridiagonal_arrowhead_linked.hpp: factorize, solveInPlace", "ctldl/factorize", "ctldl/solve"]}
{"id": "C89", "title": "Operations in a format with more than twice the precision change nothing", "statement": "If all operations are evaluated in a format with at least 2p + 2 bits of precision, where p is that of the number type, and enough range for differences, products and quotients, and all results are rounded to the number type, then the factor and the solution are the same bit for bit as with operations of the number type, with the same infinities, NaNs and signs of zeros. So it does not matter if floats are computed with as doubles. It does matter if doubles are computed with in the 64 bit precision of the x87 processor: there is a system with two rows, the computed solution of which changes.", "quantifier": "all formats as stated, structures, matrices, right-hand sides, numbers of repetitions, methods, regularizations", "why_tests_cant": "Tests cannot run over all numbers; the cases in which rounding twice differs from rounding once are rare.", "anchors": ["ctldl/factor_data/factorization.hpp: factorize, solveInPlace", "ctldl/factor_data/factorization_repeating_block_tridiagonal_arrowhead_linked.hpp: factorize, solveInPlace", "ctldl/factorize", "ctldl/solve"]}
{"id": "C90", "title": "The order in which sums are evaluated does not matter for the accuracy", "statement": "Let a compiler evaluate the sums of factorization and substitution in any order and grouping, with partial sums which start with a term or with zero (as for vectorization with -fassociative-math), take the terms of either factorization method for any sum, and multiply three factors in any order. Then the residual of the computed solution is bounded in terms of the computed factor as for the order of the program: the numbers h of roundings in the bound are the number of operations of a sum, or twice the number of its operations which depend on each other if that is less. What the program computes is one of these cases, with h the number of entries of a row or column of the factor. If the terms are added by halves, then h grows with the logarithm of the number of terms only. The order is visible in the results: there is a matrix with four rows whose last pivot in double precision depends on it.", "quantifier": "all arithmetics with rounding errors of sums, differences, products and quotients bounded as usual (including all binary formats and contracted expressions), orders and groupings, patterns closed under fill-in, symmetric matrices, right-hand sides, methods, regularizations, finite results", "why_tests_cant": "Tests run with the order which one compiler has chosen; the number of orders is exponential in the number of terms.", "anchors": ["ctldl/factor_data/factorization.hpp: factorize, solveInPlace", "ctldl/factor_data/factorization_repeating_block_tridiagonal_arrowhead_linked.hpp: factorize, solveInPlace", "ctldl/factorize", "ctldl/solve"]}
{"id": "C91", "title": "Quasidefinite systems are solved accurately whatever compiler and environment do", "statement": "Take a matrix which is quasidefinite by a margin (positive definite on one group of rows and negative definite on the others), as in interior point methods. Let a compiler contract any products into fused multiply-adds, or keep any intermediate results in a wider format, or let the program run with any rounding direction and with subnormal numbers replaced by zero. In each of these cases, for every permutation and without pivoting, the factorization succeeds without overflow, and all pivots have the sign of the group of their row and exceed the margin; systems are solved without overflow for all right-hand sides up to an explicit bound; the residual and the distance to the exact solution are at most explicit multiples of the largest entry of the computed solution, plus underflow terms. All conditions are on the matrix, the right-hand side and the arithmetic. A regularization which leaves pivots greater than the margin alone changes nothing.", "quantifier": "all binary formats (with at least two digits for extended precision and environments), decisions of the compiler, environments, valid structures and permutations, quasidefinite matrices, right-hand sides, numbers of repetitions, methods, regularizations as stated", "why_tests_cant": "Tests run with the decisions of one compiler in one environment, on a few matrices.", "anchors": ["ctldl/factor_data/factorization.hpp: factorize, solveInPlace", "ctldl/factor_data/factorization_repeating_block_tridiagonal_arrowhead_linked.hpp: factorize, solveInPlace", "ctldl/factorize", "ctldl/solve"]}
{"id": "C92", "title": "Replacing divisions by products with reciprocals keeps the accuracy", "statement": "Let a compiler replace any of the divisions by pivots in factorization and solve by products with the reciprocal of the pivot (as with -freciprocal-math), in addition to evaluating sums in any order. Then factor and solution satisfy the same bounds as with divisions, with one more rounding error: the computed factors are those of a matrix close to the given one, and the residual of the computed solution is bounded in terms of the computed factor. The condition is that the reciprocals of pivots do not underflow. In all binary formats this holds for pivots up to the reciprocal of the smallest normal number (2^1022 in double precision). What the program computes with divisions is one of these cases. Reciprocals are visible in the results: there is a matrix with two rows whose factorization in double precision depends on them.", "quantifier": "all arithmetics with rounding errors of sums, differences, products and quotients bounded as usual, in particular all binary formats; choices between quotient and reciprocal, orders and groupings of sums, patterns closed under fill-in, symmetric matrices, right-hand sides, regularizations, finite results", "why_tests_cant": "Tests run with the choices of one compiler, and cannot run over all numbers.", "anchors": ["ctldl/factor_data/factorization.hpp: factorize, solveInPlace", "ctldl/factor_data/factorization_repeating_block_tridiagonal_arrowhead_linked.hpp: factorize, solveInPlace", "ctldl/factorize", "ctldl/solve"]}
{"id": "C93", "title": "Definite and quasidefinite systems are solved accurately with sums in any order and with reciprocals", "statement": "Let a compiler evaluate the sums of factorization and substitution in any order and grouping, and replace any divisions by products with reciprocals which do not underflow. If a matrix is positive definite by an explicit margin (a small multiple of its diagonal elements and of the unit roundoff) and all pivots are finite, then all pivots are positive, a regularization which leaves positive pivots alone changes nothing, each element of the product of the factors differs from that of the matrix by at most a small multiple of the mean of two diagonal elements, and the residuals of solutions are bounded in terms of the diagonal elements of the matrix: there is no growth. If a matrix is positive definite on one group of rows and negative definite on the others by a margin and all pivots are finite, then the pivots have the signs of their groups and exceed the margin, the factors are bounded by explicit numbers, and so are the row sums of the differences between matrix and product of the factors and the residuals of solutions.", "quantifier": "all arithmetics with rounding errors of sums, differences, products and quotients bounded as usual, in particular all binary formats; choices between quotient and reciprocal, orders and groupings of sums, patterns closed under fill-in, definite and quasidefinite matrices by the margins, right-hand sides, regularizations as stated, finite results", "why_tests_cant": "Tests run with the choices of one compiler on a few matrices; the number of orders is exponential in the number of terms.", "anchors": ["ctldl/factor_data/factorization.hpp: factorize, solveInPlace", "ctldl/factor_data/factorization_repeating_block_tridiagonal_arrowhead_linked.hpp: factorize, solveInPlace", "ctldl/factorize", "ctldl/solve"]}
{"id": "C94", "title": "Quasidefinite matrices are factorized without overflow with sums in any order and with reciprocals", "statement": "Let a compiler evaluate the sums of the factorization in any order and grouping, and replace any divisions by products with reciprocals which do not underflow. If all elements of a matrix are finite, the matrix is positive definite on one group of rows and negative definite on the others by a margin, and precision and range of the numbers suffice (explicit conditions on the row sums of the matrix, the margin, the numbers of entries in rows and columns of the factor, and the arithmetic; in particular the reciprocal of the margin must not overflow), then no pivot and no entry of the factor is infinite or not a number, the pivots have the signs of their groups and exceed the margin, a regularization which leaves such pivots alone changes nothing, the factors are bounded by explicit numbers, and so are the row sums of the differences between matrix and product of the factors and the residuals of finite solutions. The range has to suffice for the reciprocals as well: in double precision there is a pivot which can be divided by, but whose reciprocal overflows.", "quantifier": "all arithmetics with rounding errors of sums, differences, products and quotients bounded as usual and with a range as stated, in particular binary formats; choices between quotient and reciprocal, orders and groupings of sums, patterns closed under fill-in, quasidefinite matrices by the margin, right-hand sides, regularizations as stated", "why_tests_cant": "Tests run with the choices of one compiler on a few matrices; overflow of an intermediate result of one of exponentially many orders is not observed.", "anchors": ["ctldl/factor_data/factorization.hpp: factorize, solveInPlace", "ctldl/factor_data/factorization_repeating_block_tridiagonal_arrowhead_linked.hpp: factorize, solveInPlace", "ctldl/factorize", "ctldl/solve"]}
{"id": "C95", "title": "Quasidefinite systems are solved without overflow with sums in any order and with reciprocals", "statement": "Let a compiler evaluate the sums of factorization and substitution in any order and grouping, and replace any divisions by products with reciprocals which do not underflow. If all elements of matrix and right-hand side are finite, the matrix is positive definite on one group of rows and negative definite on the others by a margin, and precision and range of the numbers suffice (explicit conditions on the row sums of the matrix, the margin, the size of the right-hand side, the numbers of entries in rows and columns of the factor, and the arithmetic), then no number in the solution is infinite or not a number, the solution is bounded by an explicit number, its residual is bounded, and so is its distance from the exact solution: nothing about factors or solution is assumed. The range has to suffice for all orders: in double precision there are numbers whose difference is finite in one order of evaluation and overflows in another.", "quantifier": "all arithmetics with rounding errors of sums, differences, products and quotients bounded as usual and with a range as stated, in particular binary formats; choices between quotient and reciprocal, orders and groupings of sums, patterns closed under fill-in, quasidefinite matrices by the margin, right-hand sides, regularizations which leave pivots beyond the margin alone", "why_tests_cant": "Tests run with the choices of one compiler on a few systems; they neither cover the orders of evaluation nor show that a finite solution is close to the exact one.", "anchors": ["ctldl/factor_data/factorization.hpp: factorize, solveInPlace", "ctldl/factor_data/factorization_repeating_block_tridiagonal_arrowhead_linked.hpp: factorize, solveInPlace", "ctldl/factorize", "ctldl/solve"]}
{"id": "C96", "title": "Quasidefinite systems are solved accurately with sums in any order, with reciprocals and with extended precision", "statement": "Let a compiler evaluate the sums of factorization and substitution in any order and grouping, replace any divisions by products with reciprocals, and keep any intermediate results with the precision and range of a wider format (each result may be rounded to its type or kept). If all elements of matrix and right-hand side are finite, the matrix is positive definite on one group of rows and negative definite on the others by a margin, and precision and range of the type suffice (explicit conditions on the row sums of the matrix, the margin, the size of the right-hand side, the numbers of entries in rows and columns of the factor, and the two formats), then pivots, factor and solution are finite and bounded by explicit numbers, the pivots have the signs of their groups and exceed the margin, and the residual of the solution and its distance from the exact solution are bounded.", "quantifier": "all binary formats, all wider formats for intermediate results, decisions which results are kept, choices between quotient and reciprocal, orders and groupings of sums, patterns closed under fill-in, quasidefinite matrices by the margin, right-hand sides, regularizations which leave pivots beyond the margin alone", "why_tests_cant": "Tests run with the choices of one compiler for one processor; results with double rounding differ from those without.", "anchors": ["ctldl/factor_data/factorization.hpp: factorize, solveInPlace", "ctldl/factor_data/factorization_repeating_block_tridiagonal_arrowhead_linked.hpp: factorize, solveInPlace", "ctldl/factorize", "ctldl/solve"]}
{"id": "C97", "title": "Quasidefinite systems are solved accurately with sums in any order and with reciprocals, in all floating point environments", "statement": "Let a compiler evaluate the sums of factorization and substitution in any order and grouping and replace any divisions by products with reciprocals, and let the program run in any floating point environment: any of the four rounding directions, and with or without subnormal operands and results replaced by zero (as with -ffast-math). If all elements of matrix and right-hand side are finite, the matrix is positive definite on one group of rows and negative definite on the others by a margin, and precision and range of the type suffice (explicit conditions on the row sums of the matrix, the margin, the size of the right-hand side, the numbers of entries in rows and columns of the factor, and the format), then pivots, factor and solution are finite and bounded by explicit numbers, no result is too large and replaced by the largest finite number, the pivots have the signs of their groups and exceed the margin, and the residual of the solution and its distance from the exact solution are bounded. The reciprocals of the pivots must not be subnormal: with subnormal numbers replaced by zero there are doubles whose quotient is one while the product with the reciprocal is zero.", "quantifier": "all binary formats, rounding directions, treatments of subnormal numbers, choices between quotient and reciprocal, orders and groupings of sums, patterns closed under fill-in, quasidefinite matrices by the margin, right-hand sides, regularizations which leave pivots beyond the margin alone", "why_tests_cant": "Tests run in the default environment with the choices of one compiler; they cannot observe results which were too large and replaced by finite numbers.", "anchors": ["ctldl/factor_data/factorization.hpp: factorize, solveInPlace", "ctldl/factor_data/factorization_repeating_block_tridiagonal_arrowhead_linked.hpp: factorize, solveInPlace", "ctldl/factorize", "ctldl/solve"]}
