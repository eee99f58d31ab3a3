{
 "claims": [
  {
   "property": "C01",
   "status": "proved",
   "theorems": [
    "Ctldl.C01_invert_permutation",
    "Ctldl.C01_invert_out_of_range",
    "Ctldl.C01_identity",
    "Ctldl.C01_equality"
   ],
   "note": "Non-permutations with an out-of-range element are undefined behaviour (C01_invert_out_of_range)."
  },
  {
   "property": "C02",
   "status": "proved",
   "theorems": [
    "Ctldl.C02_enumeration_length",
    "Ctldl.C02_enumeration_wraps",
    "Ctldl.C02_enumeration_empty",
    "Ctldl.C02_enumeration_increasing",
    "Ctldl.C02_enumeration_valid",
    "Ctldl.C02_enumeration_complete",
    "Ctldl.C02_enumeration_starts_with_identity"
   ],
   "note": "The count n! wraps around at 2^64: for more than 20 elements permutations are missing (C02_enumeration_wraps), for 66 and more nothing is returned (C02_enumeration_empty)."
  },
  {
   "property": "C03",
   "status": "proved",
   "theorems": [
    "Ctldl.C03_construct_ok_iff",
    "Ctldl.C03_construct_pre_iff"
   ],
   "note": ""
  },
  {
   "property": "C04",
   "status": "proved",
   "theorems": [
    "Ctldl.C04_csr_rows",
    "Ctldl.C04_csr_entries",
    "Ctldl.C04_csr_sorted"
   ],
   "note": ""
  },
  {
   "property": "C05",
   "status": "proved",
   "theorems": [
    "Ctldl.C05_isNonZero",
    "Ctldl.C05_entryIndex",
    "Ctldl.C05_entryIndex_assertion"
   ],
   "note": ""
  },
  {
   "property": "C06",
   "status": "proved",
   "theorems": [
    "Ctldl.C06_permuted_pattern",
    "Ctldl.C06_permute_back"
   ],
   "note": ""
  },
  {
   "property": "C07",
   "status": "proved",
   "theorems": [
    "Ctldl.C07_lower_triangle",
    "Ctldl.C07_entry_round_trip",
    "Ctldl.C07_not_square"
   ],
   "note": ""
  },
  {
   "property": "C08",
   "status": "proved",
   "theorems": [
    "Ctldl.C08_subset",
    "Ctldl.C08_subset_identity",
    "Ctldl.C08_subset_lower_triangle",
    "Ctldl.C08_equal",
    "Ctldl.C08_dimension_mismatch",
    "Ctldl.C08_dimension_mismatch_others"
   ],
   "note": ""
  },
  {
   "property": "C09",
   "status": "proved",
   "theorems": [
    "Ctldl.C09_contributions",
    "Ctldl.C09_contributions_variants"
   ],
   "note": ""
  },
  {
   "property": "C10",
   "status": "proved",
   "theorems": [
    "Ctldl.C10_influenced",
    "Ctldl.C10_influenced_assertion",
    "Ctldl.C10_influenced_variants"
   ],
   "note": ""
  },
  {
   "property": "C11",
   "status": "proved",
   "theorems": [
    "Ctldl.C11_value_stored",
    "Ctldl.C11_value_not_stored",
    "Ctldl.C11_value_nodup"
   ],
   "note": ""
  },
  {
   "property": "C12",
   "status": "proved",
   "theorems": [
    "Ctldl.C12_dimensions",
    "Ctldl.C12_elimination_tree",
    "Ctldl.C12_parent_accessors",
    "Ctldl.C12_not_square"
   ],
   "note": ""
  },
  {
   "property": "C13",
   "status": "proved",
   "theorems": [
    "Ctldl.C13_blocked3x3",
    "Ctldl.C13_blocked2x2",
    "Ctldl.C13_inconsistent",
    "Ctldl.C13_inconsistent_2x2"
   ],
   "note": ""
  },
  {
   "property": "C14",
   "status": "proved",
   "theorems": [
    "Ctldl.C14_filled_in",
    "Ctldl.C14_smallest",
    "Ctldl.C14_contract"
   ],
   "note": ""
  },
  {
   "property": "C15",
   "status": "proved",
   "theorems": [
    "Ctldl.C15_blocked3x3",
    "Ctldl.C15_blocked2x2",
    "Ctldl.C15_blocked2x2_unpermuted"
   ],
   "note": ""
  },
  {
   "property": "C16",
   "status": "proved",
   "theorems": [
    "Ctldl.C16_fixed_point",
    "Ctldl.C16_actual_tree",
    "Ctldl.C16_inconsistent"
   ],
   "note": ""
  },
  {
   "property": "C17",
   "status": "proved",
   "theorems": [
    "Ctldl.C17_covers",
    "Ctldl.C17_inconsistent"
   ],
   "note": ""
  },
  {
   "property": "C18",
   "status": "proved",
   "theorems": [
    "Ctldl.C18_not_larger"
   ],
   "note": ""
  },
  {
   "property": "C19",
   "status": "proved",
   "theorems": [
    "Ctldl.C19_isChordalBlocked",
    "Ctldl.C19_duplicates_wrong"
   ],
   "note": ""
  },
  {
   "property": "C20",
   "status": "proved",
   "theorems": [
    "Ctldl.C20_rewrap",
    "Ctldl.C20_rewrap_fill"
   ],
   "note": ""
  },
  {
   "property": "C21",
   "status": "proved",
   "theorems": [
    "Ctldl.C21_instantiable",
    "Ctldl.C21_pattern",
    "Ctldl.C21_fill",
    "Ctldl.C21_factorize_total",
    "Ctldl.C21_constructible",
    "Ctldl.C21_within_fits",
    "Ctldl.C21_declared_fits"
   ],
   "note": ""
  },
  {
   "property": "C22",
   "status": "proved",
   "theorems": [
    "Ctldl.C22_upLooking_reproduces",
    "Ctldl.C22_blocks_reproduce"
   ],
   "note": ""
  },
  {
   "property": "C23",
   "status": "proved",
   "theorems": [
    "Ctldl.C23_entryWise_reproduces"
   ],
   "note": ""
  },
  {
   "property": "C24",
   "status": "proved",
   "theorems": [
    "Ctldl.C24_repeating_agree",
    "Ctldl.C24_blocks_agree",
    "Ctldl.C24_methods_agree"
   ],
   "note": ""
  },
  {
   "property": "C25",
   "status": "proved",
   "theorems": [
    "Ctldl.C25_repeating_total",
    "Ctldl.C25_blocks_total",
    "Ctldl.C25_factorize_total",
    "Ctldl.C25_solve_total"
   ],
   "note": ""
  },
  {
   "property": "C26",
   "status": "proved",
   "theorems": [
    "Ctldl.C26_repeating_history_independent",
    "Ctldl.C26_repeating_refactorize",
    "Ctldl.C26_history_independent",
    "Ctldl.C26_refactorize"
   ],
   "note": ""
  },
  {
   "property": "C27",
   "status": "proved",
   "theorems": [
    "Ctldl.C27_repeating_lower_triangle_only",
    "Ctldl.C27_lower_triangle_only"
   ],
   "note": ""
  },
  {
   "property": "C28",
   "status": "proved",
   "theorems": [
    "Ctldl.C28_repeating_small_positive_constant",
    "Ctldl.C28_small_positive_constant",
    "Ctldl.C28_none",
    "Ctldl.C28_exchange",
    "Ctldl.C28_repeating_exchange",
    "Ctldl.C28_tridiagonal_exchange",
    "Ctldl.C28_not_needed",
    "Ctldl.C28_repeating_not_needed",
    "Ctldl.C28_tridiagonal_not_needed",
    "Ctldl.C28_not_used",
    "Ctldl.C28_repeating_not_used",
    "Ctldl.C28_solve"
   ],
   "note": ""
  },
  {
   "property": "C29",
   "status": "proved",
   "theorems": [
    "Ctldl.C29_solve",
    "Ctldl.C29_solve_unregularized",
    "Ctldl.C29_solve_unique"
   ],
   "note": ""
  },
  {
   "property": "C30",
   "status": "proved",
   "theorems": [
    "Ctldl.C30_independent_of_permutation"
   ],
   "note": ""
  },
  {
   "property": "C31",
   "status": "proved",
   "theorems": [
    "Ctldl.C31_substitutions_total",
    "Ctldl.C31_forward",
    "Ctldl.C31_backward",
    "Ctldl.C31_forward_in_place",
    "Ctldl.C31_backward_in_place",
    "Ctldl.C31_forward_left",
    "Ctldl.C31_diagonal"
   ],
   "note": ""
  },
  {
   "property": "C32",
   "status": "proved",
   "theorems": [
    "Ctldl.C32_total",
    "Ctldl.C32_normal",
    "Ctldl.C32_transposed",
    "Ctldl.C32_symmetric",
    "Ctldl.C32_symmetric_upper"
   ],
   "note": ""
  },
  {
   "property": "C33",
   "status": "proved",
   "theorems": [
    "Ctldl.C33_tridiagonal",
    "Ctldl.C33_tridiagonal_rejects",
    "Ctldl.C33_arrowhead",
    "Ctldl.C33_arrowhead_rejects",
    "Ctldl.C33_outer_count_unchecked"
   ],
   "note": ""
  },
  {
   "property": "C34",
   "status": "proved",
   "theorems": [
    "Ctldl.C34_reproduces",
    "Ctldl.C34_none"
   ],
   "note": ""
  },
  {
   "property": "C35",
   "status": "proved",
   "theorems": [
    "Ctldl.C35_solve_total",
    "Ctldl.C35_forward",
    "Ctldl.C35_diagonal",
    "Ctldl.C35_backward",
    "Ctldl.C35_solve",
    "Ctldl.C35_solve_unregularized",
    "Ctldl.C35_solve_unique",
    "Ctldl.C35_independent_of_permutation",
    "Ctldl.C35_small_positive_constant"
   ],
   "note": ""
  },
  {
   "property": "C36",
   "status": "proved",
   "theorems": [
    "Ctldl.C36_repeating",
    "Ctldl.C36_single",
    "Ctldl.C36_repeated_entry_differs",
    "Ctldl.C36_upper_entry_differs"
   ],
   "note": ""
  },
  {
   "property": "C37",
   "status": "proved",
   "theorems": [
    "Ctldl.C37_constructible",
    "Ctldl.C37_rejects",
    "Ctldl.C37_declared_fits",
    "Ctldl.C37_total",
    "Ctldl.C37_solve",
    "Ctldl.C37_solve_unregularized",
    "Ctldl.C37_solve_unique",
    "Ctldl.C37_round_trip"
   ],
   "note": ""
  },
  {
   "property": "C38",
   "status": "proved",
   "theorems": [
    "Ctldl.C38_blocks_rejected",
    "Ctldl.C38_rejected",
    "Ctldl.C38_repeating_rejected",
    "Ctldl.C38_outer_accepted",
    "Ctldl.C38_outer_ignored",
    "Ctldl.C38_outer_not_rejected"
   ],
   "note": "The outer block row lacks the check: proved in general that undeclared values there are accepted and ignored (C38_outer_accepted, C38_outer_ignored), with a concrete witness (C38_outer_not_rejected)."
  },
  {
   "property": "C39",
   "status": "proved",
   "theorems": [
    "Ctldl.C39_block",
    "Ctldl.C39_flatten",
    "Ctldl.C39_flatten_block",
    "Ctldl.C39_block_flatten",
    "Ctldl.C39_block_zero"
   ],
   "note": "A zero block size is undefined behaviour (C39_block_zero)."
  },
  {
   "property": "C40",
   "status": "partial",
   "theorems": [
    "Ctldl.C40_placed_partial",
    "Ctldl.C40_uncovered_partial",
    "Ctldl.C40_small",
    "Ctldl.C40_places_distinct",
    "Ctldl.C40_places_cover",
    "Ctldl.C40_far_block_accepted",
    "Ctldl.C40_outer_row_misplaced",
    "Ctldl.C40_start_row_undefined",
    "Ctldl.C40_text_partial"
   ],
   "note": "Violated by the code for entries outside Dims.Handles: two or more repeated blocks off the diagonal (C40_far_block_accepted), outer rows beyond the repeated block size (C40_outer_row_misplaced), start columns in rows after the first repeated block (C40_start_row_undefined). Proved for all files without such entries (C40_placed_partial, C40_uncovered_partial), and for all files where such entries cannot occur (C40_small). What happens to all other files is described by C65."
  },
  {
   "property": "C41",
   "status": "proved",
   "theorems": [
    "Ctldl.C41_traverses",
    "Ctldl.C41_detects",
    "Ctldl.C41_throws",
    "Ctldl.C41_header",
    "Ctldl.C41_entry",
    "Ctldl.C41_count",
    "Ctldl.C41_size",
    "Ctldl.C41_read_size",
    "Ctldl.C41_zero_block_undefined"
   ],
   "note": "For an empty repeating block the size check divides by zero (C41_zero_block_undefined); the size theorems assume a non-empty one."
  },
  {
   "property": "C42",
   "status": "proved",
   "theorems": [
    "Ctldl.C42_all_equal",
    "Ctldl.C42_dim_start",
    "Ctldl.C42_dim_link",
    "Ctldl.C42_dim_tridiag",
    "Ctldl.C42_dim_outer",
    "Ctldl.C42_instantiation_checks"
   ],
   "note": ""
  },
  {
   "property": "C43",
   "status": "proved",
   "theorems": [
    "Ctldl.C43_bool_matrix"
   ],
   "note": ""
  },
  {
   "property": "C44",
   "status": "proved",
   "theorems": [
    "Ctldl.C44_uniform",
    "Ctldl.C44_uniform_bounds",
    "Ctldl.C44_shuffle",
    "Ctldl.C44_procedural_permutation",
    "Ctldl.C44_last_stays"
   ],
   "note": "The upper bound of the distribution is never returned, and therefore the last element is never moved by shuffle (C44_last_stays)."
  },
  {
   "property": "C45",
   "status": "proved",
   "theorems": [
    "Ctldl.C45_read_factorize",
    "Ctldl.C45_read_solve"
   ],
   "note": "Uses the hypotheses of C40_placed_partial on the file, which exclude the entries the reader misplaces."
  },
  {
   "property": "C46",
   "status": "proved",
   "theorems": [
    "Ctldl.C46_backward_error",
    "Ctldl.C46_backward_error_unregularized",
    "Ctldl.C46_gamma_le",
    "Ctldl.C46_single_backward_error",
    "Ctldl.C46_regularization_finite",
    "Ctldl.C46_small_positive_constant",
    "Ctldl.C46_any_regularization",
    "Ctldl.C46_tridiagonal"
   ],
   "note": "Stated for any number type satisfying the standard model of rounding (Rounding); Binary.rounding proves it for IEEE binary formats with round-to-nearest-even, gradual underflow and overflow. Rounding also covers contracted arithmetic (C50)."
  },
  {
   "property": "C47",
   "status": "proved",
   "theorems": [
    "Ctldl.C47_small_positive_constant",
    "Ctldl.C47_forward",
    "Ctldl.C47_diagonal",
    "Ctldl.C47_backward",
    "Ctldl.C47_solve",
    "Ctldl.C47_residual",
    "Ctldl.C47_residual_unregularized",
    "Ctldl.C47_single_solve",
    "Ctldl.C47_single_residual",
    "Ctldl.C47_single_residual_unregularized",
    "Ctldl.C47_tridiagonal"
   ],
   "note": "As C46. The hypotheses are on the results only (finite pivots and solution); finiteness of all intermediate numbers is derived."
  },
  {
   "property": "C48",
   "status": "proved",
   "theorems": [
    "Ctldl.C48_nonzero_iff",
    "Ctldl.C48_quasidefinite",
    "Ctldl.C48_positive_iff",
    "Ctldl.C48_solve",
    "Ctldl.C48_repeating_nonzero_iff",
    "Ctldl.C48_repeating_quasidefinite",
    "Ctldl.C48_repeating_positive_iff",
    "Ctldl.C48_repeating_solve",
    "Ctldl.C48_tridiagonal_positive_iff",
    "Ctldl.C48_tridiagonal_solve"
   ],
   "note": ""
  },
  {
   "property": "C49",
   "status": "proved",
   "theorems": [
    "Ctldl.C49_convert_first",
    "Ctldl.C49_total",
    "Ctldl.C49_backward_error",
    "Ctldl.C49_solve",
    "Ctldl.C49_residual",
    "Ctldl.C49_binary",
    "Ctldl.C49_single_backward_error",
    "Ctldl.C49_single_solve"
   ],
   "note": "C49_single_solve is for conversions without errors (right-hand side at least as wide as the factor); the blocked version also covers conversions with errors."
  },
  {
   "property": "C50",
   "status": "proved",
   "theorems": [
    "Ctldl.C50_stored",
    "Ctldl.C50_residual"
   ],
   "note": "Choices may depend on how the operands were computed (tags). The generic theorems of C46 and C47 hold for contracted arithmetic too, including regularization and single matrices, through Contracted.rounding."
  },
  {
   "property": "C51",
   "status": "proved",
   "theorems": [
    "Ctldl.C51_factorize",
    "Ctldl.C51_solve",
    "Ctldl.C51_repeating_factorize",
    "Ctldl.C51_repeating_solve",
    "Ctldl.C51_tridiagonal",
    "Ctldl.C51_tridiagonal_solve",
    "Ctldl.C51_homomorphism",
    "Ctldl.C51_single_homomorphism"
   ],
   "note": ""
  },
  {
   "property": "C52",
   "status": "proved",
   "theorems": [
    "Ctldl.C52_total",
    "Ctldl.C52_total_tridiagonal",
    "Ctldl.C52_convert_first",
    "Ctldl.C52_normal",
    "Ctldl.C52_transposed",
    "Ctldl.C52_symmetric",
    "Ctldl.C52_tridiagonal",
    "Ctldl.C52_arrowhead",
    "Ctldl.C52_round_trip",
    "Ctldl.C52_binary"
   ],
   "note": ""
  },
  {
   "property": "C53",
   "status": "proved",
   "theorems": [
    "Ctldl.C53_single",
    "Ctldl.C53_single_residual",
    "Ctldl.C53_repeating",
    "Ctldl.C53_residual",
    "Ctldl.C53_tridiagonal",
    "Ctldl.C53_tridiagonal_residual"
   ],
   "note": ""
  },
  {
   "property": "C54",
   "status": "proved",
   "theorems": [
    "Ctldl.C54_limit",
    "Ctldl.C54_numbers",
    "Ctldl.C54_period",
    "Ctldl.C54_any",
    "Ctldl.C54_symmetric",
    "Ctldl.C54_symmetric_square",
    "Ctldl.C54_tridiagonal",
    "Ctldl.C54_arrowhead"
   ],
   "note": ""
  },
  {
   "property": "C55",
   "status": "proved",
   "theorems": [
    "Ctldl.C55_single_total",
    "Ctldl.C55_tridiagonal_total",
    "Ctldl.C55_arrowhead_total",
    "Ctldl.C55_tridiagonal_zero",
    "Ctldl.C55_random_tridiagonal",
    "Ctldl.C55_random_arrowhead",
    "Ctldl.C55_single",
    "Ctldl.C55_tridiagonal",
    "Ctldl.C55_arrowhead"
   ],
   "note": ""
  },
  {
   "property": "C56",
   "status": "proved",
   "theorems": [
    "Ctldl.C56_valid",
    "Ctldl.C56_elements",
    "Ctldl.C56_positive_definite",
    "Ctldl.C56_test"
   ],
   "note": ""
  },
  {
   "property": "C57",
   "status": "proved",
   "theorems": [
    "Ctldl.C57_single",
    "Ctldl.C57_repeating",
    "Ctldl.C57_tridiagonal"
   ],
   "note": ""
  },
  {
   "property": "C58",
   "status": "proved",
   "theorems": [
    "Ctldl.C58_single",
    "Ctldl.C58_repeating",
    "Ctldl.C58_tridiagonal"
   ],
   "note": ""
  },
  {
   "property": "C59",
   "status": "proved",
   "theorems": [
    "Ctldl.C59_product",
    "Ctldl.C59_join",
    "Ctldl.C59_zip",
    "Ctldl.C59_foreach",
    "Ctldl.C59_product_count",
    "Ctldl.C59_foreach_count",
    "Ctldl.C59_all_permutations",
    "Ctldl.C59_single_small",
    "Ctldl.C59_single_larger",
    "Ctldl.C59_repeating_small",
    "Ctldl.C59_repeating_larger",
    "Ctldl.C59_repeating_random",
    "Ctldl.C59_arrowhead_random"
   ],
   "note": ""
  },
  {
   "property": "C60",
   "status": "proved",
   "theorems": [
    "Ctldl.C60_lfat5_positive_definite",
    "Ctldl.C60_nos2_block_positive_definite",
    "Ctldl.C60_lfat5",
    "Ctldl.C60_nos2_block",
    "Ctldl.C60_nos2_indefinite",
    "Ctldl.C60_nos2_pivots",
    "Ctldl.C60_indefinite"
   ],
   "note": ""
  },
  {
   "property": "C61",
   "status": "proved",
   "theorems": [
    "Ctldl.C61_normal",
    "Ctldl.C61_transposed",
    "Ctldl.C61_symmetric",
    "Ctldl.C61_tridiagonal",
    "Ctldl.C61_arrowhead",
    "Ctldl.C61_binary"
   ],
   "note": ""
  },
  {
   "property": "C62",
   "status": "proved",
   "theorems": [
    "Ctldl.C62_single",
    "Ctldl.C62_repeating",
    "Ctldl.C62_tridiagonal"
   ],
   "note": ""
  },
  {
   "property": "C63",
   "status": "proved",
   "theorems": [
    "Ctldl.C63_binary64",
    "Ctldl.C63_contracted",
    "Ctldl.C63_error",
    "Ctldl.C63_passes"
   ],
   "note": ""
  },
  {
   "property": "C64",
   "status": "proved",
   "theorems": [
    "Ctldl.C64_lines",
    "Ctldl.C64_lines_cover",
    "Ctldl.C64_header",
    "Ctldl.C64_entry_sound",
    "Ctldl.C64_entry_complete",
    "Ctldl.C64_undefined",
    "Ctldl.C64_blank",
    "Ctldl.C64_file",
    "Ctldl.C64_scans",
    "Ctldl.C64_defined",
    "Ctldl.C64_written",
    "Ctldl.C64_fraction_split",
    "Ctldl.C64_negative_accepted",
    "Ctldl.C64_rest_ignored",
    "Ctldl.C64_too_large",
    "Ctldl.C64_empty_line"
   ],
   "note": ""
  },
  {
   "property": "C65",
   "status": "proved",
   "theorems": [
    "Ctldl.C65_accepted",
    "Ctldl.C65_rejected",
    "Ctldl.C65_undefined",
    "Ctldl.C65_not_moved",
    "Ctldl.C65_lines",
    "Ctldl.C65_text",
    "Ctldl.C65_succeeds"
   ],
   "note": ""
  },
  {
   "property": "C66",
   "status": "proved",
   "theorems": [
    "Ctldl.C66_structures",
    "Ctldl.C66_runs",
    "Ctldl.C66_programs",
    "Ctldl.C66_iterations",
    "Ctldl.C66_construct",
    "Ctldl.C66_zero_iterations",
    "Ctldl.C66_solution"
   ],
   "note": ""
  },
  {
   "property": "C67",
   "status": "proved",
   "theorems": [
    "Ctldl.C67_loops",
    "Ctldl.C67_tridiagonal_exact",
    "Ctldl.C67_tridiagonal",
    "Ctldl.C67_nos",
    "Ctldl.C67_lfat5",
    "Ctldl.C67_indef_single",
    "Ctldl.C67_indef"
   ],
   "note": ""
  },
  {
   "property": "C68",
   "status": "proved",
   "theorems": [
    "Ctldl.C68_single",
    "Ctldl.C68_repeating",
    "Ctldl.C68_tridiagonal",
    "Ctldl.C68_small_constant",
    "Ctldl.C68_range_needed",
    "Ctldl.C68_fixed_constants"
   ],
   "note": ""
  },
  {
   "property": "C69",
   "status": "proved",
   "theorems": [
    "Ctldl.C69_determinant",
    "Ctldl.C69_inertia",
    "Ctldl.C69_independent",
    "Ctldl.C69_eigenvalues",
    "Ctldl.C69_repeating_determinant",
    "Ctldl.C69_repeating_inertia",
    "Ctldl.C69_repeating_independent",
    "Ctldl.C69_repeating_eigenvalues",
    "Ctldl.C69_tridiagonal"
   ],
   "note": ""
  },
  {
   "property": "C70",
   "status": "proved",
   "theorems": [
    "Ctldl.C70_runs",
    "Ctldl.C70_programs"
   ],
   "note": ""
  },
  {
   "property": "C71",
   "status": "proved",
   "theorems": [
    "Ctldl.C71_assembled",
    "Ctldl.C71_same",
    "Ctldl.C71_same_unregularized",
    "Ctldl.C71_tridiagonal_assembled",
    "Ctldl.C71_tridiagonal",
    "Ctldl.C71_entryWise_differs"
   ],
   "note": ""
  },
  {
   "property": "C72",
   "status": "proved",
   "theorems": [
    "Ctldl.C72_operations",
    "Ctldl.C72_signs",
    "Ctldl.C72_invalid",
    "Ctldl.C72_infinite",
    "Ctldl.C72_fused",
    "Ctldl.C72_unique",
    "Ctldl.C72_numeral",
    "Ctldl.C72_words",
    "Ctldl.C72_exact",
    "Ctldl.C72_read",
    "Ctldl.C72_solve",
    "Ctldl.C72_solve_unregularized"
   ],
   "note": ""
  },
  {
   "property": "C73",
   "status": "proved",
   "theorems": [
    "Ctldl.C73_factor",
    "Ctldl.C73_determined",
    "Ctldl.C73_solve",
    "Ctldl.C73_solve_determined",
    "Ctldl.C73_repeating",
    "Ctldl.C73_without_outer",
    "Ctldl.C73_determined_outer",
    "Ctldl.C73_repeating_solve"
   ],
   "note": ""
  },
  {
   "property": "C74",
   "status": "proved",
   "theorems": [
    "Ctldl.C74_usage",
    "Ctldl.C74_no_number",
    "Ctldl.C74_large_number",
    "Ctldl.C74_number",
    "Ctldl.C74_missing",
    "Ctldl.C74_defined",
    "Ctldl.C74_lines",
    "Ctldl.C74_zero",
    "Ctldl.C74_printed",
    "Ctldl.C74_numbers"
   ],
   "note": ""
  },
  {
   "property": "C75",
   "status": "proved",
   "theorems": [
    "Ctldl.C75_single",
    "Ctldl.C75_repeating",
    "Ctldl.C75_tridiagonal"
   ],
   "note": ""
  },
  {
   "property": "C76",
   "status": "proved",
   "theorems": [
    "Ctldl.C76_single",
    "Ctldl.C76_repeating",
    "Ctldl.C76_tridiagonal"
   ],
   "note": ""
  },
  {
   "property": "C77",
   "status": "proved",
   "theorems": [
    "Ctldl.C77_lines",
    "Ctldl.C77_text",
    "Ctldl.C77_differ",
    "Ctldl.C77_unique"
   ],
   "note": ""
  },
  {
   "property": "C78",
   "status": "proved",
   "theorems": [
    "Ctldl.C78_number",
    "Ctldl.C78_entry",
    "Ctldl.C78_entry_injective",
    "Ctldl.C78_permutation",
    "Ctldl.C78_permutation_injective",
    "Ctldl.C78_contract_kind",
    "Ctldl.C78_contract_location",
    "Ctldl.C78_contract_given"
   ],
   "note": ""
  },
  {
   "property": "C79",
   "status": "proved",
   "theorems": [
    "Ctldl.C79_reader",
    "Ctldl.C79_text",
    "Ctldl.C79_memory",
    "Ctldl.C79_constructor",
    "Ctldl.C79_assertion"
   ],
   "note": ""
  },
  {
   "property": "C80",
   "status": "proved",
   "theorems": [
    "Ctldl.C80_single",
    "Ctldl.C80_repeating",
    "Ctldl.C80_tridiagonal",
    "Ctldl.C80_small_constant",
    "Ctldl.C80_nonzero_needed",
    "Ctldl.C80_positive_constant"
   ],
   "note": ""
  },
  {
   "property": "C81",
   "status": "proved",
   "theorems": [
    "Ctldl.C81_direction",
    "Ctldl.C81_enclosed",
    "Ctldl.C81_default",
    "Ctldl.C81_operations",
    "Ctldl.C81_flag",
    "Ctldl.C81_special",
    "Ctldl.C81_flush",
    "Ctldl.C81_residual",
    "Ctldl.C81_definite",
    "Ctldl.C81_definite_single",
    "Ctldl.C81_overflow_unnoticed"
   ],
   "note": ""
  },
  {
   "property": "C82",
   "status": "proved",
   "theorems": [
    "Ctldl.C82_single",
    "Ctldl.C82_repeating",
    "Ctldl.C82_tridiagonal",
    "Ctldl.C82_factors"
   ],
   "note": ""
  },
  {
   "property": "C83",
   "status": "proved",
   "theorems": [
    "Ctldl.C83_exact_iff",
    "Ctldl.C83_lockstep",
    "Ctldl.C83_lockstep_single",
    "Ctldl.C83_solution",
    "Ctldl.C83_solution_single"
   ],
   "note": ""
  },
  {
   "property": "C84",
   "status": "proved",
   "theorems": [
    "Ctldl.C84_part",
    "Ctldl.C84_leading",
    "Ctldl.C84_repeating",
    "Ctldl.C84_repeating_part"
   ],
   "note": ""
  },
  {
   "property": "C85",
   "status": "proved",
   "theorems": [
    "Ctldl.C85_exact",
    "Ctldl.C85_single",
    "Ctldl.C85_assembled_exact",
    "Ctldl.C85_assembled",
    "Ctldl.C85_repeating_exact",
    "Ctldl.C85_repeating",
    "Ctldl.C85_fits"
   ],
   "note": ""
  },
  {
   "property": "C86",
   "status": "proved",
   "theorems": [
    "Ctldl.C86_least",
    "Ctldl.C86_monotone"
   ],
   "note": ""
  },
  {
   "property": "C87",
   "status": "proved",
   "theorems": [
    "Ctldl.C87_signs",
    "Ctldl.C87_signs_exact",
    "Ctldl.C87_comparison",
    "Ctldl.C87_comparison_exact",
    "Ctldl.C87_repeating_signs",
    "Ctldl.C87_repeating_signs_exact",
    "Ctldl.C87_repeating_comparison",
    "Ctldl.C87_repeating_comparison_exact",
    "Ctldl.C87_entryWise"
   ],
   "note": ""
  },
  {
   "property": "C88",
   "status": "proved",
   "theorems": [
    "Ctldl.C88_residual",
    "Ctldl.C88_definite",
    "Ctldl.C88_definite_single"
   ],
   "note": ""
  },
  {
   "property": "C89",
   "status": "proved",
   "theorems": [
    "Ctldl.C89_read_back",
    "Ctldl.C89_repeating",
    "Ctldl.C89_single",
    "Ctldl.C89_float_double",
    "Ctldl.C89_double_quadruple",
    "Ctldl.C89_x87"
   ],
   "note": ""
  },
  {
   "property": "C90",
   "status": "proved",
   "theorems": [
    "Ctldl.C90_backward_error",
    "Ctldl.C90_solve",
    "Ctldl.C90_residual",
    "Ctldl.C90_in_order_outer",
    "Ctldl.C90_in_order",
    "Ctldl.C90_in_order_solve",
    "Ctldl.C90_factor",
    "Ctldl.C90_repeating",
    "Ctldl.C90_halves",
    "Ctldl.C90_order_matters"
   ],
   "note": ""
  },
  {
   "property": "C91",
   "status": "proved",
   "theorems": [
    "Ctldl.C91_contracted",
    "Ctldl.C91_contracted_single",
    "Ctldl.C91_extended",
    "Ctldl.C91_extended_single",
    "Ctldl.C91_environment",
    "Ctldl.C91_environment_single"
   ],
   "note": ""
  },
  {
   "property": "C92",
   "status": "proved",
   "theorems": [
    "Ctldl.C92_backward_error",
    "Ctldl.C92_solve",
    "Ctldl.C92_residual",
    "Ctldl.C92_divisions",
    "Ctldl.C92_divisions_solve",
    "Ctldl.C92_reciprocal",
    "Ctldl.C92_reciprocal_matters"
   ],
   "note": ""
  },
  {
   "property": "C93",
   "status": "proved",
   "theorems": [
    "Ctldl.C93_definite",
    "Ctldl.C93_definite_divisions",
    "Ctldl.C93_quasidefinite",
    "Ctldl.C93_quasidefinite_divisions"
   ],
   "note": ""
  },
  {
   "property": "C94",
   "status": "proved",
   "theorems": [
    "Ctldl.C94_quasidefinite",
    "Ctldl.C94_divisions",
    "Ctldl.C94_reciprocal_overflow"
   ],
   "note": ""
  },
  {
   "property": "C95",
   "status": "proved",
   "theorems": [
    "Ctldl.C95_quasidefinite",
    "Ctldl.C95_divisions",
    "Ctldl.C95_order_overflow"
   ],
   "note": ""
  },
  {
   "property": "C96",
   "status": "proved",
   "theorems": [
    "Ctldl.C96_quasidefinite"
   ],
   "note": ""
  },
  {
   "property": "C97",
   "status": "proved",
   "theorems": [
    "Ctldl.C97_overflow",
    "Ctldl.C97_quasidefinite",
    "Ctldl.C97_reciprocal_flushed"
   ],
   "note": ""
  }
 ]
}