{
 "claims": [
  {
   "property": "C01",
   "status": "proved",
   "theorems": [
    "Verif.Props.C01_generate_all_complete",
    "Verif.Props.C01_generate_all_terminates",
    "Verif.Props.C01_iterator_restarts"
   ],
   "note": "Iterator modelled as a state machine; complete, duplicate free, terminating for all n, r. C01_iterator_restarts records that the iterator does not stay exhausted."
  },
  {
   "property": "C02",
   "status": "proved",
   "theorems": [
    "Verif.Props.C02_order",
    "Verif.Props.C02_first",
    "Verif.Props.C02_digit_value_increasing",
    "Verif.Props.C02_doc_base_r_false"
   ],
   "note": "Order as strict comparison with last component most significant; the docstring's base-r formulation is refuted, base r+1 proved."
  },
  {
   "property": "C03",
   "status": "partial",
   "theorems": [
    "Verif.Props.C03_count",
    "Verif.Props.C03_degree_from_dimension_partial",
    "Verif.Props.C03_degree_from_dimension_fails",
    "Verif.Props.C03_degree_from_dimension_rejects"
   ],
   "note": "Counts proved for all n, r; degree inference holds only for degree < 20 (cap in the code), refuted from 20 on."
  },
  {
   "property": "C04",
   "status": "proved",
   "theorems": [
    "Verif.Props.C04_get_index_generate",
    "Verif.Props.C04_get_index_total",
    "Verif.Props.C04_get_index_of_generate",
    "Verif.Props.C04_generate_past_end",
    "Verif.Props.C04_cache_agrees"
   ],
   "note": "All multi-indices; the shipped cache table is checked entry by entry in the kernel."
  },
  {
   "property": "C05",
   "status": "proved",
   "theorems": [
    "Verif.Props.C05_multi_cap_complete",
    "Verif.Props.C05_multi_cap_nth",
    "Verif.Props.C05_multi_cap_terminates"
   ],
   "note": "Iterator and mixed radix arithmetic agree for every cap vector."
  },
  {
   "property": "C06",
   "status": "proved",
   "theorems": [
    "Verif.Props.C06_exact_round_trip",
    "Verif.Props.C06_general_round_trip",
    "Verif.Props.C06_exact_norm_complete"
   ],
   "note": "Both round trips, the error branch, and completeness of generate_all_exact_norm."
  },
  {
   "property": "C07",
   "status": "proved",
   "theorems": [
    "Verif.Props.C07_is_increasing",
    "Verif.Props.C07_is_non_decreasing",
    "Verif.Props.C07_all_increasing",
    "Verif.Props.C07_all_non_decreasing"
   ],
   "note": "Filters over the mixed radix enumeration."
  },
  {
   "property": "C08",
   "status": "proved",
   "theorems": [
    "Verif.Props.C08_nonneg_invariant",
    "Verif.Props.C08_failure_unchanged",
    "Verif.Props.C08_negative_rejected",
    "Verif.Props.C08_set_item",
    "Verif.Props.C08_alias_breaks_invariant"
   ],
   "note": "Heap model with sharing of list arguments; the invariant needs that the program does not write into a list it passed to MultiIndex (refuted otherwise)."
  },
  {
   "property": "C09",
   "status": "proved",
   "theorems": [
    "Verif.Props.C09_power_add",
    "Verif.Props.C09_power_mul",
    "Verif.Props.C09_power_spec",
    "Verif.Props.C09_multinom",
    "Verif.Props.C09_binom",
    "Verif.Props.C09_binom_factorial",
    "Verif.Props.C09_norm_add",
    "Verif.Props.C09_multinom_general",
    "Verif.Props.C09_add_truncates"
   ],
   "note": "Laws over arbitrary commutative monoids / exact rationals; operands of different length are truncated (C09_add_truncates)."
  },
  {
   "property": "C10",
   "status": "partial",
   "theorems": [
    "Verif.Props.C10_arithmetic",
    "Verif.Props.C10_mixed_moduli",
    "Verif.Props.C10_comparisons_partial",
    "Verif.Props.C10_gt_int_crashes",
    "Verif.Props.C10_eq_int_not_modular"
   ],
   "note": "Arithmetic proved for all expression trees; > and <= with plain integers raise AttributeError (C10_gt_int_crashes), so the ordering clause is partial."
  },
  {
   "property": "C11",
   "status": "partial",
   "theorems": [
    "Verif.Props.C11_cartesian_product",
    "Verif.Props.C11_nfold_partial",
    "Verif.Props.C11_zero_and_one_differ"
   ],
   "note": "True for n >= 2; for n = 0, 1 the returned set has a different shape (C11_zero_and_one_differ)."
  },
  {
   "property": "C12",
   "status": "proved",
   "theorems": [
    "Verif.Props.C12_oneLine_iff",
    "Verif.Props.C12_inverse",
    "Verif.Props.C12_composition",
    "Verif.Props.C12_composition_apply",
    "Verif.Props.C12_group",
    "Verif.Props.C12_two_line",
    "Verif.Props.C12_one_based",
    "Verif.Props.C12_empty"
   ],
   "note": "Full group laws for n >= 1; the empty permutation raises IndexError (C12_empty), recorded as a finding."
  },
  {
   "property": "C13",
   "status": "proved",
   "theorems": [
    "Verif.Props.C13_cycle",
    "Verif.Props.C13_cycle_notation",
    "Verif.Props.C13_from_cycles_omit"
   ],
   "note": "Termination, disjointness, coverage and round trip."
  },
  {
   "property": "C14",
   "status": "proved",
   "theorems": [
    "Verif.Props.C14_transpositions",
    "Verif.Props.C14_from_transpositions",
    "Verif.Props.C14_swap"
   ],
   "note": "Round trip and order of the product for every list of transpositions."
  },
  {
   "property": "C15",
   "status": "proved",
   "theorems": [
    "Verif.Props.C15_sign",
    "Verif.Props.C15_inversions",
    "Verif.Props.C15_sign_laws",
    "Verif.Props.C15_num_fixed_points"
   ],
   "note": "sign equals Mathlib's Equiv.Perm.sign."
  },
  {
   "property": "C16",
   "status": "proved",
   "theorems": [
    "Verif.Props.C16_permute_values",
    "Verif.Props.C16_permute_positions",
    "Verif.Props.C16_mutually_inverse",
    "Verif.Props.C16_action_of_composition",
    "Verif.Props.C16_matrices"
   ],
   "note": "Both actions, mutual inverses, composition rules, matrices."
  },
  {
   "property": "C17",
   "status": "proved",
   "theorems": [
    "Verif.Props.C17_subset_permutations",
    "Verif.Props.C17_permutations",
    "Verif.Props.C17_increasing",
    "Verif.Props.C17_out_of_range",
    "Verif.Props.C17_zero_disagrees"
   ],
   "note": "Complete for 1 <= k <= n; C17_zero_disagrees records the disagreement of lists and counts at k = 0."
  },
  {
   "property": "C18",
   "status": "proved",
   "theorems": [
    "Verif.Props.C18_random_permutation",
    "Verif.Props.C18_uniform",
    "Verif.Props.C18_random_subset"
   ],
   "note": "Every permutation is reached by exactly one admissible sequence of draws."
  },
  {
   "property": "C19",
   "status": "proved",
   "theorems": [
    "Verif.Props.C19_construct_permutation",
    "Verif.Props.C19_construct_permutation_rejects",
    "Verif.Props.C19_construct_permutation_general",
    "Verif.Props.C19_general_unknown_element",
    "Verif.Props.C19_general_accepts_repeats"
   ],
   "note": "C19_general_accepts_repeats records that repeated elements are not rejected."
  },
  {
   "property": "C20",
   "status": "proved",
   "theorems": [
    "Verif.Props.C20_cyclic_permutations",
    "Verif.Props.C20_circularly_equivalent",
    "Verif.Props.C20_equivalence",
    "Verif.Props.C20_empty"
   ],
   "note": "C20_empty records the empty tuple."
  },
  {
   "property": "C21",
   "status": "proved",
   "theorems": [
    "Verif.Poly.C21_pow_sequence",
    "Verif.Poly.C21_pow_sequence_length",
    "Verif.Props.C21_value",
    "Verif.Props.C21_add",
    "Verif.Props.C21_sub",
    "Verif.Props.C21_add_mismatch",
    "Verif.Props.C21_mul",
    "Verif.Props.C21_mul_rejects",
    "Verif.Props.C21_mul_mismatch",
    "Verif.Props.C21_constants",
    "Verif.Props.C21_component",
    "Verif.Props.C21_pow",
    "Verif.Props.C21_pow_multi",
    "Verif.Props.C21_zero_unit"
   ],
   "note": "All constructor-accepted objects over every field of characteristic 0 and every vector space of values; exact arithmetic replaces floats. Error branches (degree cap, dimension mismatch) are theorems."
  },
  {
   "property": "C22",
   "status": "proved",
   "theorems": [
    "Verif.Props.C22_degree_elevate",
    "Verif.Props.C22_derivative",
    "Verif.Props.C22_to_monomial"
   ],
   "note": "Derivative is stated as HasDerivAt over every non-trivially normed field of characteristic 0."
  },
  {
   "property": "C23",
   "status": "proved",
   "theorems": [
    "Verif.Poly.C23_pow_sequence",
    "Verif.Props.C23_value",
    "Verif.Props.C23_add",
    "Verif.Props.C23_sub",
    "Verif.Props.C23_add_mismatch",
    "Verif.Props.C23_mul",
    "Verif.Props.C23_mul_rejects",
    "Verif.Props.C23_mul_mismatch",
    "Verif.Props.C23_constants",
    "Verif.Props.C23_component",
    "Verif.Props.C23_pow",
    "Verif.Props.C23_pow_multi",
    "Verif.Props.C23_zero_unit"
   ],
   "note": "As C21, for the Bernstein basis."
  },
  {
   "property": "C24",
   "status": "proved",
   "theorems": [
    "Verif.Poly.C24_elevated_basis_fn",
    "Verif.Poly.C24_elevated_basis_fn_rejected",
    "Verif.Props.C24_degree_elevate",
    "Verif.Props.C24_derivative",
    "Verif.Props.C24_to_monomial"
   ],
   "note": "Derivative as HasDerivAt; degree elevation and conversion as equality of functions."
  },
  {
   "property": "C25",
   "status": "proved",
   "theorems": [
    "Verif.Props.C25_basis_fn",
    "Verif.Props.C25_basis_fn_monomial_int",
    "Verif.Props.C25_partition_of_unity",
    "Verif.Props.C25_nonneg",
    "Verif.Props.C25_range"
   ],
   "note": "Over every ordered field. Includes a finding: the integer form of bernstein_basis_fn_monomial returns a Bernstein object."
  },
  {
   "property": "C26",
   "status": "proved",
   "theorems": [
    "Verif.Props.C26_points",
    "Verif.Props.C26_interpolate",
    "Verif.Props.C26_dual",
    "Verif.Props.C26_coefficients_are_values",
    "Verif.Props.C26_cache",
    "Verif.Props.C26_coefficients_exist"
   ],
   "note": "The coefficient cache is checked completely (decide +kernel over the whole table, lifted to every field); outside the cache numpy.linalg.inv is modelled as the exact matrix inverse."
  },
  {
   "property": "C27",
   "status": "proved",
   "theorems": [
    "Verif.Poly.C27_pow_sequence",
    "Verif.Props.C27_value",
    "Verif.Props.C27_add",
    "Verif.Props.C27_sub",
    "Verif.Props.C27_add_mismatch",
    "Verif.Props.C27_mul",
    "Verif.Props.C27_mul_rejects",
    "Verif.Props.C27_mul_mismatch",
    "Verif.Props.C27_constants",
    "Verif.Props.C27_component",
    "Verif.Props.C27_pow",
    "Verif.Props.C27_pow_multi",
    "Verif.Props.C27_zero_unit",
    "Verif.Props.C27_degree_elevate",
    "Verif.Props.C27_derivative",
    "Verif.Props.C27_to_monomial"
   ],
   "note": "As C21, for the Lagrange basis; uses unisolvence of the Lagrange points, proved for all n, r."
  },
  {
   "property": "C28",
   "status": "proved",
   "theorems": [
    "Verif.Props.C28_coefficients_unique",
    "Verif.Props.C28_equal_iff",
    "Verif.Props.C28_after_elevation"
   ],
   "note": "Uniqueness for all three bases over any field of characteristic 0."
  },
  {
   "property": "C29",
   "status": "proved",
   "theorems": [
    "Verif.Props.C29_dual_basis",
    "Verif.Props.C29_own_coefficients",
    "Verif.Props.C29_dual_function",
    "Verif.Props.C29_kronecker",
    "Verif.Props.C29_bernstein_other_degree",
    "Verif.Props.C29_bernstein_degree_ten",
    "Verif.Props.C29_dual_bernstein_polynomials",
    "Verif.Props.C29_vector_dual_basis",
    "Verif.Props.C29_vector_dual_basis_one",
    "Verif.Props.C29_vector_basis",
    "Verif.Props.C29_vector_basis_swapped",
    "Verif.Props.C29_vector_basis_swapped_example",
    "Verif.Props.C29_unknown_basis"
   ],
   "note": "Over the reals. The failing cases (degree mismatch, degree at least 10, exchanged arguments for n = 1) are proved as separate theorems."
  },
  {
   "property": "C30",
   "status": "proved",
   "theorems": [
    "Verif.Props.C30_convert",
    "Verif.Props.C30_convert_vector",
    "Verif.Props.C30_there_and_back",
    "Verif.Props.C30_there_and_back_vector",
    "Verif.Props.C30_bernstein_degree_ten",
    "Verif.Props.C30_unknown_basis"
   ],
   "note": "Over the reals. Conversion to the Bernstein basis for degrees 10 to 19 is proved to fail."
  },
  {
   "property": "C31",
   "status": "proved",
   "theorems": [
    "Verif.CodeGen.C31_unambiguous",
    "Verif.CodeGen.C31_unambiguous_array",
    "Verif.CodeGen.C31_monomial_basis",
    "Verif.CodeGen.C31_barycentric_basis",
    "Verif.CodeGen.C31_monomial",
    "Verif.CodeGen.C31_monomial_one",
    "Verif.CodeGen.C31_monomial_errors",
    "Verif.CodeGen.C31_barycentric",
    "Verif.CodeGen.C31_barycentric_errors",
    "Verif.CodeGen.C31_wrapped",
    "Verif.CodeGen.C31_lagrange_basis",
    "Verif.CodeGen.C31_code",
    "Verif.CodeGen.C31_code_vector",
    "Verif.CodeGen.C31_general_monomial",
    "Verif.CodeGen.C31_general_barycentric",
    "Verif.CodeGen.C31_general_lagrange",
    "Verif.CodeGen.C31_str_number",
    "Verif.CodeGen.C31_str_number_close",
    "Verif.CodeGen.C31_str_number_rounds",
    "Verif.CodeGen.C31_name",
    "Verif.CodeGen.C31_name_vector",
    "Verif.CodeGen.C31_name_ambiguous",
    "Verif.DocString.C31_function_general"
   ],
   "note": "Number printing is a parameter with an exactness hypothesis (proved for integers and small fractions, counterexample for prettified numbers near a fraction); LaTeX and documentation strings are parameters."
  },
  {
   "property": "C32",
   "status": "proved",
   "theorems": [
    "Verif.Str.C32_trace",
    "Verif.Str.C32_trace_lines",
    "Verif.Str.C32_empty",
    "Verif.Props.C32_append",
    "Verif.Str.C32_split",
    "Verif.Str.C32_split_long_str",
    "Verif.Str.C32_write_code",
    "Verif.Str.C32_pop_first_line",
    "Verif.Str.C32_count_lines",
    "Verif.Str.C32_scope",
    "Verif.Str.C32_indentation",
    "Verif.Str.C32_reset"
   ],
   "note": "split_long_str for all strings, separators, widths and replacements: parts in order, joined by the separator, replacements only at line ends, greedy filling, ValueError for an empty separator; CodeWriter.wc / pop_first_line / count_num_lines / scopes; wc of the empty string is an IndexError"
  },
  {
   "property": "C33",
   "status": "proved",
   "theorems": [
    "Verif.SubSimplex.C33_sub_simplex",
    "Verif.SubSimplex.C33_default",
    "Verif.SubSimplex.C33_errors",
    "Verif.SubSimplex.C33_degree_zero",
    "Verif.SubSimplex.C33_bernstein",
    "Verif.SubSimplex.C33_bernstein_order",
    "Verif.SubSimplex.C33_lagrange"
   ],
   "note": "sub-simplex and exponents for all multi-indices, degrees and simplices; vanishing of Bernstein and Lagrange basis functions on every face; vanishing order of Bernstein functions on the opposite face; error branches. Findings: an int nu raises TypeError although documented; for r = 0 the returned multi-index has one entry fewer than the simplex has vertices"
  },
  {
   "property": "C34",
   "status": "proved",
   "theorems": [
    "Verif.Props.C34_boundary_of_boundary",
    "Verif.Props.C34_boundary_map",
    "Verif.Props.C34_matrix_entries",
    "Verif.Props.C34_matrix_product",
    "Verif.Props.C34_matrix_missing_facet",
    "Verif.Props.C34_matrix_vertices"
   ],
   "note": "Boundary of boundary is zero as a chain for every oriented simplex; boundary map and boundary map matrix entries; product of consecutive matrices zero when the complexes contain the facets; error branches (facet missing: KeyError, k = 0: TypeError) proved."
  },
  {
   "property": "C35",
   "status": "proved",
   "theorems": [
    "Verif.Props.C35_simplex_boundary",
    "Verif.Props.C35_vertex",
    "Verif.Props.C35_boundary",
    "Verif.Props.C35_boundary_manifold",
    "Verif.Props.C35_orientation",
    "Verif.Props.C35_boundary_of_boundary"
   ],
   "note": "simplex_boundary and boundary (facets that occur exactly once up to orientation, with the orientation of the original facet and in order). For a closed-up boundary the boundary of the boundary vanishes as a chain."
  },
  {
   "property": "C36",
   "status": "proved",
   "theorems": [
    "Verif.Props.C36_num_vertices",
    "Verif.Props.C36_num_boundary_simplices",
    "Verif.Props.C36_num_boundary_simplices_vertex",
    "Verif.Props.C36_sub_simplices",
    "Verif.Props.C36_fixed_dimension",
    "Verif.Props.C36_fixed_dimension_rejects",
    "Verif.Props.C36_opposite",
    "Verif.Props.C36_opposite_complement"
   ],
   "note": "Sub-simplices, opposite sub simplices, dimension, vertices, orientation swapping, counting functions (for a vertex see C36_num_boundary_simplices_vertex)."
  },
  {
   "property": "C37",
   "status": "proved",
   "theorems": [
    "Verif.Props.C37_from_unit_vertices",
    "Verif.Props.C37_from_unit_dimension",
    "Verif.Props.C37_from_unit_points",
    "Verif.Props.C37_to_unit_inverse",
    "Verif.Props.C37_to_unit_degenerate",
    "Verif.Props.C37_composition",
    "Verif.Props.C37_inverse",
    "Verif.Props.C37_between_simplices"
   ],
   "note": "Affine maps over any field in every dimension; the degenerate case raises (LinAlgError) and is proved."
  },
  {
   "property": "C38",
   "status": "partial",
   "theorems": [
    "Verif.Props.C38_barycentric_partial",
    "Verif.Props.C38_round_trip_partial",
    "Verif.Props.C38_negative_orientation",
    "Verif.Props.C38_inverse_partial",
    "Verif.Props.C38_vertices_restored",
    "Verif.Props.C38_basis_variant",
    "Verif.Props.C38_unit",
    "Verif.Props.C38_division"
   ],
   "note": "Proved for positively oriented simplices; C38_negative_orientation proves that the code returns the negated coordinates for every negatively oriented simplex, so the full statement is false of the code."
  },
  {
   "property": "C39",
   "status": "partial",
   "theorems": [
    "Verif.Props.C39_inside_partial",
    "Verif.Props.C39_interior_partial",
    "Verif.Props.C39_tolerance_partial",
    "Verif.Props.C39_negative_orientation",
    "Verif.Props.C39_degenerate",
    "Verif.Props.C39_inside_exact",
    "Verif.Props.C39_point"
   ],
   "note": "Proved for positively oriented simplices; C39_negative_orientation and C39_degenerate prove that the code answers False for every point when the simplex is negatively oriented or degenerate; C39_inside_exact characterises the answer for every simplex."
  },
  {
   "property": "C40",
   "status": "proved",
   "theorems": [
    "Verif.Props.C40_point_inside",
    "Verif.Props.C40_point_inside_error",
    "Verif.Props.C40_is_empty",
    "Verif.Props.C40_intersection",
    "Verif.Props.C40_union",
    "Verif.Props.C40_empty",
    "Verif.Props.C40_full",
    "Verif.Props.C40_unit",
    "Verif.Props.C40_create",
    "Verif.Props.C40_create_error",
    "Verif.Props.C40_corner",
    "Verif.Props.C40_corners_all",
    "Verif.Props.C40_midpoint",
    "Verif.Props.C40_volume",
    "Verif.Props.C40_corner_dim_zero",
    "Verif.Props.C40_union_invalid",
    "Verif.Props.C40_is_equal",
    "Verif.Props.C40_is_equal_laws",
    "Verif.Props.C40_is_equal_error",
    "Verif.Props.C40_is_equal_dimension",
    "Verif.Props.C40_diameter"
   ],
   "note": "All of aabb.py, for coordinates in any linear order (is_equal and diameter: real numbers). The union is the smallest box if both boxes contain a point (or are empty(n)); C40_union_invalid shows that the restriction is needed. is_equal of boxes of different dimension: C40_is_equal_dimension."
  },
  {
   "property": "C41",
   "status": "proved",
   "theorems": [
    "Verif.Props.C41_in_node_space",
    "Verif.Props.C41_find_leaf",
    "Verif.Props.C41_leaf_unique",
    "Verif.Props.C41_address",
    "Verif.Props.C41_lookup",
    "Verif.Props.C41_recurse",
    "Verif.Props.C41_sibling",
    "Verif.Props.C41_subdivide",
    "Verif.Props.C41_cut",
    "Verif.Props.C41_node_aabb",
    "Verif.Props.C41_node_aabb_exact",
    "Verif.Props.C41_node_aabb_outside",
    "Verif.Props.C41_cut_off_nodes",
    "Verif.Props.C41_accessors",
    "Verif.Props.C41_recurse_changing",
    "Verif.Props.C41_recurse_local",
    "Verif.Props.C41_recurse_const",
    "Verif.Props.C41_recurse_parent_cut"
   ],
   "note": "Node objects in a heap with parent pointers; all histories of subdivide/cut_subtree on any nodes. node_aabb is exactly the cell if all planes meet the boxes they split (C41_node_aabb_exact), and only a superset otherwise (C41_node_aabb_outside). Addresses of cut-off nodes are not claimed (C41_cut_off_nodes)."
  },
  {
   "property": "C42",
   "status": "proved",
   "theorems": [
    "Verif.Props.C42_complete",
    "Verif.Props.C42_listed",
    "Verif.Props.C42_listed_exact",
    "Verif.Props.C42_create_kd_tree",
    "Verif.Props.C42_create_ok",
    "Verif.Props.C42_default_arguments"
   ],
   "note": "All subdivision/cut histories, every splitting rule; create_kd_tree terminates on valid meshes. With its default arguments it raises TypeError (C42_default_arguments)."
  },
  {
   "property": "C43",
   "status": "proved",
   "theorems": [
    "Verif.L2G.C43_bijection",
    "Verif.L2G.C43_empty",
    "Verif.L2G.C43_inverse",
    "Verif.L2G.C43_inverse_bijection"
   ],
   "note": "Meshes are non-empty lists of simplices with n+1 distinct vertices; boundary simplices are non-empty lists of distinct vertices. Inverse map proved for every total map tau and as two-sided inverse of the generated map; error branches included."
  },
  {
   "property": "C44",
   "status": "proved",
   "theorems": [
    "Verif.L2G.C44_numbering",
    "Verif.L2G.C44_errors",
    "Verif.L2G.C44_preimage",
    "Verif.L2G.C44_duplicates"
   ],
   "note": "Requires that no simplex occurs twice in the mesh (C44_duplicates shows that this is needed). The points are compared as functions from the vertices of the mesh to barycentric exponents, so local vertex order is irrelevant. Preimage map proved for every total map tau."
  },
  {
   "property": "C45",
   "status": "proved",
   "theorems": [
    "Verif.L2G.C45_discontinuous",
    "Verif.L2G.C45_continuous",
    "Verif.L2G.C45_full_dimensional"
   ],
   "note": "For continuous maps a boundary simplex must not contain a simplex of the mesh; C45_full_dimensional proves that the statement fails otherwise."
  },
  {
   "property": "C46",
   "status": "proved",
   "theorems": [
    "Verif.L2G.C46_values",
    "Verif.L2G.C46_errors",
    "Verif.L2G.C46_discontinuous",
    "Verif.L2G.C46_continuous",
    "Verif.L2G.C46_inverse",
    "Verif.L2G.C46_preimage",
    "Verif.L2G.C46_inverse_bijection"
   ],
   "note": "The component formulas hold for every scalar map; bijectivity for the discontinuous and exact identification for the continuous maps; inverse and preimage maps for every total map."
  },
  {
   "property": "C47",
   "status": "proved",
   "theorems": [
    "Verif.Props.C47_continuous",
    "Verif.Props.C47_call"
   ],
   "note": "Evaluation on two simplices agrees on their common face for every mesh without repeated simplices, degree, basis and also with left out boundary degrees of freedom; calling the function agrees with every simplex containing the point. Search tree and point-in-simplex test are parameters of the call theorem."
  },
  {
   "property": "C48",
   "status": "proved",
   "theorems": [
    "Verif.Props.C48_construct",
    "Verif.Props.C48_construct_keep_last",
    "Verif.Props.C48_smul",
    "Verif.Props.C48_outer",
    "Verif.Props.C48_div",
    "Verif.Props.C48_add",
    "Verif.Props.C48_sub",
    "Verif.Props.C48_add_reject",
    "Verif.Props.C48_add_boundary",
    "Verif.Props.C48_component",
    "Verif.Props.C48_restrict",
    "Verif.Props.C48_elevate",
    "Verif.Props.C48_mul",
    "Verif.Props.C48_mul_reject",
    "Verif.Props.C48_pow",
    "Verif.Props.C48_pow_zero",
    "Verif.Props.C48_unit_zero",
    "Verif.Props.C48_restrict_dropped",
    "Verif.Props.C48_support",
    "Verif.Props.C48_dropped_wrong",
    "Verif.Props.C48_add_mixed_wrong",
    "Verif.Props.C48_add_key_error",
    "Verif.Props.C48_mul_mixed_wrong",
    "Verif.Props.C48_unit_zero_exact",
    "Verif.Props.C48_unit_zero_last",
    "Verif.Props.C48_pow_zero_exact"
   ],
   "note": "Theorems for construction, support, linear operations, +, -, *, powers, components, restriction, elevation, unit and zero. The violations (wrong elevation and product with dropped boundary degrees of freedom, wrong sum for mixed numberings, KeyError) are proved as C48_dropped_wrong, C48_add_mixed_wrong, C48_add_key_error, C48_restrict_dropped."
  },
  {
   "property": "C49",
   "status": "proved",
   "theorems": [
    "Verif.Mesh.C49_rectangle",
    "Verif.Mesh.C49_rectangle_vertices",
    "Verif.Mesh.C49_unit_square",
    "Verif.Mesh.C49_rectangle_vertices_error",
    "Verif.Mesh.C49_annulus",
    "Verif.Mesh.C49_disc",
    "Verif.Mesh.C49_triangle",
    "Verif.Mesh.C49_general_triangle",
    "Verif.Mesh.C49_triangle_vertices",
    "Verif.Mesh.C49_equilateral",
    "Verif.Mesh.C49_triangle_vertices_error",
    "Verif.Mesh.C49_triangle_mesh",
    "Verif.Mesh.C49_box",
    "Verif.Mesh.C49_unit_cube",
    "Verif.Mesh.C49_tetrahedron",
    "Verif.Mesh.C49_tetrahedron_vertices"
   ],
   "note": "Rectangle, unit square, triangle, equilateral and general triangles, box, unit cube and unit tetrahedron: counts, valid and different indices, error branches; the cells tile the domain (cover it, stay inside, disjoint interiors), meet only in common faces (conforming) and all have the same positive area or volume. Annulus and disc: indices, oriented surfaces with exactly the circles as boundary, positively oriented cells. Finding: triangle_mesh_triangulation and triangle_mesh_vertices always raise ModuleNotFoundError."
  },
  {
   "property": "C50",
   "status": "proved",
   "theorems": [
    "Verif.Props.C50_integrate_unit_simplex",
    "Verif.Props.C50_integrate_monomial",
    "Verif.Props.C50_integrate_bernstein",
    "Verif.Props.C50_integrate_lagrange",
    "Verif.Props.C50_wrong_length",
    "Verif.Props.C50_cache",
    "Verif.Props.C50_monomial",
    "Verif.Props.C50_bernstein_basis_fn",
    "Verif.Props.C50_l2_inner_product",
    "Verif.Props.C50_l2_norm",
    "Verif.Props.C50_monomial_simplex",
    "Verif.Props.C50_integrate_polynomial_simplex",
    "Verif.Props.C50_l2_inner_product_simplex",
    "Verif.Props.C50_l2_norm_simplex",
    "Verif.Props.C50_integrate_simplex",
    "Verif.Props.C50_negative_orientation",
    "Verif.Props.C50_integrate_simplex_monomial"
   ],
   "note": "For all degrees, dimensions and coefficients over the reals, as Lebesgue integrals over the set of points of the simplex. The barycentric functions reject negatively oriented simplices (C50_negative_orientation); the monomial functions accept both orientations. Simplices embedded in a higher dimensional space are not modelled."
  },
  {
   "property": "C51",
   "status": "proved",
   "theorems": [
    "Verif.Quadrature.C51_unit_triangle",
    "Verif.Quadrature.C51_unit_triangle_error",
    "Verif.Quadrature.C51_unit_tetrahedron",
    "Verif.Quadrature.C51_unit_tetrahedron_error",
    "Verif.Quadrature.C51_triangle",
    "Verif.Quadrature.C51_tetrahedron",
    "Verif.Quadrature.C51_unit_interval",
    "Verif.Quadrature.C51_interval",
    "Verif.Quadrature.C51_unit_triangle_approx",
    "Verif.Quadrature.C51_triangle_approx",
    "Verif.Quadrature.C51_unit_tetrahedron_approx",
    "Verif.Quadrature.C51_tetrahedron_approx",
    "Verif.Quadrature.C51_unit_interval_approx",
    "Verif.Quadrature.C51_interval_approx",
    "Verif.Quadrature.C51_triangle_order",
    "Verif.Quadrature.C51_tetrahedron_order",
    "Verif.Quadrature.C51_interval_order"
   ],
   "note": "Exact arithmetic with the decimal constants of the file; rules with rounded constants up to an explicit error bound. Interval rules for every rule meeting the Gauss-Legendre contract (sympy external). Error for functions that are not polynomials; order of the error for smooth functions with the rules whose constants are exact (triangles n = 1, 2, 3, tetrahedra n = 1, 3)."
  },
  {
   "property": "C52",
   "status": "proved",
   "theorems": [
    "Verif.Angle.C52_constrain_to_range",
    "Verif.Angle.C52_in_range",
    "Verif.Angle.C52_equivalent_periodic_element",
    "Verif.Angle.C52_equivalent_periodic_element_unique",
    "Verif.Angle.C52_period_zero",
    "Verif.Angle.C52_negative_period",
    "Verif.Angle.C52_degrees",
    "Verif.Angle.C52_positive_interval",
    "Verif.Angle.C52_centered_interval",
    "Verif.Angle.C52_distance",
    "Verif.Angle.C52_distance_error",
    "Verif.Angle.C52_direction",
    "Verif.Angle.C52_dial",
    "Verif.Angle.C52_unwraps_unique",
    "Verif.Angle.C52_dial_last",
    "Verif.Angle.C52_dial_counts"
   ],
   "note": "Exact real arithmetic. The dial history theorem covers every finite sequence of updates; the period-zero and distance error branches are stated."
  },
  {
   "property": "C53",
   "status": "proved",
   "theorems": [
    "Verif.FinDiff.C53_forward_difference",
    "Verif.FinDiff.C53_central_difference",
    "Verif.FinDiff.C53_forward_affine",
    "Verif.FinDiff.C53_central_quadratic",
    "Verif.FinDiff.C53_univariate",
    "Verif.FinDiff.C53_univariate_second",
    "Verif.FinDiff.C53_discrete",
    "Verif.FinDiff.C53_second_forward_difference",
    "Verif.FinDiff.C53_second_central_difference",
    "Verif.FinDiff.C53_second_quadratic",
    "Verif.FinDiff.C53_second_symmetric",
    "Verif.FinDiff.C53_array_after_exception",
    "Verif.FinDiff.C53_converges"
   ],
   "note": "Exact arithmetic over a field; also proved: the array is left perturbed when the function raises, and the differences converge to the derivative."
  },
  {
   "property": "C54",
   "status": "proved",
   "theorems": [
    "Verif.Linalg.C54_gram_schmidt_float",
    "Verif.Linalg.C54_gram_schmidt_integer",
    "Verif.Linalg.C54_gram_schmidt_array_empty",
    "Verif.Linalg.C54_interval_projection",
    "Verif.Linalg.C54_vector_projection",
    "Verif.Linalg.C54_vector_plane_projection",
    "Verif.Linalg.C54_vector_oblique_projection",
    "Verif.Linalg.C54_gram_schmidt",
    "Verif.Linalg.C54_gram_schmidt_empty",
    "Verif.Linalg.C54_hat",
    "Verif.Linalg.C54_rodrigues",
    "Verif.Linalg.C54_rodrigues_error",
    "Verif.Linalg.C54_axis_angle",
    "Verif.Linalg.C54_axis_angle_add",
    "Verif.Linalg.C54_random_2"
   ],
   "note": "Over the reals in exact arithmetic (in-place normalisation of the axis is part of the result). Interval and vector projections over ordered fields / inner product spaces."
  },
  {
   "property": "C55",
   "status": "proved",
   "theorems": [
    "Verif.Sampling.C55_closed",
    "Verif.Sampling.C55_closed_onto",
    "Verif.Sampling.C55_open",
    "Verif.Sampling.C55_open_onto",
    "Verif.Sampling.C55_half_open",
    "Verif.Sampling.C55_half_open_onto",
    "Verif.Sampling.C55_intervals",
    "Verif.Sampling.C55_cube",
    "Verif.Sampling.C55_ball",
    "Verif.Sampling.C55_simplex",
    "Verif.Sampling.C55_sphere"
   ],
   "note": "Generator outcomes are an arbitrary list of numbers in [0, 1); floating point rounding of the final division is not modelled."
  },
  {
   "property": "C56",
   "status": "proved",
   "theorems": [
    "Verif.Props.C56_neighbour",
    "Verif.Props.C56_same_edge_orientation",
    "Verif.Props.C56_consistent_orientation",
    "Verif.Props.C56_three_triangles",
    "Verif.Props.C56_swap_orientation",
    "Verif.Props.C56_swap_out_of_range",
    "Verif.Props.C56_same_orientation",
    "Verif.Props.C56_same_orientation_error",
    "Verif.Props.C56_opposite_vertex",
    "Verif.Props.C56_edge_index"
   ],
   "note": "All combinatorial functions of triangle_mesh.py. has_consistent_orientation is characterised for meshes in which no edge belongs to more than two triangles; C56_three_triangles shows that the restriction is needed."
  },
  {
   "property": "C57",
   "status": "proved",
   "theorems": [
    "Verif.Props.C57_volume_orientation",
    "Verif.Props.C57_volume_unit",
    "Verif.Props.C57_trilinear_round_trip",
    "Verif.Props.C57_permute_vertices",
    "Verif.Props.C57_affine_image",
    "Verif.Props.C57_centroid"
   ],
   "note": "Face volumes enter the trilinear conversion as parameters (they are computed by a square root of a Gram determinant in the code)."
  },
  {
   "property": "C58",
   "status": "proved",
   "theorems": [
    "Verif.Props.C58_boundary_orientation",
    "Verif.Props.C58_boundary_orientation_rejects",
    "Verif.Props.C58_swap_simplex",
    "Verif.Props.C58_swap_mesh"
   ],
   "note": "substitute_vertex_indices as simultaneous renaming; simplex_boundary_orientation is the sign of the reordering; rejected inputs."
  },
  {
   "property": "C59",
   "status": "proved",
   "theorems": [
    "Verif.Linalg.C59_all_rotations",
    "Verif.Linalg.C59_half_turn_overwrites",
    "Verif.Linalg.C59_half_turn_inaccurate",
    "Verif.Linalg.C59_compute_angle",
    "Verif.Linalg.C59_compute_angle_error",
    "Verif.Linalg.C59_angle_unique",
    "Verif.Linalg.C59_orthogonal_vector",
    "Verif.Linalg.C59_orthogonal_vector_zero",
    "Verif.Linalg.C59_orthogonal_vector_dim_one",
    "Verif.Linalg.C59_compute_rotation",
    "Verif.Linalg.C59_random_3",
    "Verif.Linalg.C59_orthonormal_frame",
    "Verif.Linalg.C59_rotation_matrix_to_axis_angle",
    "Verif.Linalg.C59_move",
    "Verif.Linalg.C59_is_parallel"
   ],
   "note": "Exact real arithmetic. rotation_matrix_to_axis_angle is exact outside the tolerance windows of the code and accurate to 1e-4 within them, errors above 1e-6 occur there; for half turns it overwrites the caller's matrix (finding). orthogonal_vector in dimension one returns a parallel vector (proved separately), so the property is stated for dimension >= 2."
  },
  {
   "property": "C60",
   "status": "proved",
   "theorems": [
    "Verif.Props.C60_subspace_projection_map",
    "Verif.Props.C60_subspace_projection_map_line",
    "Verif.Linalg.C60_gram_schmidt_rn",
    "Verif.Linalg.C60_subspace_projection",
    "Verif.Linalg.C60_subspace_projection_error",
    "Verif.Linalg.C60_transform",
    "Verif.Linalg.C60_dual_basis",
    "Verif.Linalg.C60_transform_bilinear_form",
    "Verif.Linalg.C60_transform_bilinear_form_error"
   ],
   "note": "np.linalg.qr, pinv and inv enter through their mathematical contracts (hypotheses IsQR etc.)."
  },
  {
   "property": "C61",
   "status": "proved",
   "theorems": [
    "Verif.L2G.C61_interleaved_discontinuous",
    "Verif.L2G.C61_interleaved_continuous",
    "Verif.L2G.C61_sequential_blocks",
    "Verif.L2G.C61_sequential"
   ],
   "note": "C61_sequential proves that boundary degrees of freedom are not last with the sequential ordering; C61_sequential_blocks states what holds instead."
  },
  {
   "property": "C62",
   "status": "proved",
   "theorems": [
    "Verif.Props.C62_lagrange_points",
    "Verif.Props.C62_construct",
    "Verif.Props.C62_degenerate",
    "Verif.Props.C62_add",
    "Verif.Props.C62_sub",
    "Verif.Props.C62_add_mismatch",
    "Verif.Props.C62_mul",
    "Verif.Props.C62_mul_mismatch",
    "Verif.Props.C62_constants",
    "Verif.Props.C62_outer",
    "Verif.Props.C62_component",
    "Verif.Props.C62_pow",
    "Verif.Props.C62_pow_multi",
    "Verif.Props.C62_degree_elevate",
    "Verif.Props.C62_zero_unit",
    "Verif.Props.C62_basis_fn",
    "Verif.Props.C62_vector_basis_fn",
    "Verif.Props.C62_vector_basis_fn_range",
    "Verif.Props.C62_vector_basis",
    "Verif.Props.C62_basis",
    "Verif.Props.C62_dual_lagrange",
    "Verif.Props.C62_dual_lagrange_delta",
    "Verif.Props.C62_dual_vector_lagrange",
    "Verif.Props.C62_unique",
    "Verif.Props.C62_derivative",
    "Verif.Props.C62_derivative_range"
   ],
   "note": "Proved for both bases. The constructor's degree bound (C03) limits results to degrees below 20, stated in the theorems (Fits). p**0 in the Lagrange basis has degree 1 instead of 0 (stated). Dual Bernstein functions on a simplex are not part of this property."
  },
  {
   "property": "C63",
   "status": "proved",
   "theorems": [
    "Verif.Props.C63_derivative",
    "Verif.Props.C63_derivative_simplex",
    "Verif.Props.C63_derivative_length",
    "Verif.Props.C63_derivative_int",
    "Verif.Props.C63_derivative_int_simplex",
    "Verif.Props.C63_derivative_int_dimension",
    "Verif.Props.C63_gradient",
    "Verif.Props.C63_gradient_simplex",
    "Verif.Props.C63_jacobian",
    "Verif.Props.C63_jacobian_simplex",
    "Verif.Props.C63_hessian",
    "Verif.Props.C63_hessian_simplex",
    "Verif.Props.C63_vector_valued",
    "Verif.Props.C63_array",
    "Verif.Props.C63_array_simplex"
   ],
   "note": "Both for polynomials on the unit simplex (three bases) and on an arbitrary simplex (two bases). Independence of the order of differentiation is part of IsDerivative."
  },
  {
   "property": "C64",
   "status": "proved",
   "theorems": [
    "Verif.Props.C64_to_monomial",
    "Verif.Props.C64_basis_monomial",
    "Verif.Props.C64_dual_lagrange",
    "Verif.Props.C64_dual_lagrange_coefficients",
    "Verif.Props.C64_dual_vector_lagrange",
    "Verif.Props.C64_dual_bernstein_polynomials",
    "Verif.Props.C64_dual_bernstein_coefficients",
    "Verif.Props.C64_dual_bernstein_monomial",
    "Verif.Props.C64_dual_vector_bernstein",
    "Verif.Props.C64_dual_bernstein_orientation",
    "Verif.Props.C64_dual_bernstein_rejects",
    "Verif.Props.C64_dual_bernstein_degree",
    "Verif.Props.C64_dual_bernstein_higher_degree",
    "Verif.Props.C64_dual_bernstein_higher_degree_wrong"
   ],
   "note": "Full dimensional simplices. Degrees r with 2 r < 20 for the dual Bernstein functions, because products of degree 20 are rejected (C03). The order-dependent printing of basis identifiers is abstracted as in C62."
  },
  {
   "property": "C65",
   "status": "proved",
   "theorems": [
    "Verif.Props.C65_basis",
    "Verif.Props.C65_basis_degree",
    "Verif.Props.C65_combination",
    "Verif.Props.C65_partition_of_unity",
    "Verif.Props.C65_dual_lagrange",
    "Verif.Props.C65_dual_lagrange_coefficients",
    "Verif.Props.C65_dual_lagrange_basis",
    "Verif.Props.C65_dual_bernstein_coefficients",
    "Verif.Props.C65_dual_bernstein_basis",
    "Verif.Props.C65_dual_bernstein_rejects"
   ],
   "note": "Proved in all spaces, also with left out boundary degrees of freedom; the choice from a preimage set is an arbitrary function."
  },
  {
   "property": "C66",
   "status": "proved",
   "theorems": [
    "Verif.Props.C66_weak_derivative_lagrange",
    "Verif.Props.C66_weak_derivative_bernstein",
    "Verif.Props.C66_weak_derivative_bernstein_vector",
    "Verif.Props.C66_orientation",
    "Verif.Props.C66_coordinate",
    "Verif.Props.C66_dropped_counter",
    "Verif.Props.C66_dropped_wrong",
    "Verif.PPHeap.C66_method",
    "Verif.PPHeap.C66_method_vector"
   ],
   "note": "Proved for spaces without left out degrees of freedom; C66_dropped_wrong shows that the restriction is needed."
  },
  {
   "property": "C67",
   "status": "proved",
   "theorems": [
    "Verif.Props.C67_sub_simplex",
    "Verif.Props.C67_inside_degenerate",
    "Verif.Props.C67_orthonormal_basis",
    "Verif.Props.C67_local_coordinates",
    "Verif.Props.C67_volume",
    "Verif.Props.C67_volume_full",
    "Verif.Props.C67_volume_error",
    "Verif.Props.C67_in_subspace",
    "Verif.Props.C67_from_unit",
    "Verif.Props.C67_to_unit",
    "Verif.Props.C67_to_unit_degenerate",
    "Verif.Props.C67_between",
    "Verif.Props.C67_barycentric",
    "Verif.Props.C67_round_trip",
    "Verif.Props.C67_barycentric_basis",
    "Verif.Props.C67_inside",
    "Verif.Props.C67_too_many_vertices",
    "Verif.Props.C67_point"
   ],
   "note": "np.linalg.qr is a parameter with its contract; exact real arithmetic"
  },
  {
   "property": "C68",
   "status": "proved",
   "theorems": [
    "Verif.Props.C68_altitude",
    "Verif.Props.C68_trilinear",
    "Verif.Props.C68_face_normal",
    "Verif.Props.C68_circumcenter",
    "Verif.Props.C68_incenter",
    "Verif.Props.C68_edges",
    "Verif.Props.C68_diameter",
    "Verif.Props.C68_is_degenerate",
    "Verif.Props.C68_is_degenerate_degenerate",
    "Verif.Props.C68_is_degenerate_line",
    "Verif.Props.C68_equilateral",
    "Verif.Props.C68_equilateral_error",
    "Verif.Props.C68_point"
   ],
   "note": "np.linalg.qr is a parameter with its contract; degenerate simplices (nan) are covered for is_degenerate (C68_is_degenerate_degenerate), diameter and edges only"
  },
  {
   "property": "C69",
   "status": "proved",
   "theorems": [
    "Verif.Props.C69_edges",
    "Verif.Props.C69_diameter",
    "Verif.Props.C69_area",
    "Verif.Props.C69_area_weighted_normal",
    "Verif.Props.C69_area_weighted_normal_plane",
    "Verif.Props.C69_normal",
    "Verif.Props.C69_normal_plane",
    "Verif.Props.C69_basis",
    "Verif.Props.C69_basis_oriented",
    "Verif.Props.C69_coordinates",
    "Verif.Props.C69_dual_edges",
    "Verif.Props.C69_altitude_feet",
    "Verif.Props.C69_altitudes",
    "Verif.Props.C69_medians",
    "Verif.Props.C69_barycentric",
    "Verif.Props.C69_round_trip",
    "Verif.Props.C69_inside",
    "Verif.Props.C69_inside_off_plane",
    "Verif.Props.C69_angle",
    "Verif.Props.C69_trilinear",
    "Verif.Props.C69_circumradius",
    "Verif.Props.C69_circumcenter",
    "Verif.Props.C69_orthocenter",
    "Verif.Props.C69_incenter",
    "Verif.Props.C69_tiny",
    "Verif.Props.C69_circumcenter_tiny",
    "Verif.Props.C69_is_degenerate",
    "Verif.Props.C69_is_degenerate_degenerate"
   ],
   "note": "All functions of triangle.py. Findings: C69_tiny, C69_circumcenter_tiny (angles of tiny planar triangles), C69_inside_off_plane, C69_is_degenerate_degenerate (coinciding vertices)."
  },
  {
   "property": "C70",
   "status": "proved",
   "theorems": [
    "Verif.Props.C70_cotangent",
    "Verif.Props.C70_normals",
    "Verif.Props.C70_vertex_normals",
    "Verif.Props.C70_area_weight",
    "Verif.Props.C70_flat_interior",
    "Verif.Props.C70_cotangent_degenerate",
    "Verif.Props.C70_vertices",
    "Verif.Props.C70_get_num_vertices",
    "Verif.Props.C70_centroids",
    "Verif.Props.C70_centroid"
   ],
   "note": "Directions of steepest increase of area and volume are stated as derivatives along all lines. Results of 0/0 are not modelled (nan)."
  },
  {
   "property": "C71",
   "status": "proved",
   "theorems": [
    "Verif.Props.C71_isclose",
    "Verif.Props.C71_scalar",
    "Verif.Props.C71_vector",
    "Verif.Props.C71_equal_functions",
    "Verif.Props.C71_exact",
    "Verif.Props.C71_probability",
    "Verif.Props.C71_almost_surely",
    "Verif.Props.C71_small_polynomials",
    "Verif.Props.C71_shapes",
    "Verif.Props.C71_length_one",
    "Verif.Props.C71_points_in_simplex",
    "Verif.Props.C71_on_simplex",
    "Verif.Props.C71_on_simplex_exact",
    "Verif.Props.C71_on_simplex_almost_surely",
    "Verif.Props.C71_on_simplex_probability",
    "Verif.Props.C71_piecewise",
    "Verif.Props.C71_piecewise_exact",
    "Verif.Props.C71_relative_error",
    "Verif.Props.C71_relative_error_symmetric"
   ],
   "note": "The random points are universally quantified; probability statements are about Lebesgue measure zero of the tuples of points."
  },
  {
   "property": "C72",
   "status": "proved",
   "theorems": [
    "Verif.Midpoint.C72_triangle",
    "Verif.Midpoint.C72_triangle_affine",
    "Verif.Midpoint.C72_triangle_lipschitz",
    "Verif.Midpoint.C72_triangle_second_order",
    "Verif.Midpoint.C72_triangle_converges",
    "Verif.Midpoint.C72_triangle_zero",
    "Verif.Midpoint.C72_tetrahedron",
    "Verif.Midpoint.C72_tetrahedron_affine",
    "Verif.Midpoint.C72_tetrahedron_lipschitz",
    "Verif.Midpoint.C72_tetrahedron_second_order",
    "Verif.Midpoint.C72_tetrahedron_converges",
    "Verif.Midpoint.C72_tetrahedron_zero",
    "Verif.Midpoint.C72_general_tetrahedron",
    "Verif.Props.C72_triangle_smooth",
    "Verif.Props.C72_tetrahedron_smooth"
   ],
   "note": "Real numbers instead of floating point numbers. Functions of the error bound are continuous; n >= 0."
  },
  {
   "property": "C73",
   "status": "proved",
   "theorems": [
    "Verif.Quadrature.C73_unit_interval",
    "Verif.Quadrature.C73_interval",
    "Verif.Quadrature.C73_unit_triangle",
    "Verif.Quadrature.C73_triangle",
    "Verif.Quadrature.C73_unit_tetrahedron",
    "Verif.Quadrature.C73_tetrahedron"
   ],
   "note": "scipy's routines are parameters with contracts."
  },
  {
   "property": "C74",
   "status": "proved",
   "theorems": [
    "Verif.Composition.C74_one_one",
    "Verif.Composition.C74_several_one",
    "Verif.Composition.C74_one_several",
    "Verif.Composition.C74_several_several",
    "Verif.Composition.C74_none",
    "Verif.Composition.C74_associative",
    "Verif.Composition.C74_default_parameters"
   ],
   "note": "All functions and signatures."
  },
  {
   "property": "C75",
   "status": "proved",
   "theorems": [
    "Verif.DocString.C75_docstring",
    "Verif.DocString.C75_docstring_literal",
    "Verif.Props.C75_unambiguous",
    "Verif.Props.C75_scope",
    "Verif.Props.C75_monomial_basis_fn",
    "Verif.Props.C75_monomial_basis",
    "Verif.Props.C75_monomial_large_exponent",
    "Verif.Props.C75_monomial_many_variables",
    "Verif.Props.C75_bernstein_basis_fn",
    "Verif.Props.C75_bernstein_basis",
    "Verif.Props.C75_bernstein_degree_zero",
    "Verif.Props.C75_compact",
    "Verif.Props.C75_compact_basis",
    "Verif.Props.C75_compact_monomial_basis",
    "Verif.Props.C75_str_number",
    "Verif.Props.C75_fraction",
    "Verif.Props.C75_exponential_notation",
    "Verif.Props.C75_str_number_array",
    "Verif.Props.C75_length",
    "Verif.Props.C75_lagrange_basis_fn",
    "Verif.Props.C75_lagrange_basis",
    "Verif.Props.C75_latex_str",
    "Verif.Props.C75_latex_str_vector",
    "Verif.Props.C75_bernstein_expanded",
    "Verif.Props.C75_bernstein_expanded_vector",
    "Verif.Props.C75_bernstein_expanded_degree_zero",
    "Verif.Props.C75_lagrange_expanded",
    "Verif.Props.C75_lagrange_expanded_vector",
    "Verif.Props.C75_documentation",
    "Verif.Props.C75_by_name",
    "Verif.Props.C75_unknown_name",
    "Verif.Props.C75_lagrange_basis_fractions",
    "Verif.Props.C75_lagrange_expanded_fractions",
    "Verif.Props.C75_compact_monomial",
    "Verif.Props.C75_simplex_basis",
    "Verif.Props.C75_simplex_latex_str",
    "Verif.Props.C75_simplex_expanded",
    "Verif.Props.C75_simplex_expanded_short"
   ],
   "note": "formulas read back with an independent reader of LaTeX; exceptions (two-digit exponents, degree 0, short texts on simplices, exponential notation) proved"
  },
  {
   "property": "C76",
   "status": "proved",
   "theorems": [
    "Verif.Props.C76_embed_point",
    "Verif.Props.C76_embed_point_cloud",
    "Verif.Props.C76_embed_isometry",
    "Verif.Props.C76_mean",
    "Verif.Props.C76_mean_affine",
    "Verif.Props.C76_median",
    "Verif.Props.C76_median_minimal",
    "Verif.Props.C76_median_box",
    "Verif.Props.C76_principal_axis",
    "Verif.Props.C76_best_line",
    "Verif.Props.C76_collinear",
    "Verif.Props.C76_translation",
    "Verif.Props.C76_documentation",
    "Verif.Props.C76_dimension_zero",
    "Verif.Props.C76_splitting_plane",
    "Verif.Props.C76_create_kd_tree"
   ],
   "note": "np.linalg.eigh is a parameter with its contract (existence proved). One-dimensional clouds given as arrays of numbers are not modelled."
  },
  {
   "property": "C77",
   "status": "proved",
   "theorems": [
    "Verif.Props.C77_cartesian_basis",
    "Verif.Props.C77_basis_matrix",
    "Verif.Props.C77_basis_vectors",
    "Verif.Props.C77_basis_matrix_wrong",
    "Verif.Props.C77_move_columns",
    "Verif.Props.C77_random_rigid_motion"
   ],
   "note": "Exact reals; the outcomes of the random number generator are arguments."
  },
  {
   "property": "C78",
   "status": "proved",
   "theorems": [
    "Verif.CodeGen.C78_unambiguous",
    "Verif.CodeGen.C78_code_str",
    "Verif.CodeGen.C78_code_str_vector",
    "Verif.CodeGen.C78_simplex",
    "Verif.CodeGen.C78_simplex_vector",
    "Verif.CodeGen.C78_simplex_exact",
    "Verif.CodeGen.C78_simplex_vector_exact",
    "Verif.CodeGen.C78_rounding"
   ],
   "note": "code_str for all bases, real and vector valued, on the unit simplex and on simplices; exactness of the printed numbers is a hypothesis (C31_str_number); C78_rounding shows the effect of NumPy's eight digits."
  },
  {
   "property": "C79",
   "status": "proved",
   "theorems": [
    "Verif.Props.C79_multiindex_arguments",
    "Verif.Props.C79_multiindex_arguments_error",
    "Verif.Props.C79_permutation_arguments",
    "Verif.Props.C79_multiindex_repr",
    "Verif.Props.C79_permutation_repr",
    "Verif.Props.C79_integermodulon_repr",
    "Verif.Props.C79_multiindex_str",
    "Verif.Props.C79_permutation_str",
    "Verif.Props.C79_integermodulon_str",
    "Verif.Props.C79_multiindex_hash",
    "Verif.Props.C79_multiindex_hash_tuple",
    "Verif.Props.C79_integermodulon_hash",
    "Verif.Props.C79_integermodulon_hash_counterexample",
    "Verif.Props.C79_integermodulon_int",
    "Verif.Props.C79_polynomial_repr",
    "Verif.Props.C79_iterate",
    "Verif.Props.C79_iterate_simplex",
    "Verif.Props.C79_no_components"
   ],
   "note": "The texts are read by executable readers (Spec/PyLiteral). repr of a polynomial violates what its name promises: proved as C79_polynomial_repr; the statement says so. Hashes are those of CPython on 64 bit platforms; the hash of tuples is a parameter."
  },
  {
   "property": "C80",
   "status": "proved",
   "theorems": [
    "Verif.Props.C80_identifier",
    "Verif.Props.C80_identifier_unit",
    "Verif.Props.C80_add_printed",
    "Verif.Props.C80_add",
    "Verif.Props.C80_mul",
    "Verif.Props.C80_rounding_counterexample"
   ],
   "note": "identifiers as texts; str(vertices) is a parameter of the model; what the operators return for simplices that are printed alike is described exactly and shown to be wrong in general"
  },
  {
   "property": "C81",
   "status": "proved",
   "theorems": [
    "Verif.Props.C81_call",
    "Verif.Props.C81_call_discontinuous",
    "Verif.Props.C81_outside",
    "Verif.Props.C81_negative",
    "Verif.Props.C81_new",
    "Verif.Props.C81_add",
    "Verif.Props.C81_sub",
    "Verif.Props.C81_mul",
    "Verif.Props.C81_scale",
    "Verif.Props.C81_elevate",
    "Verif.Props.C81_pow",
    "Verif.Props.C81_component",
    "Verif.Props.C81_outer",
    "Verif.Props.C81_pow_zero",
    "Verif.Props.C81_support",
    "Verif.Props.C81_construct",
    "Verif.Props.C81_any_orientation"
   ],
   "note": "End to end from constructor and create_kd_tree to the values of calls and of the results of the operations; findings: negatively oriented meshes (C81_negative) and the power zero (C81_pow_zero)."
  },
  {
   "property": "C82",
   "status": "proved",
   "theorems": [
    "Verif.Props.C82_source_files",
    "Verif.Props.C82_source_files_distinct",
    "Verif.Props.C82_source_files_error",
    "Verif.Props.C82_submodule_paths",
    "Verif.Props.C82_subpackage_paths",
    "Verif.Props.C82_submodules",
    "Verif.Props.C82_submodules_wrong"
   ],
   "note": "Paths are texts with the separator '/'; the directory tree and the modules found by pkgutil are parameters. C82_submodules_wrong and C82_source_files_error prove the deviations described in the statement."
  },
  {
   "property": "C83",
   "status": "proved",
   "theorems": [
    "Verif.Props.C83_function",
    "Verif.Props.C83_rectangle",
    "Verif.Props.C83_unit_square",
    "Verif.Props.C83_triangle",
    "Verif.Props.C83_equilateral",
    "Verif.Props.C83_general_triangle",
    "Verif.Props.C83_unit_cube",
    "Verif.Props.C83_tetrahedron",
    "Verif.Props.C83_general_tetrahedron"
   ],
   "note": "MeshOf (Spec/MeshFunctions.lean) for every mesh function with full dimensional vertices; C83_function: construction, total calls, continuity on the domain, zero outside. Real coefficients, values in a normed space. The eigenvector routine numpy.linalg.eigh used to build the search tree is a parameter with its contract (as in C76, C81)."
  },
  {
   "property": "C84",
   "status": "proved",
   "theorems": [
    "Verif.Sampling.C84_sphere",
    "Verif.Sampling.C84_sphere_invariant",
    "Verif.Sampling.C84_sphere_almost_surely",
    "Verif.Sampling.C84_closed",
    "Verif.Sampling.C84_open",
    "Verif.Sampling.C84_left_closed",
    "Verif.Sampling.C84_right_closed",
    "Verif.Sampling.C84_single",
    "Verif.Sampling.C84_ball",
    "Verif.Sampling.C84_simplex",
    "Verif.Sampling.C84_cube",
    "Verif.Sampling.C84_almost_surely"
   ],
   "note": "Intervals, cubes, balls, simplices: any number of independent points, uniform in the domain, returned with probability one; sphere: independent directions, distribution invariant under orthogonal matrices. Assumes independent ideal random numbers with the documented distribution."
  },
  {
   "property": "C85",
   "status": "proved",
   "theorems": [
    "Verif.Linalg.C85_unique",
    "Verif.Linalg.C85_right_invariant",
    "Verif.Linalg.C85_two",
    "Verif.Linalg.C85_three",
    "Verif.Linalg.C85_rigid_motion_3",
    "Verif.Linalg.C85_rigid_motion_2"
   ],
   "note": "Both dimensions; left and right invariance, uniqueness; rigid motions with independent uniform translation. Assumes independent ideal random numbers."
  },
  {
   "property": "C86",
   "status": "proved",
   "theorems": [
    "Verif.Props.C86_permutation",
    "Verif.Props.C86_subset",
    "Verif.Props.C86_increasing",
    "Verif.Props.C86_multiindex"
   ],
   "note": "Equal probabilities of all outcomes of the random functions on permutations and multi-indices, for random variables as draws."
  },
  {
   "property": "C87",
   "status": "proved",
   "theorems": [
    "Verif.Props.C87_sound",
    "Verif.Props.C87_complete",
    "Verif.Props.C87_interpolate",
    "Verif.Props.C87_mesh",
    "Verif.Props.C87_dimension"
   ],
   "note": "C87_sound and C87_complete: the functions of a space are exactly the piecewise polynomials, each with exactly one list of coefficients in each basis. C87_mesh and C87_dimension: the same for the functions on a domain obtained by calling, and the dimension of the space. C87_interpolate: interpolation with the dual Lagrange basis. For r = 0 the statements are for spaces without left out boundary degrees of freedom (hr)."
  },
  {
   "property": "C88",
   "status": "proved",
   "theorems": [
    "Verif.CodeGen.C88_exact",
    "Verif.CodeGen.C88_unambiguous",
    "Verif.CodeGen.C88_code",
    "Verif.CodeGen.C88_coefficients",
    "Verif.CodeGen.C88_code_vector",
    "Verif.CodeGen.C88_lagrange_basis",
    "Verif.CodeGen.C88_general_monomial",
    "Verif.CodeGen.C88_general_barycentric",
    "Verif.CodeGen.C88_general_lagrange",
    "Verif.CodeGen.C88_relative",
    "Verif.CodeGen.C88_factor",
    "Verif.CodeGen.C88_str_number"
   ],
   "note": "standard model of floating point arithmetic: relative error of at most eps for every operation (the power function included) and literal, without overflow and underflow; the coefficients of a point are taken as given"
  },
  {
   "property": "C89",
   "status": "proved",
   "theorems": [
    "Verif.Props.C89_refines",
    "Verif.Props.C89_refines_programs",
    "Verif.Props.C89_call_fixed",
    "Verif.Props.C89_coeff_local",
    "Verif.Props.C89_array_local",
    "Verif.Props.C89_stale_evaluation",
    "Verif.Props.C89_stale_product",
    "Verif.Props.C89_stale_power"
   ],
   "note": "Refinement of a heap model (arrays, objects, compiled functions, class attribute) by value semantics, for all histories; frame theorems also for histories with assignments to coeff. Conversion with dual basis functions is not among the operations."
  },
  {
   "property": "C90",
   "status": "proved",
   "theorems": [
    "Verif.Props.C90_refines",
    "Verif.Props.C90_call_fixed",
    "Verif.Props.C90_reused_array",
    "Verif.Props.C90_reused_array_example"
   ],
   "note": "Refinement of a heap model (arrays of vertices shared by polynomial objects) by value semantics, for all histories that do not overwrite vertices in use; evaluation and coefficients are fixed in all histories; the wrong sum after reuse of an array is proved."
  },
  {
   "property": "C91",
   "status": "proved",
   "theorems": [
    "Verif.Props.C91_lagrange",
    "Verif.Props.C91_bernstein",
    "Verif.Props.C91_zero",
    "Verif.Props.C91_length",
    "Verif.Props.C91_lagrange_constant",
    "Verif.Props.C91_bernstein_keep"
   ],
   "note": "Multi-index powers in both bases with the exact conditions; the wrong base cases of the code are stated as theorems."
  },
  {
   "property": "C92",
   "status": "proved",
   "theorems": [
    "Verif.Props.C92_refines",
    "Verif.Props.C92_evaluate_fixed",
    "Verif.Props.C92_shared_support",
    "Verif.Props.C92_moved_vertices"
   ],
   "note": "C92_refines: results equal those of the value semantics for every history that is Careful (decidable on the history: no assignment to a used array, no change of support sets). C92_evaluate_fixed: coefficients never change, evaluate_on_simplex and support only with a changed support set. C92_shared_support and C92_moved_vertices: the two findings, why the hypotheses are needed."
  },
  {
   "property": "C93",
   "status": "proved",
   "theorems": [
    "Verif.Props.C93_create",
    "Verif.Props.C93_arity",
    "Verif.Props.C93_create_rejects",
    "Verif.Props.C93_inverse",
    "Verif.Props.C93_pseudoinverse",
    "Verif.Props.C93_composition",
    "Verif.Props.C93_unit",
    "Verif.Props.C93_between",
    "Verif.Props.C93_line"
   ],
   "note": "Right exactly in the cases of C93_composition; C93_line computes the wrong result for lines in higher dimensional spaces (DESIGN.md, Findings)."
  },
  {
   "property": "C94",
   "status": "proved",
   "theorems": [
    "Verif.FinDiff.C94_float_arrays",
    "Verif.FinDiff.C94_views",
    "Verif.FinDiff.C94_integer_forward",
    "Verif.FinDiff.C94_integer_central",
    "Verif.FinDiff.C94_integer_linear"
   ],
   "note": "The code violates what users expect for integer arrays and views; the claim states exactly what is computed (DESIGN.md, Findings)."
  },
  {
   "property": "C95",
   "status": "proved",
   "theorems": [
    "Verif.Props.C95_power_sequence",
    "Verif.Props.C95_power_array",
    "Verif.Props.C95_add_sub_sequence",
    "Verif.Props.C95_add_sub_array",
    "Verif.Props.C95_lengths"
   ],
   "note": "How numpy treats the multi-index as an operand is part of the model (trusted base); arrays with one axis."
  },
  {
   "property": "C96",
   "status": "proved",
   "theorems": [
    "Verif.Props.C96_float",
    "Verif.Props.C96_integer_vertices",
    "Verif.Props.C96_integer_vertices_iff",
    "Verif.Props.C96_integer_inside",
    "Verif.Props.C96_unit_simplex"
   ],
   "note": "For all dimensions, integer vertices and points; a finding: the point is truncated. Degenerate and negatively oriented simplices are those of C38."
  },
  {
   "property": "C97",
   "status": "proved",
   "theorems": [
    "Verif.FloatIntegration.C97_bernstein",
    "Verif.FloatIntegration.C97_monomial",
    "Verif.FloatIntegration.C97_lagrange",
    "Verif.FloatIntegration.C97_relative",
    "Verif.FloatIntegration.C97_bernstein_simplex",
    "Verif.FloatIntegration.C97_rejected",
    "Verif.FloatIntegration.C97_exact",
    "Verif.FloatIntegration.C97_barycentric_to_cartesian",
    "Verif.FloatIntegration.C97_point_of_simplex",
    "Verif.FloatIntegration.C97_centroid",
    "Verif.FloatIntegration.C97_first_barycentric_coordinate"
   ],
   "note": "proved for the rounding model of C88, for all inputs; the determinant and the Lagrange coefficients enter with their own relative error"
  },
  {
   "property": "C98",
   "status": "proved",
   "theorems": [
    "Verif.Props.C98_nonfinite",
    "Verif.Props.C98_finite",
    "Verif.Props.C98_finite_code",
    "Verif.Props.C98_nonfinite_kind",
    "Verif.Props.C98_nonfinite_vector",
    "Verif.Props.C98_nonfinite_simplex",
    "Verif.Props.C98_finite_simplex",
    "Verif.Props.C98_finite_vector",
    "Verif.Props.C98_divide_zero",
    "Verif.Props.C98_divide_zero_kind",
    "Verif.Props.C98_divide",
    "Verif.Props.C98_divide_vector",
    "Verif.Props.C98_divide_zero_vector",
    "Verif.Props.C98_divide_zero_simplex",
    "Verif.Props.C98_divide_zero_piecewise",
    "Verif.Props.C98_divide_piecewise"
   ],
   "note": "Coefficients are finite real numbers, the two infinities or nan. The constructors of the three classes (also vector valued and on a simplex) raise OverflowError or ValueError as soon as one coefficient is not finite, and behave as in the model for real numbers otherwise. Division by zero follows."
  },
  {
   "property": "C99",
   "status": "proved",
   "theorems": [
    "Verif.Props.C99_mul",
    "Verif.Props.C99_mul_uniform",
    "Verif.Props.C99_degree_elevate",
    "Verif.Props.C99_add",
    "Verif.Props.C99_sub",
    "Verif.Props.C99_smul",
    "Verif.Props.C99_derivative",
    "Verif.Props.C99_rejected",
    "Verif.Props.C99_pow",
    "Verif.Props.C99_divide"
   ],
   "note": "Relative error of each operation at most eps (no overflow or underflow); scalar valued polynomials; SciPy's binom enters through a contract."
  },
  {
   "property": "C100",
   "status": "proved",
   "theorems": [
    "Verif.Props.C100_mul",
    "Verif.Props.C100_add",
    "Verif.Props.C100_sub",
    "Verif.Props.C100_smul",
    "Verif.Props.C100_derivative",
    "Verif.Props.C100_rejected",
    "Verif.Props.C100_pow",
    "Verif.Props.C100_divide"
   ],
   "note": "Relative error of each operation at most eps (no overflow or underflow); scalar valued polynomials; np.convolve enters through a contract on its rounding errors."
  },
  {
   "property": "C101",
   "status": "proved",
   "theorems": [
    "Verif.FinDiff.C101_forward",
    "Verif.FinDiff.C101_central",
    "Verif.FinDiff.C101_univariate",
    "Verif.FinDiff.C101_second_forward_univariate",
    "Verif.FinDiff.C101_second_central_univariate",
    "Verif.FinDiff.C101_second_forward",
    "Verif.FinDiff.C101_second_central",
    "Verif.Props.C101_forward_rounding",
    "Verif.Props.C101_central_rounding",
    "Verif.Props.C101_gradient_rounding",
    "Verif.Props.C101_central_gradient_rounding",
    "Verif.Props.C101_second_forward_rounding",
    "Verif.Props.C101_second_central_rounding",
    "Verif.Props.C101_second_forward_matrix_rounding",
    "Verif.Props.C101_second_central_matrix_rounding"
   ],
   "note": "Order of accuracy of first and second differences in exact arithmetic, and error bounds of first and second differences, gradients and matrices of second differences with rounding."
  },
  {
   "property": "C102",
   "status": "proved",
   "theorems": [
    "Verif.Props.C102_interpolates",
    "Verif.Props.C102_quasi_optimal",
    "Verif.Props.C102_reproduces",
    "Verif.Props.C102_error_formula",
    "Verif.Props.C102_error_bound",
    "Verif.Props.C102_error_interval",
    "Verif.Props.C102_simplex",
    "Verif.Props.C102_simplex_order"
   ],
   "note": "Interpolation property, reproduction and quasi-optimality in any dimension; error formula and bounds in one variable, on the unit interval and on any interval; on simplices of any dimension quasi-optimality and the order of the error for smooth functions, with constants that are shown to exist but are not given explicitly."
  },
  {
   "property": "C103",
   "status": "proved",
   "theorems": [
    "Verif.Props.C103_affine",
    "Verif.Props.C103_affine_coefficients",
    "Verif.Props.C103_power",
    "Verif.Props.C103_sampled",
    "Verif.Props.C103_vertices",
    "Verif.Props.C103_elevation_range",
    "Verif.Props.C103_second_order",
    "Verif.Props.C103_lipschitz",
    "Verif.Props.C103_smooth"
   ],
   "note": "Vertices, linear precision, powers and degree elevation over any (ordered) field, approximation bounds over the real numbers; any dimension."
  },
  {
   "property": "C104",
   "status": "proved",
   "theorems": [
    "Verif.FloatQuadrature.C104_unit_triangle",
    "Verif.FloatQuadrature.C104_unit_tetrahedron",
    "Verif.FloatQuadrature.C104_unit_triangle_integral",
    "Verif.FloatQuadrature.C104_unit_tetrahedron_integral",
    "Verif.FloatQuadrature.C104_scaled",
    "Verif.FloatQuadrature.C104_degree"
   ],
   "note": "Bounds for the rules on the unit simplices against the exact rule and against the integral, the last multiplication for general simplices with the errors of the determinant and of the unit rule as parameters, and the rejected degrees. The integrand is a parameter with an absolute error of at most delta at rounded arguments."
  },
  {
   "property": "C105",
   "status": "proved",
   "theorems": [
    "Verif.MIDict.C105_equality",
    "Verif.MIDict.C105_lookup",
    "Verif.MIDict.C105_assign",
    "Verif.MIDict.C105_history",
    "Verif.MIDict.C105_tau",
    "Verif.MIDict.C105_tuple_keys",
    "Verif.MIDict.C105_changed_key",
    "Verif.MIDict.C105_collision"
   ],
   "note": "Model/MultiIndexDict.lean; proved for every hash function; hash table slots and deletions are not modelled"
  },
  {
   "property": "C106",
   "status": "proved",
   "theorems": [
    "Verif.Plot.C106_space_curve",
    "Verif.Plot.C106_plane_curve",
    "Verif.Plot.C106_plane_curve_other_figure",
    "Verif.Plot.C106_curve",
    "Verif.Plot.C106_wireframe_2d",
    "Verif.Plot.C106_mesh",
    "Verif.Plot.C106_wireframe_3d",
    "Verif.Plot.C106_wireframe_plane",
    "Verif.Plot.C106_wireframe_index"
   ],
   "note": "Model/Plot.lean records the commands to matplotlib; what matplotlib does with them is not modelled"
  },
  {
   "property": "C107",
   "status": "proved",
   "theorems": [
    "Verif.Plot.C107_samples",
    "Verif.Plot.C107_parametric",
    "Verif.Plot.C107_parametric_error",
    "Verif.Plot.C107_function",
    "Verif.Plot.C107_bivariate",
    "Verif.Plot.C107_bivariate_error",
    "Verif.Plot.C107_univariate_piecewise",
    "Verif.Plot.C107_bivariate_piecewise",
    "Verif.Plot.C107_bivariate_color",
    "Verif.Plot.C107_bivariate_continuous"
   ],
   "note": "Model/PlotFunction.lean; evaluate_on_simplex is a parameter; what matplotlib does with the commands is not modelled"
  },
  {
   "property": "C108",
   "status": "proved",
   "theorems": [
    "Verif.DocsNames.C108_name",
    "Verif.DocsNames.C108_both",
    "Verif.DocsNames.C108_unchanged",
    "Verif.DocsNames.C108_suffix",
    "Verif.DocsNames.C108_idempotent",
    "Verif.DocsNames.C108_directory",
    "Verif.DocsNames.C108_other_directory"
   ],
   "note": "Contents of files as strings; the finding about the current directory is C108_other_directory."
  },
  {
   "property": "C109",
   "status": "proved",
   "theorems": [
    "Verif.ModDict.C109_residues",
    "Verif.ModDict.C109_mixed",
    "Verif.ModDict.C109_large",
    "Verif.ModDict.C109_moduli"
   ],
   "note": "Hashes of CPython on 64 bit machines; the findings on large representatives and on different moduli are C109_large and C109_moduli."
  },
  {
   "property": "C110",
   "status": "proved",
   "theorems": [
    "Verif.DocsVersion.C110_update",
    "Verif.DocsVersion.C110_unchanged",
    "Verif.DocsVersion.C110_once"
   ],
   "note": "The output of Git is a parameter; the finding that a version is never updated is C110_once."
  }
 ]
}