{
 "claims": [
  {
   "property": "C01",
   "status": "partial",
   "theorems": [
    "Csdl.C01_auto_name_wellformed",
    "Csdl.C01_auto_names_collide",
    "Csdl.C01_auto_names_collisions_exact",
    "Csdl.C01_auto_names_distinct_partial"
   ],
   "note": "Well-formedness proved for every counter. Distinctness is false of the code from 62*63^4 nodes on (C01_auto_names_collide); proved below that bound, with the exact collision set."
  },
  {
   "property": "C02",
   "status": "proved",
   "theorems": [
    "Csdl.C02_checker",
    "Csdl.C02_full_names_injective",
    "Csdl.C02_full_name_is_join",
    "Csdl.C02_empty_model_name_ambiguous"
   ],
   "note": ""
  },
  {
   "property": "C03",
   "status": "proved",
   "theorems": [
    "Csdl.C03_promotion_map_exact",
    "Csdl.C03_promotion_map_exact_submodels"
   ],
   "note": ""
  },
  {
   "property": "C04",
   "status": "proved",
   "theorems": [
    "Csdl.C04_maps_inverse",
    "Csdl.C04_dotted_names_break_inverse"
   ],
   "note": "Dotted declared names, which the property excludes, break it: C04_dotted_names_break_inverse."
  },
  {
   "property": "C05",
   "status": "proved",
   "theorems": [
    "Csdl.C05_one_source_per_name",
    "Csdl.C05_duplicate_error_sound"
   ],
   "note": ""
  },
  {
   "property": "C06",
   "status": "partial",
   "theorems": [
    "Csdl.C06_size_clash_accepted",
    "Csdl.C06_targets_same_size_partial",
    "Csdl.C06_source_target_same_size_partial",
    "Csdl.C06_shape_error_sound"
   ],
   "note": "False of the code for a source and a declared variable promoted from sibling submodels (C06_size_clash_accepted). Proved: declared variables among themselves; source and declared variable when one model contains the other."
  },
  {
   "property": "C07",
   "status": "partial",
   "theorems": [
    "Csdl.C07_unknown_promote_accepted",
    "Csdl.C07_promotes_visible_partial",
    "Csdl.C07_valid_promotes_accepted"
   ],
   "note": "First half false of the code: promotes is validated against the parent's namespace (C07_unknown_promote_accepted); proved that listed names are visible in the parent. Second half (valid names never rejected) proved."
  },
  {
   "property": "C08",
   "status": "proved",
   "theorems": [
    "Csdl.C08_size_mismatch_unreachable"
   ],
   "note": ""
  },
  {
   "property": "C09",
   "status": "proved",
   "theorems": [
    "Csdl.C09_aliases_same_storage",
    "Csdl.C09_read_last_write",
    "Csdl.C09_other_writes_do_not_matter",
    "Csdl.C09_denotation_unique",
    "Csdl.C09_unknown_key"
   ],
   "note": ""
  },
  {
   "property": "C10",
   "status": "proved",
   "theorems": [
    "Csdl.C10_connections_exact",
    "Csdl.C10_error_iff_unknown_name"
   ],
   "note": ""
  },
  {
   "property": "C11",
   "status": "partial",
   "theorems": [
    "Csdl.C11_visible_name_rejected",
    "Csdl.C11_local_names_usable_partial",
    "Csdl.C11_visible_names_usable_partial",
    "Csdl.C11_main_names_usable_partial"
   ],
   "note": "False of the code: a name visible in a submodel but promoted further up is rejected with KeyError (C11_visible_name_rejected). Proved for names that keep their name, and for all names visible in the main model."
  },
  {
   "property": "C12",
   "status": "proved",
   "theorems": [
    "Csdl.C12_declarations_exact",
    "Csdl.C12_redundant_rejected",
    "Csdl.C12_errors_sound",
    "Csdl.C12_objective_exact",
    "Csdl.C12_objective_errors"
   ],
   "note": ""
  },
  {
   "property": "C13",
   "status": "partial",
   "theorems": [
    "Csdl.C13_rebuild_fails",
    "Csdl.C13_rebuild_same_objective_partial"
   ],
   "note": "False of the code: the build overwrites the declared objective name, and the second build raises KeyError (C13_rebuild_fails). Proved when the objective was declared under its name in the main model."
  },
  {
   "property": "C14",
   "status": "partial",
   "theorems": [
    "Csdl.Api.C14_no_object_twice",
    "Csdl.Api.C14_rejected_call_no_effect",
    "Csdl.Api.C14_shared_output_duplicates_names",
    "Csdl.Api.C14_output_names_distinct_partial",
    "Csdl.Api.C14_register_accepts_iff_partial",
    "Csdl.Api.C14_create_accepted_iff",
    "Csdl.Api.C14_create_output_recorded"
   ],
   "note": "Names of registered outputs: false of the code when one output object is registered with two models (C14_shared_output_duplicates_names); proved otherwise. No object twice and rejected calls have no effect: proved for all histories."
  },
  {
   "property": "C15",
   "status": "partial",
   "theorems": [
    "Csdl.Api.C15_clashing_names_accepted",
    "Csdl.Api.C15_names_have_one_source_partial"
   ],
   "note": "False of the code: create_input and declare_variable do not check names (C15_clashing_names_accepted). Proved for histories in which those two calls use new names."
  },
  {
   "property": "C16",
   "status": "proved",
   "theorems": [
    "Csdl.Api.C16_declarations_wellformed",
    "Csdl.Api.C16_declarations_persist",
    "Csdl.Api.C16_objective_accepted_iff",
    "Csdl.Api.C16_design_variable_accepted_iff",
    "Csdl.Api.C16_constraint_accepted_iff"
   ],
   "note": ""
  },
  {
   "property": "C17",
   "status": "partial",
   "theorems": [
    "Csdl.Api.C17_connect_accepted_iff",
    "Csdl.Api.C17_connections_exact",
    "Csdl.Api.C17_automatic_submodel_name_clashes",
    "Csdl.Api.C17_submodel_names_distinct_partial",
    "Csdl.Api.C17_add_accepted_iff"
   ],
   "note": "Connections proved in full. Submodel names: automatic names are not checked (C17_automatic_submodel_name_clashes); proved when user-given names do not have the form of automatic names."
  },
  {
   "property": "C18",
   "status": "proved",
   "theorems": [
    "Csdl.C18_slice_agrees_with_python",
    "Csdl.C18_accepts",
    "Csdl.C18_selection_unique"
   ],
   "note": ""
  },
  {
   "property": "C19",
   "status": "partial",
   "theorems": [
    "Csdl.C19_getitem_source_indices_partial",
    "Csdl.C19_ellipsis_wrong_element",
    "Csdl.C19_one_dimensional_keys",
    "Csdl.C19_accepts"
   ],
   "note": "Proved for every key made of ints and slices (the documented keys). Tuple keys with other elements (e.g. Ellipsis) are silently accepted and can select the wrong element: C19_ellipsis_wrong_element."
  },
  {
   "property": "C20",
   "status": "partial",
   "theorems": [
    "Csdl.C20_same_key_same_object",
    "Csdl.C20_different_keys_different_objects",
    "Csdl.C20_equivalent_keys",
    "Csdl.C20_same_slice_two_objects"
   ],
   "note": "Proved for keys whose normalised form (per-axis start/stop/step with missing bounds filled in) agrees: same object, and different normal forms give different objects. The statement as worded (same slice => same object) is false of the code: C20_same_slice_two_objects exhibits x[0:3] vs x[0:3:1] and x[0:-1] vs x[0:2]."
  },
  {
   "property": "C21",
   "status": "proved",
   "theorems": [
    "Csdl.C21_ravel_lt",
    "Csdl.C21_ravel_injective",
    "Csdl.C21_ravel_surjective",
    "Csdl.C21_ravel_row_major"
   ],
   "note": ""
  },
  {
   "property": "C22",
   "status": "partial",
   "theorems": [
    "Csdl.C22_disjoint_partial",
    "Csdl.C22_in_range_partial",
    "Csdl.C22_negative_index",
    "Csdl.C22_dependencies",
    "Csdl.C22_dependencies_once_partial",
    "Csdl.C22_renamed_variable",
    "Csdl.C22_writes_like_numpy",
    "Csdl.C22_accepts"
   ],
   "note": "False as worded: x[-1] is recorded as index -1 (C22_negative_index) and a variable renamed between two assignments becomes a dependency twice (C22_renamed_variable). Proved: recorded indices of accepted assignments pairwise distinct and below the size for every history; in range and elements written at most once when no key is a negative int; dependencies are exactly the accepted variables in order, once each when no variable is renamed."
  },
  {
   "property": "C23",
   "status": "partial",
   "theorems": [
    "Csdl.C23_rejected_no_effect_partial",
    "Csdl.C23_dependencies_unchanged",
    "Csdl.C23_overlap_has_effect"
   ],
   "note": "False as worded for overlapping assignments (C23_overlap_has_effect). Proved for every rejection without overlap; in all cases dependencies and earlier entries are unchanged."
  },
  {
   "property": "C24",
   "status": "proved",
   "theorems": [
    "Csdl.C24_sorted_iff_acyclic",
    "Csdl.C24_acyclic_ok",
    "Csdl.C24_graph_operations_wf"
   ],
   "note": ""
  },
  {
   "property": "C25",
   "status": "proved",
   "theorems": [
    "Csdl.C25_order_independent",
    "Csdl.C25_sorted_nodes_compute"
   ],
   "note": ""
  },
  {
   "property": "C26",
   "status": "proved",
   "theorems": [
    "Csdl.C26_edges_are_dependencies",
    "Csdl.C26_needed_in_graph"
   ],
   "note": "Under the naming hypothesis NamesOk (operations have names of their own and no object has the name of a submodel); C28 shows that the code does not ensure the latter."
  },
  {
   "property": "C27",
   "status": "partial",
   "theorems": [
    "Csdl.C27_unused_declared_is_lost",
    "Csdl.C27_used_declared_in_graph_partial"
   ],
   "note": "Does not hold of the code: C27_unused_declared_is_lost proves that an unused declared variable is never a node of the graph, in any model. Proved part: used declared variables are in the graph and the operations depend on them."
  },
  {
   "property": "C28",
   "status": "partial",
   "theorems": [
    "Csdl.C28_unnamed_submodel_name_taken",
    "Csdl.C28_clash_iff_partial",
    "Csdl.C28_operation_lost",
    "Csdl.C28_operations_survive_partial",
    "Csdl.C28_addition_lost"
   ],
   "note": "Does not hold of the code: the automatic name of an unnamed submodel is always that of the next object created (C28_unnamed_submodel_name_taken), and an object with the name of a submodel is lost (C28_operation_lost, C28_addition_lost). Proved part: exactly when names clash, and that all operations survive when no needed object has the name of a submodel."
  },
  {
   "property": "C29",
   "status": "partial",
   "theorems": [
    "Csdl.C29_flat_graph_exact",
    "Csdl.C29_names_partial",
    "Csdl.C29_auto_names",
    "Csdl.C29_flatten_total",
    "Csdl.C29_unregistered_output_captures"
   ],
   "note": "flat graph exact and promoted names for every variable known to promotion resolution; as stated false: unregistered outputs of custom operations in submodels keep the main model's namespace (C29_unregistered_output_captures)"
  },
  {
   "property": "C30",
   "status": "proved",
   "theorems": [
    "Csdl.C30_merge_by_name"
   ],
   "note": ""
  },
  {
   "property": "C31",
   "status": "partial",
   "theorems": [
    "Csdl.C31_submodel_wins",
    "Csdl.C31_closest_partial"
   ],
   "note": "closest with main and its direct submodels counted as equally close; as stated false (C31_submodel_wins)"
  },
  {
   "property": "C32",
   "status": "partial",
   "theorems": [
    "Csdl.C32_accepts",
    "Csdl.C32_chain_broken",
    "Csdl.C32_connections_partial"
   ],
   "note": "for connections whose source is not the target of an earlier connection; as stated false: chain a->b, b->c (C32_chain_broken)"
  },
  {
   "property": "C33",
   "status": "proved",
   "theorems": [
    "Csdl.C33_one_operation_per_variable",
    "Csdl.C33_unknown_names_custom"
   ],
   "note": ""
  },
  {
   "property": "C34",
   "status": "partial",
   "theorems": [
    "Csdl.C34_residual_inputs_exact_partial",
    "Csdl.C34_independent_residual_rejected",
    "Csdl.C34_submodel_dependency_missed"
   ],
   "note": "Exact for dependencies inside the residual model (any graph). Dependencies through submodels of the residual model are missed by the code: C34_submodel_dependency_missed."
  },
  {
   "property": "C35",
   "status": "partial",
   "theorems": [
    "Csdl.C35_accepts",
    "Csdl.C35_states_residuals_paired_partial",
    "Csdl.C35_state_shape_changed",
    "Csdl.C35_state_shapes_partial",
    "Csdl.C35_duplicate_declared"
   ],
   "note": "Everything except the shapes of the outputs returned for the states, which the code takes from the given value: C35_state_shape_changed, C35_duplicate_declared; C35_state_shapes_partial gives sufficient conditions."
  },
  {
   "property": "C36",
   "status": "partial",
   "theorems": [
    "Csdl.C36_registration_order",
    "Csdl.C36_exposed_order_partial"
   ],
   "note": "False of the code (C36_registration_order): registration order is used; proved when the expose list is in registration order, and as a permutation otherwise."
  },
  {
   "property": "C37",
   "status": "partial",
   "theorems": [
    "Csdl.Custom.C37_product_declared_partial",
    "Csdl.Custom.C37_never_overwrites",
    "Csdl.Custom.C37_empty_wildcard"
   ],
   "note": "Proved whenever both expansions are non-empty; false of the code for an empty wildcard or list (C37_empty_wildcard). C37_never_overwrites holds without exception."
  },
  {
   "property": "C38",
   "status": "partial",
   "theorems": [
    "Csdl.Custom.C38_declared_once_partial",
    "Csdl.Custom.C38_counts_partial",
    "Csdl.Custom.C38_not_once"
   ],
   "note": "Outputs can be declared twice (nouts counts both), an output can be redeclared as input, a failed add_input leaves the name declared (C38_not_once). What holds always, and sufficient conditions for the rest, are proved."
  },
  {
   "property": "C39",
   "status": "partial",
   "theorems": [
    "Csdl.Params.C39_reads_last_valid_partial",
    "Csdl.Params.C39_set",
    "Csdl.Params.C39_update",
    "Csdl.Params.C39_bool_accepts_int"
   ],
   "note": "Proved for every history with successful declarations (failed declarations: C40). types=bool is checked by equality with True/False, so ints are accepted: C39_bool_accepts_int."
  },
  {
   "property": "C40",
   "status": "partial",
   "theorems": [
    "Csdl.Params.C40_invalid_default_stays",
    "Csdl.Params.C40_rejected_declaration_partial",
    "Csdl.Params.C40_others_unchanged_partial"
   ],
   "note": "False of the code for every invalid default: C40_invalid_default_stays. Proved for declarations rejected for other reasons, and for other options."
  },
  {
   "property": "C41",
   "status": "proved",
   "theorems": [
    "Csdl.Arith.C41_values",
    "Csdl.Arith.C41_shapes",
    "Csdl.Arith.C41_accepted_iff",
    "Csdl.Arith.C41_expression"
   ],
   "note": ""
  },
  {
   "property": "C42",
   "status": "proved",
   "theorems": [
    "Csdl.Arith.C42_distinct_arguments",
    "Csdl.Arith.C42_no_copies"
   ],
   "note": ""
  },
  {
   "property": "C43",
   "status": "partial",
   "theorems": [
    "Csdl.Axes.C43_reshape_partial",
    "Csdl.Axes.C43_reshape_refuted",
    "Csdl.Axes.C43_transpose",
    "Csdl.Axes.C43_reorder"
   ],
   "note": "reshape does not hold for negative sizes: (-2, -3) is accepted for 6 elements (C43_reshape_refuted); proved for non-negative sizes; transpose and reorder_axes proved in full."
  },
  {
   "property": "C44",
   "status": "partial",
   "theorems": [
    "Csdl.Axes.C44_decompose",
    "Csdl.Axes.C44_expand_iff_partial",
    "Csdl.Axes.C44_expand_other",
    "Csdl.Axes.C44_refuted"
   ],
   "note": "Proved for the shapes the function can handle; refuted for output rank above 10, where the ten-letter alphabet always raises IndexError (C44_refuted)."
  },
  {
   "property": "C45",
   "status": "proved",
   "theorems": [
    "Csdl.Axes.C45_einsum_shape",
    "Csdl.Axes.C45_new_api_letters",
    "Csdl.Axes.C45_new_api_shape",
    "Csdl.Axes.C45_new_api_unknown_axis",
    "Csdl.Axes.C45_new_api_limit"
   ],
   "note": ""
  },
  {
   "property": "C46",
   "status": "partial",
   "theorems": [
    "Csdl.StdShapes.C46_matmat_partial",
    "Csdl.StdShapes.C46_refuted",
    "Csdl.StdShapes.C46_matvec_partial",
    "Csdl.StdShapes.C46_dot",
    "Csdl.StdShapes.C46_cross",
    "Csdl.StdShapes.C46_inner_partial",
    "Csdl.StdShapes.C46_outer"
   ],
   "note": "dot, cross, outer fully characterised; matmat, matvec, inner accept non-conformable shapes (C46_refuted)."
  },
  {
   "property": "C47",
   "status": "partial",
   "theorems": [
    "Csdl.StdShapes.C47_sum_partial",
    "Csdl.StdShapes.C47_max_min_partial",
    "Csdl.StdShapes.C47_average_pnorm_partial",
    "Csdl.StdShapes.C47_no_axes",
    "Csdl.StdShapes.C47_out_of_range_partial",
    "Csdl.StdShapes.C47_refuted"
   ],
   "note": "Proved for axes of the array; refuted for out-of-range axes of vectors, int axes of sum, all axes of average/pnorm (C47_refuted)."
  },
  {
   "property": "C48",
   "status": "partial",
   "theorems": [
    "Csdl.Define.C48_once_partial",
    "Csdl.Define.C48_loop_list",
    "Csdl.Define.C48_never_again",
    "Csdl.Define.C48_cycle",
    "Csdl.Define.C48_refuted"
   ],
   "note": "Proved for all histories of successful builds with arbitrary sharing and cycles; false after a failed build (define is run again) and for models edited after a build (C48_refuted)."
  },
  {
   "property": "C49",
   "status": "partial",
   "theorems": [
    "Csdl.Opt.C49_combine_partial",
    "Csdl.Opt.C49_check_void",
    "Csdl.Opt.C49_refuted"
   ],
   "note": "Proved when what is computed between two unary elementwise operations has no other use; refuted otherwise: a variable used by a third operation is removed (C49_refuted)."
  },
  {
   "property": "C50",
   "status": "partial",
   "theorems": [
    "Csdl.CString.C50_linear_iff_partial",
    "Csdl.CString.C50_operators_partial",
    "Csdl.CString.C50_linear_refuted",
    "Csdl.CString.C50_power_partial",
    "Csdl.CString.C50_power_refuted"
   ],
   "note": "False as stated (C50_linear_refuted, C50_power_refuted): coefficients strictly between -1 and 1 are dropped, names run together when a negative term precedes the first positive one and the constant is 0, and all-zero combinations give no assignment. C50_linear_iff_partial characterises exactly when the text of a linear combination with scalar literals is right; it covers everything the operators create. Array literals are not modelled."
  },
  {
   "property": "C51",
   "status": "proved",
   "theorems": [
    "Csdl.C51_shape_inference",
    "Csdl.C51_created"
   ],
   "note": ""
  },
  {
   "property": "C52",
   "status": "partial",
   "theorems": [
    "Csdl.StdShapes.C52_refuted",
    "Csdl.StdShapes.C52_missing_axis_partial"
   ],
   "note": "The property is false: diff never succeeds for a non-empty axis, whatever the history of the array (C52_refuted)."
  },
  {
   "property": "C53",
   "status": "partial",
   "theorems": [
    "Csdl.C53_size_is_product_partial",
    "Csdl.C53_output_size",
    "Csdl.C53_concatenation_size"
   ],
   "note": "False for create_output (C53_concatenation_size: size is always 1); proved for inputs, declared variables and outputs of operations."
  },
  {
   "property": "C54",
   "status": "proved",
   "theorems": [
    "Csdl.Custom.C54_accepts",
    "Csdl.Custom.C54_arguments_match",
    "Csdl.Custom.C54_single_use"
   ],
   "note": ""
  },
  {
   "property": "C55",
   "status": "partial",
   "theorems": [
    "Csdl.Arith.C55_array_operand_partial",
    "Csdl.Arith.C55_refuted"
   ],
   "note": "False as stated (C55_refuted): the shape of a constant array is never compared with that of the variable. Proved for arrays that broadcast to the variable's shape."
  },
  {
   "property": "C56",
   "status": "partial",
   "theorems": [
    "Csdl.Axes.C56_reorder_accepts_partial",
    "Csdl.Axes.C56_refuted"
   ],
   "note": "Every permutation is accepted; refuted: 'ij->i' and 'ij->ii' are accepted."
  },
  {
   "property": "C57",
   "status": "partial",
   "theorems": [
    "Csdl.Axes.C57_expand_labels_partial",
    "Csdl.Axes.C57_refuted"
   ],
   "note": "Refuted: 'ab->ba' keeps the given shape and unlabelled axes are accepted; the part that holds is proved."
  },
  {
   "property": "C58",
   "status": "partial",
   "theorems": [
    "Csdl.Axes.C58_rank_partial",
    "Csdl.Axes.C58_refuted"
   ],
   "note": "Refuted: inconsistent sizes, unknown output labels and superfluous operands are accepted."
  },
  {
   "property": "C59",
   "status": "partial",
   "theorems": [
    "Csdl.StdShapes.C59_eigenvalues",
    "Csdl.StdShapes.C59_solve",
    "Csdl.StdShapes.C59_sparsematmat_partial",
    "Csdl.StdShapes.C59_quatrotvec_partial",
    "Csdl.StdShapes.C59_refuted",
    "Csdl.StdShapes.C59_rotmat"
   ],
   "note": "eigenvalues, solve, rotmat proved; sparsematmat accepts three axes, quatrotvec any last axes (C59_refuted)."
  },
  {
   "property": "C60",
   "status": "partial",
   "theorems": [
    "Csdl.Opt.C60_unchanged",
    "Csdl.Opt.C60_live_kept_partial",
    "Csdl.Opt.C60_refuted"
   ],
   "note": "Live nodes are kept; but nothing is ever removed, whatever the graph (C60_unchanged), so dead nodes stay (C60_refuted)."
  },
  {
   "property": "C61",
   "status": "proved",
   "theorems": [
    "Csdl.C61_execution_solves_model"
   ],
   "note": ""
  },
  {
   "property": "C62",
   "status": "proved",
   "theorems": [
    "Csdl.BSpline.C62_bspline_matrix",
    "Csdl.BSpline.C62_rows_are_weights",
    "Csdl.BSpline.C62_interpolates_ends"
   ],
   "note": ""
  },
  {
   "property": "C63",
   "status": "partial",
   "theorems": [
    "Csdl.Analysis.C63_input_map_partial",
    "Csdl.Analysis.C63_output_map_partial",
    "Csdl.Analysis.C63_output_map_has_no_names",
    "Csdl.Analysis.C63_used_output_missing",
    "Csdl.Analysis.C63_unlisted_input_does_not_matter"
   ],
   "note": "Proved for registered outputs that no operation uses, and for the second dictionary; the first dictionary contains nodes instead of names (C63_output_map_has_no_names) and outputs that are used by an operation are missing from both (C63_used_output_missing)."
  },
  {
   "property": "C64",
   "status": "proved",
   "theorems": [
    "Csdl.Analysis.C64_operations_as_edges",
    "Csdl.Analysis.C64_same_influences"
   ],
   "note": ""
  },
  {
   "property": "C65",
   "status": "proved",
   "theorems": [
    "Csdl.Analysis.C65_in_plus_out",
    "Csdl.Analysis.C65_outputs_of_operations",
    "Csdl.Analysis.C65_uses_and_outputs",
    "Csdl.Analysis.C65_serial_cost"
   ],
   "note": ""
  },
  {
   "property": "C66",
   "status": "partial",
   "theorems": [
    "Csdl.Analysis.C66_longest_path",
    "Csdl.Analysis.C66_twice_critical_path_partial",
    "Csdl.Analysis.C66_not_number_of_operations"
   ],
   "note": "The code returns the number of edges of a longest path, which is twice the number of operations on it (C66_twice_critical_path_partial, C66_not_number_of_operations)."
  },
  {
   "property": "C67",
   "status": "partial",
   "theorems": [
    "Csdl.C67_accepted_iff",
    "Csdl.C67_brackets_stored_partial",
    "Csdl.C67_bracket_shape_unchecked"
   ],
   "note": "Acceptance, stored brackets, dependencies and outputs proved; the shape of a bracket is not compared with the shape of its state (C67_bracket_shape_unchecked)."
  },
  {
   "property": "C68",
   "status": "partial",
   "theorems": [
    "Csdl.C68_defaults_recorded_partial",
    "Csdl.C68_array_rejected",
    "Csdl.C68_number_dropped",
    "Csdl.C68_brackets_drop_defaults",
    "Csdl.C68_array_index_error"
   ],
   "note": "False of the code: numbers dropped, all defaults dropped with brackets, arrays rejected with IndexError; proved what is recorded."
  },
  {
   "property": "C69",
   "status": "proved",
   "theorems": [
    "Csdl.C69_linear_solver_required"
   ],
   "note": ""
  },
  {
   "property": "C70",
   "status": "proved",
   "theorems": [
    "Csdl.C70_objects_to_values"
   ],
   "note": ""
  },
  {
   "property": "C71",
   "status": "proved",
   "theorems": [
    "Csdl.C71_cycle_reported"
   ],
   "note": ""
  },
  {
   "property": "C72",
   "status": "proved",
   "theorems": [
    "Csdl.C72_valid_accepted",
    "Csdl.C72_unused_target_rejected"
   ],
   "note": ""
  },
  {
   "property": "C73",
   "status": "proved",
   "theorems": [
    "Csdl.Prog.C73_programs_mean_what_they_say",
    "Csdl.Prog.C73_assignment_is_numpy",
    "Csdl.Prog.C73_unassigned_elements",
    "Csdl.Prog.C73_part_is_numpy"
   ],
   "note": ""
  },
  {
   "property": "C74",
   "status": "proved",
   "theorems": [
    "Csdl.Prog.C74_programs_run_iff",
    "Csdl.Prog.C74_valid_programs_accepted",
    "Csdl.Prog.C74_valid_programs_compute"
   ],
   "note": ""
  },
  {
   "property": "C75",
   "status": "partial",
   "theorems": [
    "Csdl.Solvers.C75_construct_iff_partial",
    "Csdl.Solvers.C75_read_partial",
    "Csdl.Solvers.C75_assign_iff_partial",
    "Csdl.Solvers.C75_table_unique",
    "Csdl.Solvers.C75_unknown_option_key_error",
    "Csdl.Solvers.C75_no_iteration_options",
    "Csdl.Solvers.C75_newton_solve_subsystems",
    "Csdl.Solvers.C75_bool_accepts_numbers",
    "Csdl.Solvers.C75_range_accepts_nan"
   ],
   "note": "Proved for every class, keyword arguments and later assignments, with what 'accepts' means spelled out. Missing from the English: a bool option accepts every number equal to 0 or 1 (C75_bool_accepts_numbers), and a range accepts nan (C75_range_accepts_nan). Infinite floats and objects with their own comparison are not modelled."
  },
  {
   "property": "C76",
   "status": "partial",
   "theorems": [
    "Csdl.Elem.C76_arsinh_partial",
    "Csdl.Elem.C76_arcosh_partial",
    "Csdl.Elem.C76_artanh_partial",
    "Csdl.Elem.C76_arcoth_partial",
    "Csdl.Elem.C76_arsech_refuted",
    "Csdl.Elem.C76_arcsch_refuted",
    "Csdl.Elem.C76_shapes_partial"
   ],
   "note": "Proved for arsinh (all x), arcosh (x >= 1), artanh (|x| < 1), arcoth (|x| > 1), for every solution of every program, over the real numbers. False for arsech: for 0 < x <= 1 the result is right only at x = 1 (C76_arsech_refuted); arcsch returns None (C76_arcsch_refuted)."
  },
  {
   "property": "C77",
   "status": "proved",
   "theorems": [
    "Csdl.Elem.C77_text_denotes"
   ],
   "note": ""
  },
  {
   "property": "C78",
   "status": "partial",
   "theorems": [
    "Csdl.Elem.C78_exp_a_accepted_iff",
    "Csdl.Elem.C78_exp_a_text_partial",
    "Csdl.Elem.C78_exp_a_text_negative",
    "Csdl.Elem.C78_exp_a_text_objects",
    "Csdl.Elem.C78_bessel_accepted_iff"
   ],
   "note": "Acceptance and shapes proved exactly. The text of exp_a is right for numbers not below zero only: for a negative base Python reads -(2**x) (C78_exp_a_text_negative), for arrays and variables the text is no expression (C78_exp_a_text_objects). bessel has no text."
  },
  {
   "property": "C79",
   "status": "partial",
   "theorems": [
    "Csdl.Elem.C79_body_313_partial",
    "Csdl.Elem.C79_rotation_partial",
    "Csdl.Elem.C79_accepted_shapes_partial",
    "Csdl.Elem.C79_scalar_angles_rejected"
   ],
   "note": "Proved for all programs and real angles: the product of the three axis rotations, orthogonal, determinant 1. Partial because angles of the default shape (1,) are rejected (C79_scalar_angles_rejected): only angles of shape (1, 1) and outputs with two axes of at least three elements are accepted (C79_accepted_shapes_partial); the axes argument and check_axes have no effect in the code."
  },
  {
   "property": "C80",
   "status": "proved",
   "theorems": [
    "Csdl.Prog.C80_programs_run_iff",
    "Csdl.Prog.C80_custom_operations",
    "Csdl.Prog.C80_implicit_operations",
    "Csdl.Prog.C80_other_statements",
    "Csdl.Prog.C80_same_statements",
    "Csdl.Prog.C80_programs_mean_what_they_say",
    "Csdl.Prog.C80_valid_programs_compute"
   ],
   "note": ""
  },
  {
   "property": "C81",
   "status": "proved",
   "theorems": [
    "Csdl.Prog.C81_declarations_exact"
   ],
   "note": ""
  },
  {
   "property": "C82",
   "status": "proved",
   "theorems": [
    "Csdl.Prog.C82_programs_run_iff",
    "Csdl.Prog.C82_programs_mean_what_they_say",
    "Csdl.Prog.C82_valid_programs_compute",
    "Csdl.Prog.C82_declarations_exact",
    "Csdl.Prog.C82_objects_untouched",
    "Csdl.Prog.C82_session_runs_iff",
    "Csdl.Prog.C82_no_interference"
   ],
   "note": ""
  },
  {
   "property": "C83",
   "status": "proved",
   "theorems": [
    "Csdl.Prog.C83_library_shapes",
    "Csdl.Prog.C83_library_programs",
    "Csdl.Prog.C83_library_programs_run_iff",
    "Csdl.Prog.C83_calls_accept_shapes",
    "Csdl.Prog.C83_shapes_are_inferred",
    "Csdl.Prog.C83_valid_programs_compute",
    "Csdl.Prog.C83_solve",
    "Csdl.Prog.C83_flatten",
    "Csdl.Prog.C83_flatten_created_output",
    "Csdl.Prog.C83_exp_a",
    "Csdl.Prog.C83_inverse_functions",
    "Csdl.Prog.C83_solve_constant_matrix",
    "Csdl.Prog.C83_solve_constant_side"
   ],
   "note": ""
  },
  {
   "property": "C84",
   "status": "proved",
   "theorems": [
    "Csdl.Prog.C84_one_model_valid",
    "Csdl.Prog.C84_one_model_valid_full",
    "Csdl.Prog.C84_one_model_programs_compute",
    "Csdl.Prog.C84_incomplete_output_circular",
    "Csdl.Prog.C84_connected_circular"
   ],
   "note": ""
  },
  {
   "property": "C85",
   "status": "proved",
   "theorems": [
    "Csdl.Prog.C85_blocks_run_iff",
    "Csdl.Prog.C85_blocks_valid",
    "Csdl.Prog.C85_blocks_same_values",
    "Csdl.Prog.C85_blocks_same_declarations",
    "Csdl.Prog.C85_library_blocks"
   ],
   "note": ""
  },
  {
   "property": "C86",
   "status": "proved",
   "theorems": [
    "Csdl.Prog.C86_default_values",
    "Csdl.Prog.C86_default_values_in_session",
    "Csdl.Prog.C86_one_model",
    "Csdl.Prog.C86_later_declaration_wins",
    "Csdl.Prog.C86_connected_input_loses_its_value",
    "Csdl.Prog.C86_value_of_submodel"
   ],
   "note": ""
  },
  {
   "property": "C87",
   "status": "proved",
   "theorems": [
    "Csdl.Prog.C87_value_by_name",
    "Csdl.Prog.C87_value_by_name_in_session",
    "Csdl.Prog.C87_one_step_not_enough"
   ],
   "note": ""
  },
  {
   "property": "C88",
   "status": "proved",
   "theorems": [
    "Csdl.Prog.C88_solver_solves_the_equations",
    "Csdl.Prog.C88_results_solve_residuals",
    "Csdl.Prog.C88_computed_state_accepted"
   ],
   "note": ""
  },
  {
   "property": "C89",
   "status": "proved",
   "theorems": [
    "Csdl.C89_shared_models",
    "Csdl.C89_cycles",
    "Csdl.C89_valid_accepted"
   ],
   "note": ""
  },
  {
   "property": "C90",
   "status": "partial",
   "theorems": [
    "Csdl.C90_unknown_rejected_partial",
    "Csdl.C90_foreign_captured"
   ],
   "note": "Proved for names unknown in the using model (C90_unknown_rejected_partial). The full claim is false of the code: a model with a variable of the same name captures the argument silently (C90_foreign_captured)."
  },
  {
   "property": "C91",
   "status": "partial",
   "theorems": [
    "Csdl.Prog.C91_valid_partial",
    "Csdl.Prog.C91_values_partial",
    "Csdl.Prog.C91_default_values_partial",
    "Csdl.Prog.C91_order_of_connections_matters",
    "Csdl.Prog.C91_order_of_values_matters"
   ],
   "note": "proved for connections that do not form chains; refuted for chains (C91_order_of_connections_matters), and for variables with two given values (C91_order_of_values_matters)"
  },
  {
   "property": "C92",
   "status": "partial",
   "theorems": [
    "Csdl.C92_same_representation",
    "Csdl.C92_hierarchy_partial",
    "Csdl.C92_endless_connections_fail",
    "Csdl.C92_cycle_fails"
   ],
   "note": "Proved in full where the connections do not form chains (NoChain). The full statement is false of the code: C92_cycle_fails."
  },
  {
   "property": "C93",
   "status": "partial",
   "theorems": [
    "Csdl.C93_levels_partial",
    "Csdl.C93_main_level_not_shown"
   ],
   "note": "Proved for variables not promoted to the main model (q > 0). The full statement is false of the code: C93_main_level_not_shown."
  },
  {
   "property": "C94",
   "status": "partial",
   "theorems": [
    "Csdl.C94_promotions_connections_partial"
   ],
   "note": "Proved where the connections do not form chains (NoChain); with chains a report may not be written at all (C92_cycle_fails)."
  },
  {
   "property": "C95",
   "status": "proved",
   "theorems": [
    "Csdl.C95_connections_mean",
    "Csdl.C95_without_chains",
    "Csdl.C95_objects_chains",
    "Csdl.Prog.C95_programs"
   ],
   "note": ""
  },
  {
   "property": "C96",
   "status": "proved",
   "theorems": [
    "Csdl.Prog.C96_accepted",
    "Csdl.Prog.C96_values",
    "Csdl.Prog.C96_print_var",
    "Csdl.Prog.C96_defaults"
   ],
   "note": ""
  },
  {
   "property": "C97",
   "status": "proved",
   "theorems": [
    "Csdl.Prog.C97_values",
    "Csdl.Prog.C97_promote_or_connect",
    "Csdl.Prog.C97_defaults"
   ],
   "note": ""
  },
  {
   "property": "C98",
   "status": "proved",
   "theorems": [
    "Csdl.Prog.C98_submodels_alone"
   ],
   "note": ""
  },
  {
   "property": "C99",
   "status": "proved",
   "theorems": [
    "Csdl.Prog.C99_refactored_valid",
    "Csdl.Prog.C99_refactored_same",
    "Csdl.Prog.C99_new_dependencies_circular",
    "Csdl.Prog.C99_defaults"
   ],
   "note": ""
  },
  {
   "property": "C100",
   "status": "proved",
   "theorems": [
    "Csdl.Prog.C100_values_depend"
   ],
   "note": ""
  },
  {
   "property": "C101",
   "status": "proved",
   "theorems": [
    "Csdl.Prog.C101_renamed_defaults",
    "Csdl.Prog.C101_renamed_valid",
    "Csdl.Prog.C101_renamed_names",
    "Csdl.Prog.C101_renamed_same"
   ],
   "note": ""
  },
  {
   "property": "C102",
   "status": "proved",
   "theorems": [
    "Csdl.Prog.C102_last_statement",
    "Csdl.Prog.C102_unused_valid",
    "Csdl.Prog.C102_unused_same",
    "Csdl.Prog.C102_unused_defaults"
   ],
   "note": ""
  },
  {
   "property": "C103",
   "status": "proved",
   "theorems": [
    "Csdl.Prog.C103_apart_valid",
    "Csdl.Prog.C103_wrapped_valid",
    "Csdl.Prog.C103_collection_valid",
    "Csdl.Prog.C103_apart_same",
    "Csdl.Prog.C103_apart_defaults",
    "Csdl.Prog.C103_wrapping_changes_default"
   ],
   "note": ""
  },
  {
   "property": "C104",
   "status": "proved",
   "theorems": [
    "Csdl.C104_hierarchies_accepted_iff",
    "Csdl.Prog.C104_programs_accepted_iff",
    "Csdl.Prog.C104_acceptable_programs_compute",
    "Csdl.Prog.C104_valid_acceptable",
    "Csdl.Prog.C104_more_than_valid",
    "Csdl.Prog.C104_accepted_in_session_iff",
    "Csdl.Prog.C104_full_programs_accepted_iff",
    "Csdl.Prog.C104_full_valid_acceptable"
   ],
   "note": ""
  },
  {
   "property": "C105",
   "status": "proved",
   "theorems": [
    "Csdl.Prog.C105_restructured_values",
    "Csdl.Prog.C105_moved_to_submodel"
   ],
   "note": ""
  },
  {
   "property": "C106",
   "status": "proved",
   "theorems": [
    "Csdl.FormatNumber.C106_format_number",
    "Csdl.FormatNumber.C106_sign",
    "Csdl.FormatNumber.C106_value_column"
   ],
   "note": ""
  },
  {
   "property": "C107",
   "status": "partial",
   "theorems": [
    "Csdl.Prog.C107_passed_values_partial",
    "Csdl.Prog.C107_argument_value",
    "Csdl.Prog.C107_rejected",
    "Csdl.Prog.C107_second_call",
    "Csdl.Prog.C107_one_model",
    "Csdl.Prog.C107_example",
    "Csdl.Prog.C107_value_of_submodel_wins"
   ],
   "note": "The full statement is false: a value that a direct submodel of the residual model gives to its declaration of an argument hides the value passed (C107_value_of_submodel_wins). C107_passed_values_partial says which value every given variable has; C107_argument_value that an argument has its value if no input and no value in a direct submodel overrides it."
  },
  {
   "property": "C108",
   "status": "proved",
   "theorems": [
    "Csdl.Params.C108_listing",
    "Csdl.Params.C108_saving",
    "Csdl.Params.C108_example"
   ],
   "note": ""
  },
  {
   "property": "C109",
   "status": "proved",
   "theorems": [
    "Csdl.Prog.C109_given_iff",
    "Csdl.Prog.C109_free_inputs_apart",
    "Csdl.Prog.C109_any_values",
    "Csdl.Prog.C109_inputs_are_free"
   ],
   "note": ""
  },
  {
   "property": "C110",
   "status": "proved",
   "theorems": [
    "Csdl.Prog.C110_design_variables_never_clash",
    "Csdl.Prog.C110_optimiser_sees_the_program",
    "Csdl.Prog.C110_connected_design_variables"
   ],
   "note": ""
  },
  {
   "property": "C111",
   "status": "proved",
   "theorems": [
    "Csdl.Prog.C111_merged_sizes",
    "Csdl.Prog.C111_nodes_have_sizes",
    "Csdl.Prog.C111_shapes_may_differ",
    "Csdl.Prog.C111_redeclared_size"
   ],
   "note": "The hypothesis on repeated declarations is needed (C111_redeclared_size); shapes are not kept (C111_shapes_may_differ)."
  },
  {
   "property": "C112",
   "status": "proved",
   "theorems": [
    "Csdl.Prog.C112_joining_more",
    "Csdl.Prog.C112_connection_passes_value"
   ],
   "note": "a connection at the end of a method (the order of connections and statements: C91, C96)"
  },
  {
   "property": "C113",
   "status": "proved",
   "theorems": [
    "Csdl.Prog.C113_input_or_declared"
   ],
   "note": "both programs are assumed valid: declaring an input may leave a promoted name or a connection without a source"
  },
  {
   "property": "C114",
   "status": "proved",
   "theorems": [
    "Csdl.Prog.C114_reads_inside"
   ],
   "note": "All valid programs whose joined variables have equal shapes (the code only demands equal sizes, C111; what a connection of differently shaped arrays means is left to the back end)."
  },
  {
   "property": "C115",
   "status": "proved",
   "theorems": [
    "Csdl.Prog.C115_runs_forget",
    "Csdl.Prog.C115_runs_forget_in_session"
   ],
   "note": "All valid programs and all histories. SimulatorBase leaves run to the back end: it is modelled as executing the representation (C61)."
  },
  {
   "property": "C116",
   "status": "proved",
   "theorems": [
    "Csdl.Prog.C116_numbers_do_not_matter",
    "Csdl.Prog.C116_with_custom_operations",
    "Csdl.Prog.C116_custom_example",
    "Csdl.Prog.C116_example",
    "Csdl.Prog.C116_zero_divisor"
   ],
   "note": "All programs (Program); NumPy arrays as divisors may contain zeros (infinity in NumPy), only the number zero raises."
  },
  {
   "property": "C117",
   "status": "proved",
   "theorems": [
    "Csdl.Prog.C117_larger_field",
    "Csdl.Prog.C117_extension_exists",
    "Csdl.Prog.C117_values",
    "Csdl.Prog.C117_complex_powers"
   ],
   "note": "Programs of Verif/Model/Program.lean (without custom and implicit operations); numbers are elements of fields, without rounding."
  },
  {
   "property": "C118",
   "status": "proved",
   "theorems": [
    "Csdl.Prog.C118_solutions_differentiable",
    "Csdl.Prog.C118_solutions_continuous",
    "Csdl.Prog.C118_values"
   ],
   "note": "Programs of Verif/Model/Program.lean (without custom and implicit operations); real numbers (elements of fields), without rounding."
  },
  {
   "property": "C119",
   "status": "proved",
   "theorems": [
    "Csdl.Prog.C119_solutions_linear",
    "Csdl.Prog.C119_solutions_affine",
    "Csdl.Prog.C119_values"
   ],
   "note": "Programs of Verif/Model/Program.lean (without custom and implicit operations); real numbers (elements of fields), without rounding."
  },
  {
   "property": "C120",
   "status": "proved",
   "theorems": [
    "Csdl.Prog.C120_solutions_tangents",
    "Csdl.Prog.C120_tangents_unique",
    "Csdl.Prog.C120_values"
   ],
   "note": "Programs of Verif/Model/Program.lean (without custom and implicit operations); real numbers, without rounding."
  },
  {
   "property": "C121",
   "status": "proved",
   "theorems": [
    "Csdl.Prog.C121_solutions_positive",
    "Csdl.Prog.C121_smooth",
    "Csdl.Prog.C121_values"
   ],
   "note": "Programs of Verif/Model/Program.lean (without custom and implicit operations); real numbers, without rounding, overflow or underflow."
  },
  {
   "property": "C122",
   "status": "proved",
   "theorems": [
    "Csdl.Prog.C122_solutions_units",
    "Csdl.Prog.C122_values"
   ],
   "note": "Programs of Verif/Model/Program.lean (without custom and implicit operations); real numbers, without rounding; powers of real numbers as in Mathlib (NumPy gives nan for negative bases and non-integer exponents)."
  },
  {
   "property": "C123",
   "status": "proved",
   "theorems": [
    "Csdl.Prog.C123_solutions_curvature",
    "Csdl.Prog.C123_values"
   ],
   "note": "Programs of Verif/Model/Program.lean (without custom and implicit operations); real numbers, without rounding."
  }
 ]
}