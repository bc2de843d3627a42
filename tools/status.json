{
"C01": ["partial", "Well-formedness proved for every counter. Distinctness is false of the code from 62*63^4 nodes on (C01_auto_names_collide); proved below that bound, with the exact collision set."],
"C04": ["proved", "Dotted declared names, which the property excludes, break it: C04_dotted_names_break_inverse."],
"C06": ["partial", "False of the code for a source and a declared variable promoted from sibling submodels (C06_size_clash_accepted). Proved: declared variables among themselves; source and declared variable when one model contains the other."],
"C07": ["partial", "First half false of the code: promotes is validated against the parent's namespace (C07_unknown_promote_accepted); proved that listed names are visible in the parent. Second half (valid names never rejected) proved."],
"C107": ["partial", "The full statement is false: a value that a direct submodel of the residual model gives to its declaration of an argument hides the value passed (C107_value_of_submodel_wins). C107_passed_values_partial says which value every given variable has; C107_argument_value that an argument has its value if no input and no value in a direct submodel overrides it."],
"C108": ["proved", ""],
"C109": ["proved", ""],
"C11": ["partial", "False of the code: a name visible in a submodel but promoted further up is rejected with KeyError (C11_visible_name_rejected). Proved for names that keep their name, and for all names visible in the main model."],
"C110": ["proved", ""],
"C111": ["proved", "The hypothesis on repeated declarations is needed (C111_redeclared_size); shapes are not kept (C111_shapes_may_differ)."],
"C112": ["proved", "a connection at the end of a method (the order of connections and statements: C91, C96)"],
"C113": ["proved", "both programs are assumed valid: declaring an input may leave a promoted name or a connection without a source"],
"C114": ["proved", "All valid programs whose joined variables have equal shapes (the code only demands equal sizes, C111; what a connection of differently shaped arrays means is left to the back end)."],
"C115": ["proved", "All valid programs and all histories. SimulatorBase leaves run to the back end: it is modelled as executing the representation (C61)."],
"C116": ["proved", "All programs (Program); NumPy arrays as divisors may contain zeros (infinity in NumPy), only the number zero raises."],
"C117": ["proved", "Programs of Verif/Model/Program.lean (without custom and implicit operations); numbers are elements of fields, without rounding."],
"C118": ["proved", "Programs of Verif/Model/Program.lean (without custom and implicit operations); real numbers (elements of fields), without rounding."],
"C119": ["proved", "Programs of Verif/Model/Program.lean (without custom and implicit operations); real numbers (elements of fields), without rounding."],
"C120": ["proved", "Programs of Verif/Model/Program.lean (without custom and implicit operations); real numbers, without rounding."],
"C121": ["proved", "Programs of Verif/Model/Program.lean (without custom and implicit operations); real numbers, without rounding, overflow or underflow."],
"C122": ["proved", "Programs of Verif/Model/Program.lean (without custom and implicit operations); real numbers, without rounding; powers of real numbers as in Mathlib (NumPy gives nan for negative bases and non-integer exponents)."],
"C123": ["proved", "Programs of Verif/Model/Program.lean (without custom and implicit operations); real numbers, without rounding."],
"C13": ["partial", "False of the code: the build overwrites the declared objective name, and the second build raises KeyError (C13_rebuild_fails). Proved when the objective was declared under its name in the main model."],
"C14": ["partial", "Names of registered outputs: false of the code when one output object is registered with two models (C14_shared_output_duplicates_names); proved otherwise. No object twice and rejected calls have no effect: proved for all histories."],
"C15": ["partial", "False of the code: create_input and declare_variable do not check names (C15_clashing_names_accepted). Proved for histories in which those two calls use new names."],
"C17": ["partial", "Connections proved in full. Submodel names: automatic names are not checked (C17_automatic_submodel_name_clashes); proved when user-given names do not have the form of automatic names."],
"C19": ["partial", "Proved for every key made of ints and slices (the documented keys). Tuple keys with other elements (e.g. Ellipsis) are silently accepted and can select the wrong element: C19_ellipsis_wrong_element."],
"C20": ["partial", "Proved for keys whose normalised form (per-axis start/stop/step with missing bounds filled in) agrees: same object, and different normal forms give different objects. The statement as worded (same slice => same object) is false of the code: C20_same_slice_two_objects exhibits x[0:3] vs x[0:3:1] and x[0:-1] vs x[0:2]."],
"C22": ["partial", "False as worded: x[-1] is recorded as index -1 (C22_negative_index) and a variable renamed between two assignments becomes a dependency twice (C22_renamed_variable). Proved: recorded indices of accepted assignments pairwise distinct and below the size for every history; in range and elements written at most once when no key is a negative int; dependencies are exactly the accepted variables in order, once each when no variable is renamed."],
"C23": ["partial", "False as worded for overlapping assignments (C23_overlap_has_effect). Proved for every rejection without overlap; in all cases dependencies and earlier entries are unchanged."],
"C26": ["proved", "Under the naming hypothesis NamesOk (operations have names of their own and no object has the name of a submodel); C28 shows that the code does not ensure the latter."],
"C27": ["partial", "Does not hold of the code: C27_unused_declared_is_lost proves that an unused declared variable is never a node of the graph, in any model. Proved part: used declared variables are in the graph and the operations depend on them."],
"C28": ["partial", "Does not hold of the code: the automatic name of an unnamed submodel is always that of the next object created (C28_unnamed_submodel_name_taken), and an object with the name of a submodel is lost (C28_operation_lost, C28_addition_lost). Proved part: exactly when names clash, and that all operations survive when no needed object has the name of a submodel."],
"C29": ["partial", "flat graph exact and promoted names for every variable known to promotion resolution; as stated false: unregistered outputs of custom operations in submodels keep the main model's namespace (C29_unregistered_output_captures)"],
"C31": ["partial", "closest with main and its direct submodels counted as equally close; as stated false (C31_submodel_wins)"],
"C32": ["partial", "for connections whose source is not the target of an earlier connection; as stated false: chain a->b, b->c (C32_chain_broken)"],
"C34": ["partial", "Exact for dependencies inside the residual model (any graph). Dependencies through submodels of the residual model are missed by the code: C34_submodel_dependency_missed."],
"C35": ["partial", "Everything except the shapes of the outputs returned for the states, which the code takes from the given value: C35_state_shape_changed, C35_duplicate_declared; C35_state_shapes_partial gives sufficient conditions."],
"C36": ["partial", "False of the code (C36_registration_order): registration order is used; proved when the expose list is in registration order, and as a permutation otherwise."],
"C37": ["partial", "Proved whenever both expansions are non-empty; false of the code for an empty wildcard or list (C37_empty_wildcard). C37_never_overwrites holds without exception."],
"C38": ["partial", "Outputs can be declared twice (nouts counts both), an output can be redeclared as input, a failed add_input leaves the name declared (C38_not_once). What holds always, and sufficient conditions for the rest, are proved."],
"C39": ["partial", "Proved for every history with successful declarations (failed declarations: C40). types=bool is checked by equality with True/False, so ints are accepted: C39_bool_accepts_int."],
"C40": ["partial", "False of the code for every invalid default: C40_invalid_default_stays. Proved for declarations rejected for other reasons, and for other options."],
"C43": ["partial", "reshape does not hold for negative sizes: (-2, -3) is accepted for 6 elements (C43_reshape_refuted); proved for non-negative sizes; transpose and reorder_axes proved in full."],
"C44": ["partial", "Proved for the shapes the function can handle; refuted for output rank above 10, where the ten-letter alphabet always raises IndexError (C44_refuted)."],
"C46": ["partial", "dot, cross, outer fully characterised; matmat, matvec, inner accept non-conformable shapes (C46_refuted)."],
"C47": ["partial", "Proved for axes of the array; refuted for out-of-range axes of vectors, int axes of sum, all axes of average/pnorm (C47_refuted)."],
"C48": ["partial", "Proved for all histories of successful builds with arbitrary sharing and cycles; false after a failed build (define is run again) and for models edited after a build (C48_refuted)."],
"C49": ["partial", "Proved when what is computed between two unary elementwise operations has no other use; refuted otherwise: a variable used by a third operation is removed (C49_refuted)."],
"C50": ["partial", "False as stated (C50_linear_refuted, C50_power_refuted): coefficients strictly between -1 and 1 are dropped, names run together when a negative term precedes the first positive one and the constant is 0, and all-zero combinations give no assignment. C50_linear_iff_partial characterises exactly when the text of a linear combination with scalar literals is right; it covers everything the operators create. Array literals are not modelled."],
"C52": ["partial", "The property is false: diff never succeeds for a non-empty axis, whatever the history of the array (C52_refuted)."],
"C53": ["partial", "False for create_output (C53_concatenation_size: size is always 1); proved for inputs, declared variables and outputs of operations."],
"C55": ["partial", "False as stated (C55_refuted): the shape of a constant array is never compared with that of the variable. Proved for arrays that broadcast to the variable's shape."],
"C56": ["partial", "Every permutation is accepted; refuted: 'ij->i' and 'ij->ii' are accepted."],
"C57": ["partial", "Refuted: 'ab->ba' keeps the given shape and unlabelled axes are accepted; the part that holds is proved."],
"C58": ["partial", "Refuted: inconsistent sizes, unknown output labels and superfluous operands are accepted."],
"C59": ["partial", "eigenvalues, solve, rotmat proved; sparsematmat accepts three axes, quatrotvec any last axes (C59_refuted)."],
"C60": ["partial", "Live nodes are kept; but nothing is ever removed, whatever the graph (C60_unchanged), so dead nodes stay (C60_refuted)."],
"C63": ["partial", "Proved for registered outputs that no operation uses, and for the second dictionary; the first dictionary contains nodes instead of names (C63_output_map_has_no_names) and outputs that are used by an operation are missing from both (C63_used_output_missing)."],
"C66": ["partial", "The code returns the number of edges of a longest path, which is twice the number of operations on it (C66_twice_critical_path_partial, C66_not_number_of_operations)."],
"C67": ["partial", "Acceptance, stored brackets, dependencies and outputs proved; the shape of a bracket is not compared with the shape of its state (C67_bracket_shape_unchecked)."],
"C68": ["partial", "False of the code: numbers dropped, all defaults dropped with brackets, arrays rejected with IndexError; proved what is recorded."],
"C75": ["partial", "Proved for every class, keyword arguments and later assignments, with what 'accepts' means spelled out. Missing from the English: a bool option accepts every number equal to 0 or 1 (C75_bool_accepts_numbers), and a range accepts nan (C75_range_accepts_nan). Infinite floats and objects with their own comparison are not modelled."],
"C76": ["partial", "Proved for arsinh (all x), arcosh (x >= 1), artanh (|x| < 1), arcoth (|x| > 1), for every solution of every program, over the real numbers. False for arsech: for 0 < x <= 1 the result is right only at x = 1 (C76_arsech_refuted); arcsch returns None (C76_arcsch_refuted)."],
"C78": ["partial", "Acceptance and shapes proved exactly. The text of exp_a is right for numbers not below zero only: for a negative base Python reads -(2**x) (C78_exp_a_text_negative), for arrays and variables the text is no expression (C78_exp_a_text_objects). bessel has no text."],
"C79": ["partial", "Proved for all programs and real angles: the product of the three axis rotations, orthogonal, determinant 1. Partial because angles of the default shape (1,) are rejected (C79_scalar_angles_rejected): only angles of shape (1, 1) and outputs with two axes of at least three elements are accepted (C79_accepted_shapes_partial); the axes argument and check_axes have no effect in the code."],
"C90": ["partial", "Proved for names unknown in the using model (C90_unknown_rejected_partial). The full claim is false of the code: a model with a variable of the same name captures the argument silently (C90_foreign_captured)."],
"C91": ["partial", "proved for connections that do not form chains; refuted for chains (C91_order_of_connections_matters), and for variables with two given values (C91_order_of_values_matters)"],
"C92": ["partial", "Proved in full where the connections do not form chains (NoChain). The full statement is false of the code: C92_cycle_fails."],
"C93": ["partial", "Proved for variables not promoted to the main model (q > 0). The full statement is false of the code: C93_main_level_not_shown."],
"C94": ["partial", "Proved where the connections do not form chains (NoChain); with chains a report may not be written at all (C92_cycle_fails)."]
}
