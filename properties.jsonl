{"id": "C01", "title": "Automatically generated names never collide", "statement": "Two Node objects created at different points of a program never receive the same automatic name, every automatic name is a non-empty string of letters, digits and underscores (so it is accepted by the name checker and contains no '.'), and it has at least five characters.", "quantifier": "every pair of creation counters (natural numbers of any size)", "why_tests_cant": "The name space is infinite and the collision, if any, would appear only at digit-count boundaries (63, 63^2, ...) that no test enumerates.", "anchors": ["csdl/utils/gen_hex_name.py:gen_hex_name", "csdl/lang/node.py:Node.__init__"]}
{"id": "C02", "title": "Hierarchical names are unambiguous", "statement": "Prefixing a variable name with the names of the models that contain it loses no information: if all model names are non-empty and contain no '.', two different (model path, variable name) pairs with dot-free variable names never give the same full name; and the name checker accepts exactly the strings whose characters are all alphanumeric or '_', hence only dot-free names.", "quantifier": "every pair of model paths of any depth and every variable name", "why_tests_cant": "Depends on all nestings and all strings, not on sample names.", "anchors": ["csdl/utils/prepend_namespace.py:prepend_namespace", "csdl/utils/check_banned_chars.py:check_banned_chars"]}
{"id": "C03", "title": "Promotion map groups variables exactly by promoted name", "statement": "When promotions resolve without error, a name p of the main model maps to the full (unpromoted) name u exactly when some variable created or declared in the hierarchy has full name u and promoted name p, where the promoted name is obtained by climbing from the variable's model to the main model and, at each `add`, keeping the name if it is promoted (all dot-free names for promotes=None, listed names for a list, nothing for []) and prefixing the submodel name otherwise.  No variable is lost and none is invented.", "quantifier": "every model hierarchy of any depth and width, any variable names, any promotes arguments", "why_tests_cant": "A property of all trees and all promotion choices.", "anchors": ["csdl/rep/resolve_promotions.py:resolve_promotions"]}
{"id": "C04", "title": "Promoted and unpromoted lookup are mutually inverse", "statement": "In a hierarchy where all variable and model names are dot-free, every full name belongs to exactly one promoted name: looking up the promoted name of a full name and then the set of full names of that promoted name gives back a set containing the full name, and every full name listed under a promoted name looks up to that promoted name.", "quantifier": "every hierarchy with dot-free names that resolves, every name in it", "why_tests_cant": "Needs disjointness of the classes in every hierarchy.", "anchors": ["csdl/rep/resolve_promotions.py:resolve_promotions", "csdl/rep/graph_representation.py:create_reverse_map", "csdl/rep/graph_representation.py:generate_unpromoted_promoted_maps"]}
{"id": "C05", "title": "At most one source per promoted name", "statement": "When promotions resolve without error, no two different source variables (created inputs or registered outputs) of the hierarchy share a promoted name; conversely the duplicate-source error is raised only if two different sources of one model's hierarchy do share a promoted name relative to that model.", "quantifier": "every hierarchy whose models have distinct dot-free local source names and distinct non-empty dot-free submodel names", "why_tests_cant": "Unit tests check a few collisions; the guarantee concerns every combination of siblings, parents and promotes lists.", "anchors": ["csdl/rep/resolve_promotions.py:resolve_promotions", "csdl/utils/check_duplicate_keys.py:check_duplicate_keys"]}
{"id": "C06", "title": "Variables merged by promotion have the same size", "statement": "When promotions resolve without error, all variables of the hierarchy that share a promoted name have the same number of elements.", "quantifier": "every hierarchy that resolves, every pair of variables with a common promoted name", "why_tests_cant": "All trees, all shapes.", "anchors": ["csdl/rep/resolve_promotions.py:resolve_promotions", "csdl/utils/find_names_with_matching_shapes.py:find_names_with_matching_shapes", "csdl/utils/find_keys_with_matching_values.py:find_keys_with_matching_values"]}
{"id": "C07", "title": "Invalid promotes are rejected", "statement": "If `add(submodel, promotes=[...])` lists a name that the submodel does not have in its own namespace, building the representation raises KeyError; names the submodel has are never rejected.", "quantifier": "every hierarchy, every promotes list", "why_tests_cant": "All trees and lists.", "anchors": ["csdl/rep/resolve_promotions.py:resolve_promotions"]}
{"id": "C08", "title": "Promotion resolution never trips its internal consistency checks", "statement": "The 'size mismatch' errors inside promotion resolution, which would indicate a compiler bug, are unreachable for every hierarchy.", "quantifier": "every hierarchy, any names and promotes lists", "why_tests_cant": "Unreachability over all inputs.", "anchors": ["csdl/rep/resolve_promotions.py:resolve_promotions"]}
{"id": "C09", "title": "Simulator keys: promoted and unpromoted names address the same variable", "statement": "Reading or writing a Simulator by the full name of a variable or by its promoted name addresses the same storage, distinct promoted names address distinct storage, a value written under one alias is read back under every alias, and a name that is neither raises KeyError.", "quantifier": "every hierarchy with dot-free names that resolves, every key and value, every history of reads and writes", "why_tests_cant": "All histories and all keys.", "anchors": ["csdl/sim/simulator_base.py:SimulatorBase._find_promoted_name", "csdl/sim/simulator_base.py:SimulatorBase.__getitem__", "csdl/sim/simulator_base.py:SimulatorBase.__setitem__"]}
{"id": "C10", "title": "All declared connections are collected, once, with promoted names", "statement": "The list of connections of the representation contains exactly the pairs of promoted names of the connections issued anywhere in the hierarchy, each pair once, in order of first occurrence with submodels before their parent; a connection naming an unknown variable raises KeyError.", "quantifier": "every hierarchy and every set of connections", "why_tests_cant": "All trees.", "anchors": ["csdl/rep/collect_connections.py:collect_connections", "csdl/rep/graph_representation.py:GraphRepresentation.__init__", "csdl/utils/find_promoted_name.py:find_promoted_name"]}
{"id": "C11", "title": "Names visible in a model can be used in its optimisation and connection declarations", "statement": "A name that belongs to a model's namespace (a local variable or one promoted to it from a submodel) can be used in that model's connect / add_constraint / add_objective / add_design_variable wherever the model sits in the hierarchy.", "quantifier": "every hierarchy, every model in it, every name of its namespace", "why_tests_cant": "All nestings and promotes choices above the declaring model.", "anchors": ["csdl/rep/collect_constraints.py:collect_constraints", "csdl/rep/collect_design_variables.py:collect_design_variables", "csdl/rep/find_objective.py:find_objective", "csdl/rep/merge_connections.py:find_unique_node"]}
{"id": "C12", "title": "Design variables, constraints and objective are unique", "statement": "The representation has at most one entry per promoted name among design variables, and among constraints, and at most one objective; two declarations that resolve to the same promoted name, or two objectives anywhere in the hierarchy, raise ValueError; otherwise every declared design variable and constraint appears with its own data.", "quantifier": "every hierarchy and all declarations in it", "why_tests_cant": "All trees.", "anchors": ["csdl/rep/collect_design_variables.py:collect_design_variables", "csdl/rep/collect_constraints.py:collect_constraints", "csdl/rep/find_objective.py:find_objective"]}
{"id": "C13", "title": "Rebuilding the representation of a model gives the same objective", "statement": "Building a GraphRepresentation of the same Model twice yields the same objective name both times.", "quantifier": "every hierarchy with an objective", "why_tests_cant": "Histories with repeated builds of arbitrary hierarchies.", "anchors": ["csdl/rep/find_objective.py:find_objective"]}
{"id": "C14", "title": "Output names are unique within a model", "statement": "After any sequence of Model API calls, the names of the registered outputs of a model are pairwise different, no output object is registered twice, and every rejected registration leaves the model unchanged.", "quantifier": "every finite sequence of create_input / declare_variable / register_output / create_output / add calls with any arguments", "why_tests_cant": "Histories of any length.", "anchors": ["csdl/lang/model.py:Model.register_output", "csdl/lang/model.py:Model.create_output"]}
{"id": "C15", "title": "No local name denotes two sources", "statement": "After any sequence of Model API calls, no name is used by two source variables (inputs, registered outputs) of the same model, nor by a source and a declared variable.", "quantifier": "every finite sequence of Model API calls", "why_tests_cant": "Histories of any length and order.", "anchors": ["csdl/lang/model.py:Model.create_input", "csdl/lang/model.py:Model.declare_variable", "csdl/lang/model.py:Model.register_output"]}
{"id": "C16", "title": "Optimisation declarations are well formed", "statement": "After any sequence of Model API calls each design variable names an input of the model and is declared once, each constraint is declared once and has no lower bound above its upper bound, and the objective, once set, never changes.", "quantifier": "every finite sequence of Model API calls", "why_tests_cant": "Histories of any length.", "anchors": ["csdl/lang/model.py:Model.add_design_variable", "csdl/lang/model.py:Model.add_constraint", "csdl/lang/model.py:Model.add_objective"]}
{"id": "C17", "title": "Connections and submodels of a model are recorded faithfully", "statement": "After any sequence of API calls the connections recorded by a model are exactly the accepted pairs, in order of first issue, without duplicates and without self connections; submodel names are pairwise distinct.", "quantifier": "every finite sequence of Model API calls", "why_tests_cant": "Histories of any length.", "anchors": ["csdl/lang/model.py:Model.connect", "csdl/lang/model.py:Model.add", "csdl/lang/subgraph.py:Subgraph.__init__"]}
{"id": "C18", "title": "Index lists of slices agree with Python slicing", "statement": "When a slice of a dimension is accepted and its indices are in range, the list of indices used is exactly the list of positions Python/NumPy basic slicing selects, in the same order; indices are never negative and the list is never empty.", "quantifier": "every start/stop/step (absent, positive, negative) and every dimension size", "why_tests_cant": "Unbounded integers.", "anchors": ["csdl/utils/slice_to_list.py:slice_to_list", "csdl/lang/node.py:slice_to_tuple"]}
{"id": "C19", "title": "Extracting elements selects exactly the elements NumPy would", "statement": "When `x[key]` succeeds, the flat source indices are pairwise distinct if each axis selection is, all are valid flat indices of x, their number equals the number of elements of the returned variable, and the k-th one is the row-major position of the k-th element of the NumPy slice.", "quantifier": "every shape of any rank, every key", "why_tests_cant": "All shapes and keys.", "anchors": ["csdl/lang/variable.py:Variable.__getitem__", "csdl/operations/decompose.py:decompose"]}
{"id": "C20", "title": "Indexing twice with equal keys gives the same variable", "statement": "For one variable, keys that denote the same slices (such as x[0:n] and x[:], or x[-1] and x[n-1]) return the same Output object, keys that normalise differently return different objects, and previously returned objects and their indices never change.", "quantifier": "every sequence of indexing operations on a variable", "why_tests_cant": "Histories of any length.", "anchors": ["csdl/lang/variable.py:Variable.__getitem__"]}
{"id": "C21", "title": "Row-major flattening is a bijection", "statement": "Flattening a multi-index of an array is injective on valid indices, every flat index in range is hit, and the result is below the number of elements.", "quantifier": "every shape of any rank", "why_tests_cant": "All ranks and sizes.", "anchors": ["csdl/lang/variable.py:Variable.__getitem__", "csdl/lang/concatenation.py:Concatenation.__setitem__"]}
{"id": "C22", "title": "Indexed assignment writes every element at most once", "statement": "After any sequence of indexed assignments to an output, the index sets of the accepted assignments are pairwise disjoint and inside the output, and each accepted variable is a dependency of the single operation that computes the output, exactly once.", "quantifier": "every sequence of indexed assignments, accepted or rejected, in any order", "why_tests_cant": "Histories of any length.", "anchors": ["csdl/lang/concatenation.py:Concatenation.__setitem__"]}
{"id": "C23", "title": "A rejected indexed assignment has no effect", "statement": "An indexed assignment that raises leaves the output as it was: an assignment that would have been accepted before is accepted after.", "quantifier": "every history of assignments and every rejected assignment", "why_tests_cant": "Histories of any length.", "anchors": ["csdl/lang/concatenation.py:Concatenation.__setitem__"]}
{"id": "C24", "title": "Execution order respects dependencies", "statement": "The node list of the representation contains every node of the flattened graph exactly once, and every node comes after all nodes it depends on; if and only if the flattened graph has a cycle, building the representation raises KeyError.", "quantifier": "every finite directed graph", "why_tests_cant": "All graphs.", "anchors": ["csdl/rep/sort_nodes_nx.py:sort_nodes_nx", "csdl/rep/graph_representation.py:GraphRepresentation.__init__"]}
{"id": "C25", "title": "Results do not depend on the execution order chosen", "statement": "Evaluating the operations of the flattened graph in any order that respects dependencies gives the same value to every variable.", "quantifier": "every finite graph in which each variable is computed by at most one operation, every interpretation of the operations, every pair of valid orders, every initial environment", "why_tests_cant": "The number of valid orders is exponential and operations are arbitrary functions.", "anchors": ["csdl/rep/sort_nodes_nx.py:sort_nodes_nx", "csdl/rep/merge_connections.py:merge_connections"]}
{"id": "C26", "title": "The graph of a model contains everything its outputs depend on", "statement": "The graph built for a model contains each registered output, each operation and variable it transitively depends on, and all outputs of those operations, and its edges are exactly the declared dependencies; nothing that is unrelated is added.", "quantifier": "every model, every dependency structure (any size, shared subexpressions included)", "why_tests_cant": "All dependency graphs.", "anchors": ["csdl/rep/construct_unflat_graph.py:construct_graph_this_model", "csdl/rep/construct_unflat_graph.py:get_graph_node", "csdl/rep/construct_unflat_graph.py:construct_graphs_all_models"]}
{"id": "C27", "title": "Unused declared variables appear in the graph", "statement": "A declared variable that no operation uses is still a node of the graph of its model (as the source comments promise) so that it can be connected and read.", "quantifier": "every model", "why_tests_cant": "All models.", "anchors": ["csdl/rep/construct_unflat_graph.py:construct_graphs_all_models", "csdl/rep/construct_unflat_graph.py:construct_graph_this_model"]}
{"id": "C28", "title": "Unnamed submodels do not disturb the parent's operations", "statement": "Adding a submodel without a name gives it a name no other node of the program has, so that the parent's operations all survive in the graph.", "quantifier": "every program that adds unnamed submodels at any point", "why_tests_cant": "All programs.", "anchors": ["csdl/lang/subgraph.py:Subgraph.__init__", "csdl/rep/construct_unflat_graph.py:construct_graphs_all_models", "csdl/rep/construct_unflat_graph.py:get_graph_node", "csdl/rep/construct_flat_graph.py:merge_graphs"]}
{"id": "C29", "title": "Flattening keeps every node and dependency and names it by its promoted name", "statement": "The flattened graph before merging contains, for every model of the hierarchy, each node and edge of that model's own graph exactly once and no model nodes, and the name assigned to each user-named variable node is its promoted name.", "quantifier": "every hierarchy with dot-free names, every iteration order of submodels", "why_tests_cant": "All trees and set-iteration orders.", "anchors": ["csdl/rep/construct_flat_graph.py:merge_graphs", "csdl/rep/graph_representation.py:GraphRepresentation.__init__"]}
{"id": "C30", "title": "After merging, one node per promoted name", "statement": "After automatic merging, no two variable nodes with user-given names share a promoted name; each operation that read a declared variable now reads the source of the same promoted name if there is one and otherwise the one representative declared variable; no dependency between other nodes is added or lost.", "quantifier": "every flattened graph, every iteration order", "why_tests_cant": "All graphs and orders.", "anchors": ["csdl/rep/construct_flat_graph.py:merge_automatically_connected_nodes"]}
{"id": "C31", "title": "The representative declared variable is the one closest to the root", "statement": "Among the declared variables with a common promoted name and no source, the one kept in the graph (whose default value is used) is the one declared closest to the main model; among equally close ones, one with an explicit value if there is any.", "quantifier": "every set of declared variables sharing a promoted name, every iteration order", "why_tests_cant": "All hierarchies and orders.", "anchors": ["csdl/rep/construct_flat_graph.py:merge_automatically_connected_nodes"]}
{"id": "C32", "title": "A connection replaces its target by its source", "statement": "When all connections are merged without error, each target occurs in at most one connection, every operation that read the target reads the source instead, the target is no longer a node, source and target have the same number of elements, sources are inputs or outputs, and no target was computed by an operation.", "quantifier": "every flat graph and every list of connections", "why_tests_cant": "All graphs and lists.", "anchors": ["csdl/rep/merge_connections.py:merge_connections", "csdl/rep/merge_connections.py:find_unique_node"]}
{"id": "C33", "title": "Each variable is computed by at most one operation", "statement": "When the flat graph is built without error, every variable node has at most one incoming edge.", "quantifier": "every hierarchy, promotions and connections", "why_tests_cant": "All graphs.", "anchors": ["csdl/rep/merge_connections.py:merge_connections", "csdl/lang/variable.py:Variable.add_dependency_node"]}
{"id": "C34", "title": "Residual dependencies are found exactly", "statement": "For an implicit operation, the variables recorded as inputs of a residual are exactly the declared variables without dependencies reachable from the residual through the dependency graph (restricted to arguments and states); a residual that does not depend on its own state is rejected.", "quantifier": "every dependency graph of the residual model", "why_tests_cant": "All graphs, any sharing.", "anchors": ["csdl/utils/collect_terminals.py:collect_terminals", "csdl/lang/model.py:Model._generate_maps_for_implicit_operation"]}
{"id": "C35", "title": "States and residuals are paired one to one", "statement": "When an implicit operation is accepted, states and residuals are in one-to-one correspondence, the two maps are inverse to each other, paired variables have equal shapes, arguments are declared variables of equal shape, and the returned outputs are the states in order followed by the exposed variables.", "quantifier": "all lists of states, residuals, arguments and exposed names", "why_tests_cant": "All lists.", "anchors": ["csdl/lang/model.py:Model._generate_maps_for_implicit_operation", "csdl/lang/model.py:Model._return_implicit_outputs", "csdl/lang/implicit_operation_factory.py:ImplicitOperationFactory.declare_state"]}
{"id": "C36", "title": "Exposed outputs are returned in the order requested", "statement": "The outputs returned by an implicit operation for exposed variables come in the order of the expose list.", "quantifier": "all expose lists", "why_tests_cant": "All lists.", "anchors": ["csdl/lang/model.py:Model._return_implicit_outputs"]}
{"id": "C37", "title": "Declared derivatives expand wildcards completely", "statement": "declare_derivatives(of, wrt) declares exactly the pairs in the product of the expansion of `of` and `wrt` ('*' meaning all outputs respectively all inputs), never overwrites an earlier declaration, and raises KeyError if a pair was already declared.", "quantifier": "all lists of names and any history of declarations", "why_tests_cant": "All lists and histories.", "anchors": ["csdl/lang/custom_operation.py:CustomOperation.declare_derivatives"]}
{"id": "C38", "title": "Custom operation inputs and outputs are declared once", "statement": "After any sequence of add_input/add_output calls, input names and output names are pairwise distinct and disjoint, and the argument and output counts equal the numbers of names; redeclaring a name raises KeyError.", "quantifier": "every sequence of calls", "why_tests_cant": "Histories of any length.", "anchors": ["csdl/lang/custom_operation.py:CustomOperation.add_input", "csdl/lang/custom_operation.py:CustomOperation.add_output"]}
{"id": "C39", "title": "Options hold only valid values", "statement": "After any sequence of declare / set / update / undeclare calls that the caller observes as successful, reading an option returns the last value successfully set (or the default), which satisfies the declared values/types/bounds; setting an undeclared option, an invalid value or a read-only option raises and changes nothing; reading an option that has no value raises RuntimeError.", "quantifier": "every history of Parameters calls", "why_tests_cant": "Histories of any length, any validity predicates.", "anchors": ["csdl/utils/parameters.py:Parameters.declare", "csdl/utils/parameters.py:Parameters.__setitem__", "csdl/utils/parameters.py:Parameters.__getitem__", "csdl/utils/parameters.py:Parameters._assert_valid"]}
{"id": "C40", "title": "A failed option declaration leaves no invalid value behind", "statement": "If declaring an option raises because the default is invalid, a later read of the option does not return the invalid default.", "quantifier": "every history", "why_tests_cant": "Crash points in arbitrary histories.", "anchors": ["csdl/utils/parameters.py:Parameters.declare"]}
{"id": "C41", "title": "Arithmetic on variables means arithmetic", "statement": "The graph built by +, -, *, / and ** on variables and numbers, evaluated operation by operation, gives the value of the corresponding arithmetic expression, including when the same variable occurs several times, and the result has the shape of the first variable operand.", "quantifier": "every arithmetic expression tree over variables and numbers, every assignment of values", "why_tests_cant": "All expression trees and values.", "anchors": ["csdl/lang/variable.py:Variable.__add__", "csdl/operations/linear_combination.py:linear_combination", "csdl/operations/power_combination.py:power_combination", "csdl/lang/standard_operation.py:StandardOperation.__init__"]}
{"id": "C42", "title": "Standard operations have pairwise distinct arguments", "statement": "Whatever arguments are given to a standard operation, its recorded dependencies are pairwise distinct, as many as the arguments, and the i-th dependency has the value of the i-th argument.", "quantifier": "every argument list, repetitions included", "why_tests_cant": "All lists.", "anchors": ["csdl/lang/standard_operation.py:StandardOperation.__init__"]}
{"id": "C43", "title": "Reshaping and reordering preserve elements", "statement": "reshape and flatten are accepted only between shapes with the same number of elements; reorder_axes with a permutation of distinct labels yields the permuted shape, keeps the number of elements, and the reverse operation restores the shape.", "quantifier": "all shapes and index strings", "why_tests_cant": "All ranks and label strings.", "anchors": ["csdl/std/reshape.py:reshape", "csdl/std/reorder_axes.py:reorder_axes", "csdl/utils/reorder_axes_utils.py:compute_new_axes_locations", "csdl/std/transpose.py:transpose"]}
{"id": "C44", "title": "Expansion shapes are consistent", "statement": "expand(var, shape, indices) for a non-scalar is accepted exactly when deleting from the output shape the axes whose label does not occur among the input labels leaves the shape of the variable; the two halves of the decomposition partition the axes in order.", "quantifier": "all shapes and index strings", "why_tests_cant": "All ranks.", "anchors": ["csdl/std/expand.py:expand", "csdl/utils/decompose_shape_tuple.py:decompose_shape_tuple"]}
{"id": "C45", "title": "Einstein summation output shapes are correct", "statement": "For operands whose axis sizes are consistent, the output shape of einsum has, for each output label in order, the size of that label, and the tuple-based interface gives distinct letters to distinct axis names and the same letter to equal names, with the same result shape; an output axis name that no operand has is rejected there.", "quantifier": "all subscripts with at most 26 axis names, all shapes", "why_tests_cant": "All subscript lists.", "anchors": ["csdl/utils/einsum_utils.py:compute_einsum_shape", "csdl/utils/einsum_utils.py:new_einsum_subscripts_to_string_and_list", "csdl/utils/einsum_utils.py:einsum_subscripts_tolist"]}
{"id": "C46", "title": "Products accept only conformable arguments", "statement": "matmat, matvec, dot, cross, inner and outer raise unless the shapes are conformable, and otherwise the output shape is that of the NumPy operation.", "quantifier": "all shapes", "why_tests_cant": "All shapes.", "anchors": ["csdl/std/matmat.py:matmat", "csdl/std/matvec.py:matvec", "csdl/std/dot.py:dot", "csdl/std/outer.py:outer", "csdl/std/inner.py:inner", "csdl/std/cross.py:cross"]}
{"id": "C47", "title": "Reductions have the shape of NumPy reductions", "statement": "sum, average, max, min and pnorm over axes return the shape left after deleting those axes ((1,) if none is left), the elementwise forms keep the shape, and an axis outside the array is rejected.", "quantifier": "all shapes and axes", "why_tests_cant": "All shapes and axes.", "anchors": ["csdl/std/sum.py:sum", "csdl/std/max.py:max", "csdl/std/min.py:min", "csdl/std/average.py:average", "csdl/std/pnorm.py:pnorm"]}
{"id": "C48", "title": "Models are defined once, top down", "statement": "Building a representation runs each model's define exactly once however often the model object occurs or the representation is rebuilt, and after success every model of the hierarchy is marked defined and is non-empty, its design variables are inputs, and its concatenations have at least one assignment.", "quantifier": "every hierarchy, any sharing of model objects, any number of builds", "why_tests_cant": "All trees and histories.", "anchors": ["csdl/lang/define_models_recursively.py:define_models_recursively"]}
{"id": "C49", "title": "Combining operations preserves results", "statement": "Replacing two consecutive elementwise operations by one combined operation does not remove a variable that another operation still needs and leaves the values of all remaining variables unchanged.", "quantifier": "every flat graph and every pair of operations the optimiser combines", "why_tests_cant": "All graphs.", "anchors": ["csdl/opt/combine_operations.py:combinable", "csdl/opt/combine_operations.py:insert_new_op", "csdl/opt/combine_operations.py:_combine_operations"]}
{"id": "C50", "title": "Compute strings denote the operation", "statement": "The textual expression generated for a linear combination evaluates to the constant plus the sum of coefficient times argument.", "quantifier": "every list of coefficients and arguments and every constant", "why_tests_cant": "All coefficients.", "anchors": ["csdl/operations/linear_combination.py:linear_combination.define_compute_strings", "csdl/operations/power_combination.py:power_combination.define_compute_strings"]}
{"id": "C51", "title": "Shape inference of values", "statement": "A scalar default is broadcast to the requested shape, an array default is accepted exactly when its shape is the requested one or the requested shape is (1,), and the resulting value always has the resulting shape.", "quantifier": "all shapes and values", "why_tests_cant": "All shapes.", "anchors": ["csdl/utils/get_shape_val.py:get_shape_val"]}
{"id": "C52", "title": "Finite differences along an axis", "statement": "diff(delta, array, axis) assigns to delta[1:] the differences of consecutive elements of array along the axis for every array whose axis has at least two entries.", "quantifier": "all shapes and axes", "why_tests_cant": "All shapes.", "anchors": ["csdl/std/diff.py:diff"]}
{"id": "C53", "title": "The size of a variable is the number of its elements", "statement": "Every variable created through the API has as size the product of its shape, and flatten of any variable is accepted and gives one axis of that size.", "quantifier": "all shapes and default values", "why_tests_cant": "All shapes and kinds of default values.", "anchors": ["csdl/lang/variable.py:Variable.__init__", "csdl/lang/concatenation.py:Concatenation.__init__", "csdl/std/reshape.py:flatten"]}
{"id": "C54", "title": "Custom operations are called with exactly their declared inputs", "statement": "An accepted call of custom has as arguments exactly the declared inputs, in order, with equal names and shapes; these are the dependencies of the operation; the outputs returned are exactly the declared outputs in order with declared names and shapes; and an operation object that has inputs cannot be used a second time.", "quantifier": "all sequences of calls in define and all argument lists", "why_tests_cant": "All definitions and argument lists.", "anchors": ["csdl/std/custom.py:custom", "csdl/lang/custom_operation.py:CustomOperation"]}
{"id": "C55", "title": "Constant arrays in arithmetic are combined as in NumPy", "statement": "An operator between a variable and a NumPy array is accepted only if NumPy can broadcast the two shapes, and the result has the broadcast shape.", "quantifier": "all shapes of variable and array, all operators", "why_tests_cant": "All pairs of shapes.", "anchors": ["csdl/lang/variable.py:Variable.__add__", "csdl/operations/linear_combination.py:linear_combination", "csdl/operations/power_combination.py:power_combination"]}
{"id": "C56", "title": "reorder_axes takes a permutation of the axis labels", "statement": "reorder_axes(x, 'in->out') is accepted only if out is a permutation of in and in has one label per axis of x; every other operation string raises an exception.", "quantifier": "all shapes and all operation strings", "why_tests_cant": "Unboundedly many shapes and strings.", "anchors": ["csdl/std/reorder_axes.py:reorder_axes"]}
{"id": "C57", "title": "expand respects the axis labels", "statement": "In expand(x, shape, 'in->out') every axis of the output whose label occurs in the input has the size of that input axis, and a string that contradicts the shapes is refused.", "quantifier": "all shapes, target shapes and index strings", "why_tests_cant": "Unboundedly many shapes and strings.", "anchors": ["csdl/std/expand.py:expand", "csdl/utils/decompose_shape_tuple.py:decompose_shape_tuple"]}
{"id": "C58", "title": "einsum rejects inconsistent operands", "statement": "einsum raises an exception when the same label stands for axes of different sizes, when an output label occurs in no operand, when the number of operands does not match the string, or when the number of labels does not match the number of axes.", "quantifier": "all operand shapes and subscript strings", "why_tests_cant": "Unboundedly many shapes and strings.", "anchors": ["csdl/std/einsum.py:einsum"]}
{"id": "C59", "title": "Linear algebra functions accept only conformable arguments", "statement": "eigenvalues, solve, sparsematmat, quatrotvec and rotmat accept exactly arguments of conformable shapes and give outputs of the mathematical shape.", "quantifier": "all argument shapes", "why_tests_cant": "Unboundedly many shapes.", "anchors": ["csdl/std/eigenvalues.py:eigenvalues", "csdl/std/solve_linear.py:solve", "csdl/std/sparsematmat.py:sparsematmat", "csdl/std/quatrotvec.py:quatrotvec", "csdl/std/rotmat.py:rotmat"]}
{"id": "C60", "title": "Dead code removal removes exactly the dead code", "statement": "remove_dead_code removes from the flat graph exactly the nodes from which no registered output can be reached, and keeps all other nodes and dependencies.", "quantifier": "every flat graph and set of registered outputs", "why_tests_cant": "All graphs.", "anchors": ["csdl/opt/remove_dead_code.py:remove_dead_code", "csdl/opt/remove_dead_code.py:_remove_dead_code_nodes_from_graph", "csdl/rep/sort_nodes_nx.py:sort_nodes_nx"]}
{"id": "C61", "title": "Executing the representation solves the model", "statement": "Whenever a graph representation is built without error and no connection starts at the target of an earlier one, executing its sorted nodes in order produces a value for every variable of every model in the hierarchy such that every operation of every submodel is satisfied, variables with the same promoted name have the same value, and connected variables have the same value; and these are the only values with that property once the variables that no operation computes have been given values.", "quantifier": "all model hierarchies of any depth with any promotions and connections, all operation graphs inside them, all functions the operations compute, and all values of the variables that no operation computes", "why_tests_cant": "A test runs one model with one backend; the claim ranges over every hierarchy, every set of promotions and connections, every interpretation of the operations and every input value, and includes uniqueness of the solution.", "anchors": ["csdl/rep/graph_representation.py:GraphRepresentation.__init__", "csdl/rep/construct_unflat_graph.py:construct_unflat_graph", "csdl/rep/construct_flat_graph.py:construct_flat_graph", "csdl/rep/sort_nodes_nx.py:sort_nodes_nx", "csdl/rep/resolve_promotions.py:resolve_promotions"]}
{"id": "C62", "title": "The B-spline matrix is the matrix of the B-spline basis", "statement": "get_bspline_mtx(num_cp, num_pt, order) never fails for positive num_cp and order; its entries are exactly the B-spline basis functions of order min(order, num_cp) on the clamped uniform knot vector at num_pt equally spaced points. Hence all entries are nonnegative, every row sums to one, and with two or more points the curve starts at the first and ends at the last control point.", "quantifier": "all positive numbers of control points and orders, all numbers of points, exact arithmetic in any linearly ordered field", "why_tests_cant": "The knot vector, the interval search and the in-place triangular recursion have boundary cases for every combination of the three sizes; a test fixes a few of them.", "anchors": ["csdl/utils/get_bspline_mtx.py:get_bspline_mtx"]}
{"id": "C63", "title": "influences reports exactly the dependencies of the outputs on the inputs", "statement": "influences() returns two dictionaries: the first maps the name of every registered output to exactly the names of the inputs that influence it, the second maps the name of every input to exactly the names of the registered outputs it influences; in particular changing an input that is not listed for an output does not change that output.", "quantifier": "every flat graph without cycles, every input and registered output, all values", "why_tests_cant": "All graphs and all values; the absence of an influence is a statement about all executions.", "anchors": ["csdl/rep/graph_representation.py:GraphRepresentation.influences", "csdl/rep/get_registered_outputs_from_graph.py:get_registered_outputs_from_graph"]}
{"id": "C64", "title": "The graph with operations as edges has the same dependencies", "statement": "create_graph_with_operations_as_edges returns a graph whose nodes are the variables and which has an edge from one variable to another exactly when some operation has the first as an argument and the second as an output; hence a variable influences another in it exactly when it does in the flat graph.", "quantifier": "every flat graph of variables and operations", "why_tests_cant": "All graphs, of any size.", "anchors": ["csdl/rep/create_graph_with_operations_as_edges.py:create_graph_with_operations_as_edges"]}
{"id": "C65", "title": "Counts of variables, operations, uses and outputs are consistent", "statement": "For a model without implicit operations: nin_vars and nout_vars add up to the number of variables (arrays, or scalars with vectorized=False); the entries of outputs_per_operation add up to nout_vars; together with the entries of num_uses_of_variables they add up to the number of edges of the flat graph; serial_cost is the number of operations.", "quantifier": "every flat graph without implicit operations in which every variable is computed by at most one operation", "why_tests_cant": "All graphs.", "anchors": ["csdl/rep/graph_representation.py:GraphRepresentation.nin_vars", "csdl/rep/graph_representation.py:GraphRepresentation.nout_vars", "csdl/rep/graph_representation.py:GraphRepresentation.outputs_per_operation", "csdl/rep/graph_representation.py:GraphRepresentation.num_uses_of_variables", "csdl/rep/graph_representation.py:GraphRepresentation.serial_cost"]}
{"id": "C66", "title": "The predicted parallel computation time is that of the critical path", "statement": "predict_computation_time(parallel=True) returns the number of operations on a path of the graph that has the most operations.", "quantifier": "every flat graph without cycles", "why_tests_cant": "Optimality over all paths of all graphs.", "anchors": ["csdl/rep/graph_representation.py:GraphRepresentation.predict_computation_time"]}
{"id": "C67", "title": "Bracketed search: exactly one bracket per state, and bracket variables are dependencies", "statement": "When an implicit operation with brackets is called, the call is accepted exactly if the same states, residuals, arguments and exposed names would be accepted without brackets and every state was given a bracket of two ends of equal shape. The brackets stored on the operation are then, for each state, the two ends given for it, and nothing else; the operation depends on exactly the arguments and the bracket ends that are variables; the outputs are those returned without brackets. The ends of a bracket have the shape of the state they bracket.", "quantifier": "every residual model, every sequence of declare_state calls with brackets of numbers, arrays and variables, every list of arguments and exposed names", "why_tests_cant": "The checks loop over an arbitrary number of states and brackets of arbitrary shapes in any order; tests use one or two scalar states.", "anchors": ["csdl/lang/model.py:_bracketed_search", "csdl/lang/bracketed_search_operation.py:BracketedSearchOperation", "csdl/lang/implicit_operation_factory.py:declare_state"]}
{"id": "C68", "title": "Default values given for states are honoured", "statement": "Every default value given for a state when an implicit operation is called is either recorded on the operation as the default of that state, or the call is rejected with a ValueError; a default for a name that is not a state is rejected.", "quantifier": "every residual model, every set of states, every dictionary of default values (numbers, arrays of any shape, other objects), with and without brackets", "why_tests_cant": "Every combination of kind and shape of default with every residual model has to be considered; no example uses defaults.", "anchors": ["csdl/lang/model.py:_implicit_operation", "csdl/lang/implicit_operation_factory.py:apply"]}
{"id": "C69", "title": "Newton and Broyden need a linear solver", "statement": "Calling an implicit operation without brackets never creates an operation whose nonlinear solver is Newton or Broyden and that has no linear solver; for every other combination of solvers the outcome of the call does not depend on the solvers.", "quantifier": "every residual model, factory, arguments, exposed names and combination of solvers", "why_tests_cant": "The claim is about all models and calls, and that solvers influence nothing else.", "anchors": ["csdl/lang/implicit_operation.py:ImplicitOperation", "csdl/lang/implicit_operation_factory.py:apply"]}
{"id": "C70", "title": "From model objects to values", "statement": "Let a hierarchy of well-formed model objects (variables, operations and submodels, as the API creates them) be turned into a representation without error, and let no connection start at the target of an earlier one. Then every variable in use in any model is represented by a variable node of the representation, and executing the representation's nodes in its order, for any meaning of the operations and any initial values, gives values for the variables of all models that satisfy every operation of every model, give equal values to variables with the same promoted name, and equal values to the two ends of every connection. These are the only such values with the given initial values of the variables that no operation computes.", "quantifier": "all hierarchies of model objects of any size and depth, all promotions and connections, all value types, meanings of operations and initial values, all set iteration orders", "why_tests_cant": "the claim ranges over all models, all meanings of operations and all values; a test runs one model with one back end", "anchors": ["csdl/rep/graph_representation.py:GraphRepresentation.__init__", "csdl/rep/construct_unflat_graph.py:construct_graphs_all_models", "csdl/rep/construct_flat_graph.py:construct_flat_graph", "csdl/rep/resolve_promotions.py:resolve_promotions", "csdl/rep/merge_connections.py:merge_connections", "csdl/rep/sort_nodes_nx.py:sort_nodes_nx"]}
{"id": "C71", "title": "Circular dependencies are reported, and nothing else is", "statement": "Building the representation of a hierarchy of models fails while ordering the nodes only if some variable is computed from itself, through operations of any of the models, variables that share a promoted name, and connections; and when the representation is built, no variable is computed from itself.", "quantifier": "every well-formed hierarchy of model objects in which no connection starts at the target of an earlier one, every order in which sets are iterated", "why_tests_cant": "A cycle may pass through arbitrarily many models, promotions and connections; its absence is a statement about all paths of an unbounded graph.", "anchors": ["csdl/rep/graph_representation.py:GraphRepresentation.__init__", "csdl/rep/sort_nodes_nx.py:sort_nodes_nx", "csdl/rep/construct_flat_graph.py:construct_flat_graph", "csdl/rep/merge_connections.py:merge_connections"]}
{"id": "C72", "title": "Valid models are accepted", "statement": "A hierarchy of model objects that is valid - well-formed objects, one operation per variable, no two sources of different models with one name, equal sizes where names are shared, promoted names that exist, connections between variables in use that end at variables no operation and no other connection sets and do not start at an earlier target, resolvable and non-redundant design variables and constraints, at most one objective, no circular dependency - is turned into a representation without any error.", "quantifier": "every valid hierarchy of model objects of any size and depth, every order in which sets are iterated", "why_tests_cant": "Tests accept finitely many models; that no valid model of any size trips one of the dozens of internal checks and dictionary lookups is a statement about all of them.", "anchors": ["csdl/rep/graph_representation.py:GraphRepresentation.__init__", "csdl/rep/resolve_promotions.py:resolve_promotions", "csdl/rep/merge_connections.py:merge_connections", "csdl/rep/construct_unflat_graph.py:construct_graphs_all_models", "csdl/rep/construct_flat_graph.py:construct_flat_graph"]}
{"id": "C73", "title": "Programs mean what they say", "statement": "Take any csdl program: a hierarchy of define methods that create inputs and variables, apply operators and standard functions, take parts (x[0:2]) of variables, register outputs, create outputs and assign variables to parts of them (y[0:2] = x), connect variables and add submodels, with sensible names and no connection that starts where an earlier one ends. If it runs and its representation is built without error, then executing the operations in the order of the representation computes exactly the values that satisfy every statement of the program read as an equation, with variables that share a promoted name or are connected being equal; each variable of the program that matters is one node of the graph, shared by two variables exactly if names, connections, unary pluses or equal parts make them the same; variables nothing computes keep the given values; and no other values satisfy the program. Parts are those of NumPy basic indexing, also the parts assigned (keys with one element per axis that are not negative ints); elements of an output that no assignment selects keep the value given to create_output.", "quantifier": "every program (define methods of any length, any hierarchy, operands, constants, functions and their meanings), every initial value, every order in which sets are iterated", "why_tests_cant": "Tests compare results of finitely many programs; that the whole path from source text through objects, graphs, flattening, connecting and sorting preserves the meaning is a statement about all programs.", "anchors": ["csdl/lang/variable.py:Variable", "csdl/operations/decompose.py:decompose", "csdl/lang/model.py:Model", "csdl/lang/standard_operation.py:StandardOperation", "csdl/lang/define_models_recursively.py:define_models_recursively", "csdl/rep/graph_representation.py:GraphRepresentation.__init__", "csdl/lang/concatenation.py:Concatenation"]}
{"id": "C74", "title": "Valid programs are accepted and compute their meaning", "statement": "The define methods of a program run without error exactly if every statement is fine after the ones before it (operands exist and have equal shapes, keys of parts select elements, no division by the number zero, names of allowed characters, outputs that are results of operations registered once under a new name, parts assigned that are within the output, disjoint, of the shape of what is assigned, which has not been assigned under the same name before, every created output with at least one part, no name connected to itself), submodels of a model have different names, and no model is empty. (If parts are assigned: no name in the program looks like an automatic one and it is not astronomically large.) If moreover names, promotions and connections are valid and nothing is computed from itself, the representation is built without any error, and executing it gives the one solution of the program.", "quantifier": "every program (define methods of any length, any hierarchy, operands, constants, functions and their meanings), all given values, every order in which sets are iterated", "why_tests_cant": "Accepting exactly the right programs is a statement about all of them; each test runs one.", "anchors": ["csdl/lang/model.py:Model", "csdl/lang/variable.py:Variable", "csdl/lang/define_models_recursively.py:define_models_recursively", "csdl/operations/linear_combination.py:linear_combination", "csdl/rep/graph_representation.py:GraphRepresentation.__init__", "csdl/lang/concatenation.py:Concatenation.__setitem__"]}
{"id": "C75", "title": "Solver options are exactly those documented for the class, checked and kept", "statement": "A solver of any class is constructed with keyword arguments exactly when each names an option of that class and its value is acceptable for it (an int, a bool, one of the listed names, a number in [0,1], a number not below 0, or anything); reading an option gives the last accepted value given in the constructor or assigned later, else the default of the class; names that are not options of the class raise KeyError on reading and on setting, in particular iteration limits and tolerances on solvers that do not iterate; a rejected assignment changes nothing.", "quantifier": "every solver class, every list of keyword arguments, every later sequence of assignments, every option name and value", "why_tests_cant": "tests set a few options of a few classes; the claim ranges over all classes, all option names, all values and all histories of assignments", "anchors": ["csdl/solvers/solver.py:Solver.__init__", "csdl/solvers/linear/direct.py:DirectSolver._declare_options", "csdl/solvers/nonlinear/newton.py:NewtonSolver._declare_options", "csdl/solvers/linesearch/backtracking.py:ArmijoGoldsteinLS._declare_options", "csdl/utils/parameters.py:Parameters.update"]}
{"id": "C76", "title": "Inverse hyperbolic functions invert the hyperbolic functions", "statement": "The result of arsinh, arcosh, artanh, arcoth, arsech or arcsch applied to a variable x is a variable of the same shape whose elements, on the domain of the function, are the numbers whose hyperbolic sine, cosine (not below 0), tangent, cotangent, secant or cosecant is the element of x.", "quantifier": "every program that calls one of the six functions anywhere in its hierarchy of models, every solution of the program, every element in the domain", "why_tests_cant": "the functions are built from operators and log; tests check a few points of their real domains", "anchors": ["csdl/std/arsinh.py:arsinh", "csdl/std/arcosh.py:arcosh", "csdl/std/artanh.py:artanh", "csdl/std/arcoth.py:arcoth", "csdl/std/arsech.py:arsech", "csdl/std/arcsch.py:arcsch"]}
{"id": "C77", "title": "The text of an elementwise operation computes the function", "statement": "For each of the elementwise operations sin, cos, tan, sec, cosec, cotan, sinh, cosh, tanh, sech, cosech, cotanh, arcsin, arccos, arctan, arcsinh, arccosh, arctanh, exp, log, log10, the generated text, read as Python with NumPy's functions, assigns to the result the value of that function of the argument.", "quantifier": "every operation, all names of argument and result, all real values of the argument", "why_tests_cant": "the claim is an equation of real functions for all arguments and names", "anchors": ["csdl/operations/sin.py:sin.define_compute_strings", "csdl/operations/cosec.py:cosec.define_compute_strings", "csdl/operations/cotanh.py:cotanh.define_compute_strings", "csdl/operations/log10.py:log10.define_compute_strings"]}
{"id": "C78", "title": "exp_a and bessel accept what they document, keep the shape, and the text of exp_a is the power", "statement": "exp_a(a, x) is accepted exactly if x is a variable and a is a number, or an array or variable that is scalar or has the shape of x; bessel(x, kind, order) exactly if x is a variable, kind is 1 or 2 and order is a number or an array of the shape of x; the result has the shape of x; and the generated text of exp_a assigns a to the power x.", "quantifier": "all arguments, shapes, kinds, orders and bases", "why_tests_cant": "tests use a few shapes and positive bases", "anchors": ["csdl/std/exp_a.py:exp_a", "csdl/operations/exp_a.py:exp_a.define_compute_strings", "csdl/std/bessel.py:bessel"]}
{"id": "C79", "title": "body_313 builds the 3-1-3 rotation matrix", "statement": "After body_313(R, p, q, r), for an output R with at least three rows and columns, the first three rows and columns of R are, whatever the angles, the matrix C3(p)·C1(q)·C3(r) of the coordinate transformation to a frame rotated about axis 3 by r, then about its axis 1 by q, then about its axis 3 by p: an orthogonal matrix with determinant 1. Scalar angles, and only those, are accepted.", "quantifier": "all programs with such a call, at any place in any model of the hierarchy, and all values of the angles (real numbers)", "why_tests_cant": "tests evaluate the matrix at a few angles (there are none in the repository); orthogonality and the identity with the product of three rotations are about all real angles", "anchors": ["csdl/std/rotations/body/body_313.py:body_313", "csdl/lang/concatenation.py:Concatenation.__setitem__"]}
{"id": "C80", "title": "Programs with custom and implicit operations", "statement": "The define methods of a hierarchy that also calls custom operations (registering their results) and implicit operations run without error exactly if each method is fine: arguments of a custom operation are its declared inputs by name and shape, there is one registered name per declared output, and an implicit operation is accepted with its arguments and has a result. Results of these operations are registered under the given (custom) or declared (implicit) names and have, in the executed representation, the values the operation computes from the values of its arguments; executing the nodes of the representation in its order gives the only solution of the program. Valid programs are accepted.", "quantifier": "all hierarchies of define methods with custom operations, implicit operations and optimisation declarations besides the statements of C73, all meanings of the operations and functions, all input values", "why_tests_cant": "tests run a handful of fixed models; the claim is about every program, every meaning of the user-supplied operations and all input values", "anchors": ["csdl/std/custom.py:custom", "csdl/lang/model.py:Model._implicit_operation", "csdl/lang/model.py:Model.create_implicit_operation", "csdl/rep/graph_representation.py:GraphRepresentation"]}
{"id": "C81", "title": "Optimisation declarations of programs", "statement": "The design variables of the representation are exactly those the define methods of the hierarchy declare, each under the promoted name in the main model of what the declared name denotes where it is declared, with the data given, no name twice; the same holds for the constraints, and the objective is the only one declared.", "quantifier": "all hierarchies of define methods that run and whose representation is built, with any number of declarations anywhere", "why_tests_cant": "tests declare a few design variables and constraints in fixed models; the claim is about all hierarchies, promotions and declarations", "anchors": ["csdl/lang/model.py:Model.add_design_variable", "csdl/lang/model.py:Model.add_constraint", "csdl/lang/model.py:Model.add_objective", "csdl/rep/graph_representation.py:GraphRepresentation"]}
{"id": "C82", "title": "Programs in one session do not influence each other", "statement": "Several programs (hierarchies of models) can be defined, and their representations built, in the same Python process: each runs without error exactly if it does in a process of its own, leaves the objects of the others as they are, and its representation, even if it is built after other programs have run, has the same design variables, constraints and objective and computes the same values as in a process of its own (as long as no more objects are created in the process than there are short automatic names).", "quantifier": "all sequences of programs, all programs in them, all meanings of functions, all initial values", "why_tests_cant": "Objects are counted, and automatically named, by a counter of the whole process; names and identities of the objects of a program are therefore different each time it is run, and any history of other programs may precede or follow it.", "anchors": ["csdl/lang/node.py:Node", "csdl/utils/gen_hex_name.py:gen_hex_name", "csdl/lang/define_models_recursively.py:define_models_recursively", "csdl/rep/graph_representation.py:GraphRepresentation"]}
{"id": "C83", "title": "Standard library calls in programs", "statement": "A program that calls functions of the standard library runs without error exactly if every call accepts the shapes of its arguments, which can be read off the text of the program, and the program written with plain operations of these shapes runs; the results have the shapes the functions compute and, in every solution, are the values of the functions at the values of the arguments. In particular solve(A, b) returns x of the shape of b with A x = b, exp_a(a, x) computes powers element by element, also for a base of shape (1,), and arsinh etc. are inverse to the hyperbolic functions.", "quantifier": "all hierarchies of define methods with calls of all functions of the standard library, all shapes, all meanings of the functions, all initial values", "why_tests_cant": "tests call each function on a few fixed shapes; the claim is about all programs, in which results of calls are arguments of others in any combination and any hierarchy", "anchors": ["csdl/std/matvec.py:matvec", "csdl/std/solve_linear.py:solve", "csdl/std/exp_a.py:exp_a", "csdl/std/reshape.py:reshape", "csdl/std/pnorm.py:pnorm", "csdl/std/einsum.py:einsum", "csdl/std/arsinh.py:arsinh"]}
{"id": "C84", "title": "Programs of one model that run are built", "statement": "If the define method of a model without submodels and connections runs without error, if its names are different (as far as they must be), outputs assembled from parts are used only after all assignments to them, and the names of constraints and objective are those of variables, then its representation is built without error (in particular there is no cycle), and executing it computes the only solution of the equations written in the method.", "quantifier": "all define methods of one model, with all kinds of statements, all meanings of the functions, all initial values", "why_tests_cant": "that no sequence of statements whatsoever leads to a cycle or to another error in the middle end cannot be seen from any number of programs", "anchors": ["csdl/lang/model.py:Model", "csdl/lang/variable.py:Variable.__getitem__", "csdl/lang/concatenation.py:Concatenation.__setitem__", "csdl/rep/sort_nodes_nx.py:sort_nodes_nx", "csdl/rep/graph_representation.py:GraphRepresentation"]}
{"id": "C85", "title": "Submodels in with blocks mean the same as submodels in methods of their own", "statement": "A submodel given in a block `with self.create_submodel(name, promotes) as m:` (whose objects are created where the block is, between the parent's) and the same submodel given by a class with a `define` method and `self.add(M(), name, promotes)` (whose objects are created after all of the parent's) mean the same: the program runs without error in one form exactly if it does in the other; a valid program stays valid and its representation is built; the same variables are identified; from the same given values, every variable gets the same value; design variables, constraints and objective are the same. Any number of submodels at any depth may be changed from one form to the other at once, also in programs with custom and implicit operations and library calls.", "quantifier": "all programs, all choices of which submodels are in blocks, all objects existing before, all iteration orders of sets, all meanings of operations, all given values", "why_tests_cant": "The numbers and automatic names of all objects differ between the two forms, and with them every order in the compilation; the claim is over all programs and all combinations of the two forms.", "anchors": ["csdl/lang/model.py:Model.create_submodel", "csdl/lang/model.py:InlineModel", "csdl/lang/model.py:Model.__exit__", "csdl/lang/define_models_recursively.py"]}
{"id": "C86", "title": "Variables that nothing computes have the values the program gives them", "statement": "When a representation built from a program is executed from the values given in the program, every variable that no statement computes has the value given for it: that of the `create_input` that is the same variable (through promoted names, connections or unary plus) and is not the target of a connection; if no input is the same variable, that of a `declare_variable` that is: the last declaration of the name in its model, in a model of least depth (the main model and its direct submodels count as equally deep), and one with an explicit value if one of these declarations has one; 1 if none is given there. All other variables have the values that follow from these.", "quantifier": "all programs (hierarchies of define methods with submodels, promotions, connections, inputs, declared variables with and without values), all iteration orders of the node sets, all meanings of the standard functions", "why_tests_cant": "which of several values given for one shared variable is used depends on the merging of the whole hierarchy: on depth, order, promotions and connections, of which there are infinitely many combinations", "anchors": ["csdl/lang/model.py:create_input", "csdl/lang/model.py:declare_variable", "csdl/rep/construct_flat_graph.py:merge_automatically_connected_nodes", "csdl/rep/merge_connections.py:merge_connections", "csdl/rep/graph_representation.py:GraphRepresentation"]}
{"id": "C87", "title": "Values can be read by name from an executed representation", "statement": "When a representation is built from a program without error (and no connection starts at the target of an earlier connection), looking up a promoted name in `promoted_to_node`, or the full (unpromoted) name of any variable with that promoted name in `unpromoted_to_node`, and then following `connected_tgt_nodes_to_source_nodes` as long as it has an entry, gives the node that represents the variable with that name: its value after execution is the value of the variable in the solution of the program. The maps contain the names of variables of the program and no others, and a name never finds two different variables. One step along `connected_tgt_nodes_to_source_nodes` is not always enough.", "quantifier": "all programs (hierarchies of define methods with submodels, promotions, connections, custom and implicit operations), all iteration orders of the node sets, all promoted and full names, all values", "why_tests_cant": "the maps are built before connections are merged and still point to nodes that were removed; that they lead to the right node depends on the whole hierarchy, its promotions and its connections in their order", "anchors": ["csdl/rep/merge_connections.py:merge_connections", "csdl/rep/merge_connections.py:find_unique_node", "csdl/rep/graph_representation.py:GraphRepresentation", "csdl/rep/construct_flat_graph.py:construct_flat_graph"]}
{"id": "C88", "title": "The results of an implicit operation satisfy the residual equations written in its model", "statement": "Let a program call an implicit operation whose residuals are defined by another program (with submodels, promotions, connections, and further custom and implicit operations). When the call and the construction of the residual model's representation succeed: the residual model has no inputs; each argument is declared in it with the same shape; each state is declared and actually used, and paired with a registered residual of the same shape; exposed names are registered outputs; and the returned variables are the states followed by the exposed outputs (in registration order), registered under these names. Provided the arguments and states are not computed inside the residual model, a back end that writes the argument and state values by name, executes the representation and reads residuals by name has accepted residuals exactly if the returned values, together with the values the arguments have in the calling program, extend to a solution of all statements of the residual model read as equations, with those residuals accepted. (csdl does not check the proviso: a state that is a promoted output of a submodel is accepted.)", "quantifier": "all calling programs and all residual programs, all sessions, argument values, meanings of functions, acceptance criteria for residuals and topological orders", "why_tests_cant": "needs agreement between the name maps, the flattened graph and the statements for every residual program and every nesting; tests solve a few fixed equations", "anchors": ["csdl/lang/model.py:_implicit_operation", "csdl/lang/model.py:_generate_maps_for_implicit_operation", "csdl/lang/model.py:_return_implicit_outputs", "csdl/utils/collect_terminals.py", "csdl/rep/graph_representation.py:GraphRepresentation"]}
{"id": "C89", "title": "A model object used as several submodels behaves like as many separate models", "statement": "One Model object may be added under several names, anywhere in a hierarchy (and its variables with it). GraphRepresentation gives every use variables and operations of its own: two variables of two uses are one node exactly if promoted names or connections make them one variable, executing the representation makes the operations of every use hold for the values of that use, these values are the only ones possible, a hierarchy whose uses depend on each other in no circle and that is otherwise valid is accepted, and only real circles between uses are reported.", "quantifier": "all hierarchies of model objects, with any sharing of model objects between submodels at any depth, any numbers and any meaning of operations, all initial values and iteration orders of sets", "why_tests_cant": "number, depth and placement of the uses, and how promotions and connections tie them together, are unbounded; a node mistakenly shared by two uses shows only for particular wirings", "anchors": ["csdl/rep/construct_unflat_graph.py: construct_graphs_all_models, construct_unflat_graph", "csdl/rep/graph_representation.py: GraphRepresentation.__init__", "csdl/rep/construct_flat_graph.py: construct_flat_graph, merge_automatically_connected_nodes", "csdl/lang/model.py: add"]}
{"id": "C90", "title": "Variables of other models used as arguments are reported", "statement": "If an operation of a model has as argument or result a variable object whose name means nothing in that model (no variable of the hierarchy has it, with the namespace of the model, as promoted name or as full name) then building the representation raises an error, whichever model the object was created in and however often models are used. (Not guaranteed by the code: if the model happens to have a variable of its own with the same name, the build succeeds and the operation silently reads that variable instead of the object it was given.)", "quantifier": "all hierarchies of models with any sharing of variable and model objects, all models in them, all variables linked to operations of these models, all iteration orders of sets", "why_tests_cant": "The mistake (using the variable of an enclosing model inside a submodel, or the variable of a submodel in the enclosing model) can occur at any depth, under any promotion, and is detected in different phases; tests sample a few hierarchies.", "anchors": ["csdl/rep/construct_flat_graph.py:107-241 merge_graphs", "csdl/rep/merge_connections.py:66-131 merge_connections", "csdl/rep/construct_unflat_graph.py:198-315", "csdl/rep/graph_representation.py:227-393"]}
{"id": "C91", "title": "The places of submodels and connections in a method do not influence results", "statement": "If submodels and connections of any models are moved to other places of the `define` methods (or a submodel is written with create_submodel instead of add) a program that was accepted is still accepted, and with the same values for the variables that must be given all variables get the same values; with the values given in the program too, if it gives only one value for each variable. (Not guaranteed by the code if the source of a connection is the target of another one: then the order of the two connections silently decides which variable is read; nor if two submodels give different values for the same variable.)", "quantifier": "all programs (hierarchies of define methods of any depth), all ways to move submodels and connections, all meanings of the functions, all values, all iteration orders of sets", "why_tests_cant": "Moving a submodel changes the numbering of all objects created later, the order in which graphs are merged, nodes are contracted and connections are collected; a test compares two orders of one program.", "anchors": ["csdl/lang/model.py:1127-1216 add", "csdl/lang/model.py:1218-1251 create_submodel", "csdl/lang/model.py connect", "csdl/lang/define_models_recursively.py:10-52", "csdl/rep/construct_flat_graph.py merge_graphs", "csdl/rep/merge_connections.py:66-131 merge_connections"]}
{"id": "C92", "title": "analytics=True changes nothing and hierarchy.txt describes the hierarchy", "statement": "GraphRepresentation(model, analytics=True) returns the same representation as without analytics, and accepts the same models. hierarchy.txt has one section for each model, indented by its depth and below the section of the model it is in; the rows of a section are the variables of that model that are in use and named by the user, each name once, with class, shape, promoted name and full name. (Not guaranteed by the code: if connections form a cycle, the model is accepted without analytics but raises RecursionError with it.)", "quantifier": "all hierarchies of models of any depth, with any variables, operations, promotions and connections, all iteration orders of sets", "why_tests_cant": "every path, promotion and merge in an unbounded hierarchy contributes rows; the file is written while the graphs are being merged, so a wrong order shows only for particular hierarchies", "anchors": ["csdl/rep/construct_flat_graph.py:107-241 merge_graphs", "csdl/rep/construct_flat_graph.py:244-375 merge_automatically_connected_nodes", "csdl/rep/construct_flat_graph.py:474-661 construct_flat_graph, write_hierarchy_info_to_file", "csdl/rep/construct_flat_graph.py:680-723 write_connection_and_promotions_to_file", "csdl/rep/merge_connections.py:213-218"]}
{"id": "C93", "title": "The promotion level in hierarchy.txt is the level the variable is promoted to", "statement": "The row of a variable of a model at depth d whose promoted name is in a model at depth q shows q points and then the numbers from d-q down to 0, as the guide written in the file explains. (Not guaranteed by the code for q = 0: a variable promoted to the main model is shown like one promoted to the submodel of the main model only.)", "quantifier": "all variables of all hierarchies of models of any depth with any promotions", "why_tests_cant": "depth of models and number of promotions are unbounded; the text is computed by a loop over the path compared with a split name", "anchors": ["csdl/rep/construct_flat_graph.py:107-241 merge_graphs", "csdl/rep/construct_flat_graph.py:244-375 merge_automatically_connected_nodes", "csdl/rep/construct_flat_graph.py:474-661 construct_flat_graph, write_hierarchy_info_to_file", "csdl/rep/construct_flat_graph.py:680-723 write_connection_and_promotions_to_file", "csdl/rep/merge_connections.py:213-218"]}
{"id": "C94", "title": "promotions_connections.txt shows which variables are the same variable", "statement": "Two variables in hierarchy.txt are in one block of promotions_connections.txt exactly if promoted names and connections make them one variable; no variable is written twice; the first variable of a block is the one kept in the representation; every other row is indented below a row it is promoted to (same promoted name) or connected to (a connection from it has been issued), as its row says; the warning is there exactly if no variable of the block is an input or an output. (Only if the source of a connection is not the target of an earlier one.)", "quantifier": "all hierarchies of models of any depth, with any variables, operations, promotions and connections without chains, all iteration orders of sets", "why_tests_cant": "blocks are trees of unbounded depth built from attributes that are moved between nodes while graphs are contracted in the order of sets", "anchors": ["csdl/rep/construct_flat_graph.py:107-241 merge_graphs", "csdl/rep/construct_flat_graph.py:244-375 merge_automatically_connected_nodes", "csdl/rep/construct_flat_graph.py:474-661 construct_flat_graph, write_hierarchy_info_to_file", "csdl/rep/construct_flat_graph.py:680-723 write_connection_and_promotions_to_file", "csdl/rep/merge_connections.py:213-218"]}
{"id": "C95", "title": "Chains of connections: what is read of a variable", "statement": "Without any condition on connections (chains, cycles, several connections to one target): every variable has a value of its own (variables with the same promoted name share it) and a value that the operations using it get. The latter is the value of the variable reached by walking once through all connections in the order in which they are collected (those of submodels first), going from target to source whenever the current variable is the target. Executing the representation makes every operation true in this sense, variables that nothing computes keep their initial values, and there is no other such solution. If no connection starts at the target of an earlier one, both values agree with the simple meaning: the ends of connections are equal.", "quantifier": "all hierarchies of models and programs of any depth with any connections that are accepted, all iteration orders of sets, all meanings of operations, all initial values", "why_tests_cant": "the meaning of a chain depends on the order of an unbounded list of connections across models; the uniqueness of the solution speaks about all values", "anchors": ["csdl/rep/merge_connections.py:merge_connections", "csdl/rep/construct_flat_graph.py:construct_flat_graph", "csdl/rep/collect_connections.py:collect_connections", "csdl/lang/model.py:Model.connect"]}
{"id": "C96", "title": "Printing a variable (adding an output) changes nothing", "statement": "If a valid program is changed by adding, at the end of the define method of one of its models, an output computed by a function from variables that matter and registered under a new name - as self.print_var(x) does - then the changed program is valid: it runs and its representation is built without error. Executing it with the same values for the variables that must be given yields the same values for all variables that matter as before, whatever the functions mean; the value of the new output is the value of the function at the values of its arguments, so the printed output has the value of the variable in the program without print_var.", "quantifier": "all valid programs of any depth and size, all models in them, all variables that matter, all new names, all meanings of functions, all given values, all iteration orders of sets", "why_tests_cant": "an unbounded family of programs and pairs of executions, for all values; the new output changes the promotion maps, the object numbers, the automatic names and the topological order of the whole program", "anchors": ["csdl/lang/model.py:Model.print_var", "csdl/operations/print_var.py:print_var", "csdl/lang/model.py:Model.register_output", "csdl/rep/resolve_promotions.py:resolve_promotions"]}
{"id": "C97", "title": "Promotion or connection: only which variables are joined matters", "statement": "If two valid programs have the same statements, other than connections, in the same models, and in both the same variables are joined (directly or indirectly, by promotion to the same name, by connections or as aliases), then executing their representations with the same values for the variables that must be given yields the same values for all variables that matter, whatever the functions mean - no matter how the variables are joined and in which order submodels are added and connections are issued. In particular, a variable of a submodel may be promoted, or not be promoted and be connected to (or from) the variable that has its name in the main model: if both programs are valid, they compute the same values.", "quantifier": "all pairs of valid programs of any depth and size, all submodels and names, all meanings of functions, all given values, all iteration orders of sets", "why_tests_cant": "relates two executions of two representations with different nodes, names and orders, for an unbounded family of programs and all values", "anchors": ["csdl/lang/model.py:Model.connect", "csdl/lang/model.py:Model.add", "csdl/rep/resolve_promotions.py:resolve_promotions", "csdl/rep/merge_connections.py:merge_connections", "csdl/rep/construct_flat_graph.py:construct_flat_graph"]}
{"id": "C98", "title": "A model computes the same on its own and as part of a program", "statement": "Take a model anywhere in a valid program, and suppose it is also valid as a program of its own. If the representation of the model alone is executed with the values that its given variables (those nothing in it computes) have in the execution of the whole program, then every variable of the model and of its submodels that matters gets exactly the value it has in the execution of the whole program, whatever the functions mean.", "quantifier": "all valid programs of any depth and size, all models in them that are valid alone, all meanings of functions, all given values, all iteration orders of sets", "why_tests_cant": "relates the executions of two representations with different nodes, names and orders, for an unbounded family of programs, positions in the hierarchy and values", "anchors": ["csdl/lang/model.py:Model.add", "csdl/rep/graph_representation.py:GraphRepresentation", "csdl/rep/resolve_promotions.py:resolve_promotions", "csdl/rep/merge_connections.py:merge_connections"]}
{"id": "C99", "title": "Rewriting one model's method so that it computes the same changes nothing else", "statement": "Give one model of a valid program another define method with the same inputs, outputs, declared variables, connections and submodels. If the new method's statements are fine on their own and variables with names are computed from no further variables with names, the program is still valid. If the new method computes the same (values satisfying its statements come with values satisfying the old statements that agree on the variables with names), and the values that must be given are given alike, then every variable outside the model and every named variable of the model has the same value in the executions of both representations. A rewrite that computes the same but adds a dependency can make a program circular.", "quantifier": "all valid programs of any depth and size, all models in them, all new methods with the same interface, all meanings of functions, all given values, all iteration orders of sets", "why_tests_cant": "relates the executions of two representations built from different methods, for an unbounded family of programs, positions in the hierarchy, rewrites and values", "anchors": ["csdl/lang/model.py:Model.define", "csdl/lang/model.py:Model.add", "csdl/rep/graph_representation.py:GraphRepresentation"]}
{"id": "C100", "title": "A value depends only on the given values and functions it is computed from", "statement": "Execute the representation of a valid program twice, with different given values and different meanings of the functions (standard, custom or implicit operations). Every variable that matters has the same value in both executions if all given variables it depends on - itself, those that are the same by name, promotion, connection or unary plus, and those it is computed from, in any number of steps - have equal values and all functions it is computed with have equal meanings. What happens elsewhere in the program cannot influence it.", "quantifier": "all valid programs of any depth and size, all variables that matter, all pairs of given values, all pairs of meanings of functions, all iteration orders of sets", "why_tests_cant": "non-interference relates two executions for an unbounded family of programs, values and functions", "anchors": ["csdl/lang/model.py:Model", "csdl/rep/graph_representation.py:GraphRepresentation", "csdl/rep/sort_nodes_nx.py:sort_nodes_nx"]}
{"id": "C101", "title": "Consistent renaming of variables and submodels changes no value", "statement": "Give the variables and submodels of a valid program other allowed names, one to one, dotted names (in connections) part by part and names in promotes lists along with them. The renamed program is accepted and compiles; a variable that had a name in the main model has the new name and nothing else does; the same variables must be given; and with the same given values every variable that matters has the same value as before, whatever the functions mean. In particular values cannot depend on the alphabetical order of names.", "quantifier": "all valid programs of any depth and size, all one-to-one renamings of allowed names (that do not turn names into the form of automatic names), all given values, all functions, all iteration orders of sets", "why_tests_cant": "relates two programs for an unbounded family of programs and renamings", "anchors": ["csdl/lang/model.py:Model", "csdl/rep/resolve_promotions.py:resolve_promotions", "csdl/rep/graph_representation.py:GraphRepresentation"]}
{"id": "C102", "title": "Unused computations change nothing", "statement": "Add to the method of any model of a valid program, as its last statement, an operator expression, a function call or a part of a variable (of which no other part matters), and do not use the result. The program is still valid, runs and compiles; the same variables must be given; and with the same given values every variable that matters has the same value as before, whatever the functions mean - even functions with undefined or strange results on those arguments.", "quantifier": "all valid programs of any depth and size, all models in them, all such statements, all given values, all functions, all iteration orders of sets", "why_tests_cant": "relates two programs for an unbounded family of programs, positions and statements", "anchors": ["csdl/rep/graph_representation.py:GraphRepresentation", "csdl/lang/model.py:Model", "csdl/rep/construct_unflat_graph.py:construct_unflat_graph"]}
{"id": "C103", "title": "Combining programs without promotions: each part computes what it computes alone", "statement": "Let two programs be valid. Adding the second to the first as a submodel under a new name with promotes=[] gives a valid program (so it runs and its representation is built). What has to be given in the combination is exactly what has to be given in the two parts; with the same given values every variable of both parts has the value it has when its part is run on its own. The same holds for a model that contains nothing but submodels with different names from which nothing is promoted: it is valid if all of them are. If the default values are clear (no two different ones are given for the same variable at the same depth) and no direct submodel of the added program gives a value for a variable that its main model declares without one, the parts also have the same values when everything is run from the default values; without this last condition wrapping a program in a model can change its default values.", "quantifier": "all valid programs, all new submodel names, submodels written inline or not, any number of submodels, all meanings of functions, all given values, all execution orders", "why_tests_cant": "Names of the two programs may coincide in any way, and both may contain any hierarchy, promotions and connections of their own; the claim is about all pairs of programs.", "anchors": ["csdl/lang/model.py:Model.add", "csdl/rep/resolve_promotions.py", "csdl/rep/collect_connections.py", "csdl/rep/construct_flat_graph.py", "csdl/rep/merge_connections.py"]}
{"id": "C104", "title": "Exactly the acceptable programs are accepted", "statement": "A program's define methods run and its representation is built without an error if and only if the program is acceptable: every method is fine (C74); in no model do inputs or outputs of different models have the same name; variables of the same name have equal numbers of elements where the code compares them (two declared variables, or variables of which one belongs to a model containing the model of the other); promoted names are names of the model that contains the submodel; every connection leads from a name of an input or registered output to a name of a variable that matters and is not a registered output, with equal numbers of elements; no variable is the target of two connections; nothing is computed from itself. Every acceptable program computes its meaning. Every valid program (C74) is acceptable; not every acceptable program is valid: a declared variable may be identified with an input of a sibling submodel that has another number of elements, and a submodel may promote a name it does not have. The same holds in a session in which other objects were created before, and for programs with custom operations, implicit operations, design variables, constraints and objectives: there the declared names must denote different variables, with at most one objective.", "quantifier": "all programs with good names (any hierarchy, promotions, connections), not too large, in which no target of a connection is the source of a later one and repeated declarations of one name in a method have equal sizes; all orders in which sets are iterated; for the second part all meanings of functions and given values", "why_tests_cant": "It states both that no acceptable program is rejected and that no other program gets through, over all hierarchies of programs; tests sample a few accepted and a few rejected programs.", "anchors": ["csdl/rep/graph_representation.py:GraphRepresentation.__init__", "csdl/rep/resolve_promotions.py", "csdl/rep/collect_connections.py", "csdl/rep/construct_flat_graph.py", "csdl/rep/merge_connections.py", "csdl/lang/model.py:Model"]}
{"id": "C105", "title": "It does not matter how computations are distributed over models", "statement": "If two valid programs consist of the same computations (operators, functions, parts of variables, outputs assembled from parts) of corresponding variables, possibly in other models, under other names and in another order, and variables identified by promotion or connection in one correspond to identified variables in the other, then executing their representations gives corresponding variables the same values. In particular, the last statements of a main model may be moved to a submodel all of whose names are promoted, which declares the inputs and outputs it uses: if every variable of the two methods matters, corresponding variables must be given and, with the same given values, every variable has the value it had before.", "quantifier": "all pairs of valid programs (any hierarchies, promotions, connections) and all correspondences of their variables; for the second part all main methods, all submodels without submodels of their own, all names; all orders in which sets are iterated, all meanings of functions, all given values", "why_tests_cant": "It compares two programs for every hierarchy, every split of a method and every given value; a test compares two particular programs on particular values.", "anchors": ["csdl/rep/graph_representation.py:GraphRepresentation.__init__", "csdl/rep/resolve_promotions.py", "csdl/rep/merge_connections.py", "csdl/rep/construct_flat_graph.py", "csdl/lang/model.py:Model.add", "csdl/lang/model.py:Model.declare_variable"]}
{"id": "C106", "title": "Values in the analytics report are the true ones within half a percent", "statement": "In the report written with analytics=True, the value column of an input, and of a declared variable with a value of its own, is the decimal text of exactly one number, which differs from the average of the variable's elements by at most half a percent of it; in particular it is zero only if the average is zero and has the sign of the average. For a declared variable whose value is the default it is the word default, for other variables it is empty.", "quantifier": "all numbers, of every magnitude (including those whose rounding changes the exponent or the number of digits), all lists of elements", "why_tests_cant": "Whether shortening the exponent by replacing substrings, or rounding up to a power of ten, ever yields a wrong number is a question about all numbers; tests try a handful.", "anchors": ["csdl/utils/format_number.py:format_number", "csdl/rep/construct_flat_graph.py:construct_flat_graph"]}
{"id": "C107", "title": "Values of arguments reach the residual model of an implicit operation", "statement": "When an implicit operation is called, the compile-time value of each argument is passed to the residual model: executing the residual model's representation from the values stored in it gives the solution of the residual equations in which each argument has the value it has in the calling program, and all other given variables have the values given for them in the residual model. A call whose arguments are rejected changes no names, shapes or dependencies. When one Model object is used in two implicit operations, the values of the later call replace those of the earlier one.", "quantifier": "every residual program (submodels, promotions, connections, further custom and implicit operations), every list of arguments with any values, any session, any order of nodes and sets", "why_tests_cant": "Which node of the residual model keeps a value depends on the depth, the order and the explicit values of all declarations of the same variable in the hierarchy; a test shows one hierarchy.", "anchors": ["csdl/lang/model.py:_generate_maps_for_implicit_operation", "csdl/lang/model.py:declare_variable", "csdl/rep/construct_flat_graph.py:merge_automatically_connected_nodes"]}
{"id": "C108", "title": "Listing and saving options", "statement": "After any calls on an options object, iterating over it gives the declared options once each, in order of declaration; `in` tells whether an option is declared; `items()` gives each option's current value and never raises, also for required options without a value. An object restored from a saved (pickled or copied) one has exactly the options declared as recordable, in the same order, with the same values, the same read-only state and the same checks on assignment.", "quantifier": "every sequence of declarations, removals and assignments (accepted or not), every value, type and check", "why_tests_cant": "The listing and the saved state depend on the whole history: re-declarations, removals and one non-recordable declaration anywhere change it.", "anchors": ["csdl/utils/parameters.py:Parameters.__iter__", "csdl/utils/parameters.py:Parameters.__contains__", "csdl/utils/parameters.py:Parameters.items", "csdl/utils/parameters.py:Parameters.__getstate__", "csdl/utils/parameters.py:Parameters.declare"]}
{"id": "C109", "title": "Which values must be given", "statement": "In a valid program the variables whose values nothing computes - those a simulator or an optimiser must give - are exactly those that are the same variable (by promoted names, connections, unary plus) as an input that is not the target of a connection, or as a declared variable and as no input or registered output. Two such inputs are never the same variable, so every one of them can be set on its own. For any choice of the given values (the same for variables that are the same) csdl accepts the program and executing the representation from suitable values of its nodes gives a solution with the chosen values, the only one.", "quantifier": "every valid program with at most 63^4 objects, every choice of the given values, every meaning of operations", "why_tests_cant": "Whether a variable is free depends on promotions and connections anywhere in the hierarchy, and independence is about all combinations of values.", "anchors": ["csdl/lang/model.py:Model.create_input", "csdl/lang/model.py:Model.declare_variable", "csdl/lang/model.py:Model.connect", "csdl/rep/graph_representation.py:GraphRepresentation.__init__", "csdl/rep/merge_connections.py"]}
{"id": "C110", "title": "What an optimiser optimises", "statement": "In a valid program in which no design variable is the target of a connection, the design variables of the representation are exactly the inputs declared design variables, under their promoted names; each is found by its name at a node of its own; and whatever values an optimiser gives these nodes, executing the representation computes the one solution of the program in which each of these inputs has its value and every other given variable its default. The values found under the names of the objective and of the constraints in the representation are those of the variables the program declares. The names of design variables of a program that is otherwise valid always denote variables, different ones. If a design variable is the target of a connection csdl accepts the program, but its node is that of another variable.", "quantifier": "every valid program with at most 63^4 objects, all values of the design variables, every meaning of operations, any order of iteration over sets", "why_tests_cant": "It is about all values an optimiser may try and about promotions and connections anywhere in the hierarchy.", "anchors": ["csdl/lang/model.py:Model.add_design_variable", "csdl/lang/model.py:Model.add_constraint", "csdl/lang/model.py:Model.add_objective", "csdl/rep/collect_design_variables.py", "csdl/rep/collect_constraints.py", "csdl/rep/find_objective.py", "csdl/rep/graph_representation.py:GraphRepresentation.__init__"]}
{"id": "C111", "title": "Merging keeps sizes", "statement": "In a valid program in which a name declared more than once in a method is declared with the same number of elements, variables that are the same (through names, promotions, connections and aliases, directly or through other variables) have equal numbers of elements. In the representation, the node that represents a variable has the number of elements of the variable, and the nodes an operation takes its arguments from and stores its results in have the numbers of elements of the arguments and results the operation was made for. (Shapes may differ; and without the hypothesis on repeated declarations an operation can get an argument of another size.)", "quantifier": "all valid programs (hierarchies of any depth, any promotions and connections), all sessions with other objects, all variables and operations of all models, all topological orders", "why_tests_cant": "shapes are checked when an operation is made, in one method; the arguments are replaced later by variables of other models, along chains of promotions and connections of any length; a test sees one program", "anchors": ["csdl/rep/construct_unflat_graph.py:_construct_graph_this_level", "csdl/rep/construct_flat_graph.py", "csdl/rep/collect_promoted_variable_names.py", "csdl/rep/resolve_promotions.py", "csdl/lang/model.py:Model.declare_variable"]}
{"id": "C112", "title": "A connection only passes a value", "statement": "A program that is valid with a connection at the end of the method of one of its models is valid without it. Executing the program without the connection, with the values that the program with it computes for the variables that must be given, yields what the program with it computes; and if the program without it computes equal values for the two ends, then the program with it, given the same values, computes the same. More generally: of two valid programs with the same statements of which the second joins (by names, promotions, connections) whatever the first joins, every variable that must be given in the second must be given in the first, and the two compute the same whenever the values of the first agree where the second joins.", "quantifier": "all valid programs and all last connections of methods of models at any depth; all pairs of valid programs with the same statements and models of which one joins more; all values, meanings of functions and topological orders", "why_tests_cant": "a test compares one model with one connection; that connecting has no other effect on any variable must hold for every hierarchy and every other connection", "anchors": ["csdl/lang/model.py:Model.connect", "csdl/rep/collect_connections.py:collect_connections", "csdl/rep/merge_connections.py:merge_connections", "csdl/rep/construct_flat_graph.py:construct_flat_graph"]}
{"id": "C113", "title": "An input can be declared instead", "statement": "If in some models of a program variables that were created as inputs are declared instead (with the same names and shapes, with or without default values), and both programs are valid, then both are accepted, every variable that must be given in the second must be given in the first, and executing both with the same given values computes the same values for all variables that matter in the second.", "quantifier": "all pairs of valid programs that differ only in inputs that are declared, in any models at any depth; all values, meanings of functions and topological orders", "why_tests_cant": "a test compares one model; declared variables are joined by name with variables of other models and left out of the graph if unused, and that this changes no value must hold for every hierarchy, promotion and connection", "anchors": ["csdl/lang/model.py:Model.create_input", "csdl/lang/model.py:Model.declare_variable", "csdl/rep/resolve_promotions.py:resolve_promotions", "csdl/rep/merge_connections.py:merge_connections"]}
{"id": "C114", "title": "No element outside of an array is read", "statement": "In every valid program in which joined variables have the same shape: if the functions of custom and implicit operations do not read outside of their arguments, then two executions whose given values have the same elements (at the indices that lie inside of the shapes) give the same elements to all variables that matter, whatever the values would be outside of the arrays. Nothing that an operator, an index expression, an assembled output or a connection reads lies outside of the array it is read from.", "quantifier": "all valid programs of any size and nesting depth whose joined variables have equal shapes; all compilation orders; all pairs of given values; all meanings of custom operations that respect the shapes of their arguments", "why_tests_cant": "an out-of-bounds read in a compiled representation shows only for particular shapes, index expressions and nestings; the property ranges over all programs and all values", "anchors": ["csdl/lang/variable.py:Variable.__getitem__", "csdl/lang/concatenation.py:Concatenation.__setitem__", "csdl/operations/linear_combination.py:linear_combination", "csdl/utils/slice_to_list.py:slice_to_list", "csdl/rep/graph_representation.py:GraphRepresentation.__init__"]}
{"id": "C115", "title": "A run depends on the values given last, not on what was done before", "statement": "For a valid program, whatever a user does with a simulator (setting values by promoted or full names and running, in any order, any number of times; unknown names raise KeyError and change nothing), after a run every variable has its value in the one solution of the program in which each variable that nothing computes has the value given for it last, by any of its names or a name of a variable it is connected to, or its initial value if none was given. Earlier values, earlier runs and values set for computed variables do not matter.", "quantifier": "all valid programs of any size and depth; all compilation orders; all sequences of set and run of any length; all names and values", "why_tests_cant": "the property ranges over all histories of an interactive session and all programs; a stale value shows only for particular histories, names and connections", "anchors": ["csdl/sim/simulator_base.py:SimulatorBase.__setitem__", "csdl/sim/simulator_base.py:SimulatorBase.run", "csdl/sim/simulator_base.py:SimulatorBase._find_promoted_name", "csdl/rep/graph_representation.py:GraphRepresentation.__init__"]}
{"id": "C116", "title": "Numbers do not influence what is accepted and what is built", "statement": "Two programs that differ only in numbers (values of inputs, outputs and declared variables, constants in expressions) and in functions (of standard operations with the same shapes of results, of custom operations declared by the same calls, of implicit operations defined by the same model) are both accepted or both rejected, with the same exception; and if accepted they have the same objects, names, shapes, dependencies and model hierarchy, the same operations but for numbers, and the same representation: graph, names, execution order. The only exception is a division by the constant zero: it must occur in both or in neither, because it raises ZeroDivisionError.", "quantifier": "all pairs of programs of any size and nesting depth that differ only in numbers and functions, also over different fields; all compilation orders", "why_tests_cant": "a test runs one choice of numbers; the property says that nothing in running, promotion resolution, merging and sorting looks at any of them, for all programs", "anchors": ["csdl/lang/model.py:Model.create_input", "csdl/lang/model.py:Model.declare_variable", "csdl/lang/variable.py:Variable.__truediv__", "csdl/lang/concatenation.py:Concatenation.__setitem__", "csdl/rep/graph_representation.py:GraphRepresentation.__init__"]}
{"id": "C117", "title": "Computing with a larger field of numbers (complex numbers) gives the same results", "statement": "If all numbers of a program (values, constants) are regarded as numbers of a larger field, e.g. real numbers as complex numbers as in complex-step checks of derivatives, the program is accepted or rejected exactly as before, with the same exception, has the same objects, hierarchy, graph and execution order, and when its operations are executed with values that are numbers of the smaller field, every variable has the value it had before, provided that the functions, and powers with the exponents of the program, have the same results as before for such arguments. For real programs with integer exponents, powers of real and complex numbers are such powers.", "quantifier": "all programs of any size and nesting depth over any field, all embeddings in another field, all given values, functions and powers that extend those of the smaller field, all orders of execution", "why_tests_cant": "a test compares one program for a few values; the property is about all programs, fields and values", "anchors": ["csdl/lang/variable.py:Variable.__add__", "csdl/lang/variable.py:Variable.__pow__", "csdl/operations/power_combination.py:power_combination.__init__", "csdl/operations/linear_combination.py:linear_combination.__init__", "csdl/rep/graph_representation.py:GraphRepresentation.__init__"]}
{"id": "C118", "title": "Values are differentiable (continuous) functions of the values given", "statement": "Let the values a user must give (inputs that are not connected, declared variables without source) depend on a parameter, e.g. be the design variables. Wherever the given values are differentiable in the parameter, no operator divides by zero or raises zero to a power below 1 (a negative power for continuity), and all functions that are called are differentiable at their arguments, the computed value of every variable that matters, of every model, is a differentiable function of the parameter: compilation (names, promotions, connections, parts and assembled outputs, execution order) introduces no kink or jump.", "quantifier": "all valid real programs of any size and nesting depth, all meanings of functions, all normed spaces of parameters, all dependencies of the given values on the parameter, all points, all execution orders of set-like iteration", "why_tests_cant": "differentiability at all points is a statement about infinitely many values; a finite-difference test looks at a few", "anchors": ["csdl/lang/variable.py:Variable.__truediv__", "csdl/operations/power_combination.py:power_combination.__init__", "csdl/operations/indexed_passthrough.py:indexed_passthrough", "csdl/rep/graph_representation.py:GraphRepresentation.__init__", "csdl/rep/resolve_promotions.py:resolve_promotions"]}
{"id": "C119", "title": "Linear programs compute linear functions", "statement": "If all operators of a program that matter are sums, differences and products with or quotients by constants, all functions called are linear, and elements of outputs to which nothing is assigned are zero, then the values of all variables are linear functions of the given values (superposition: the values for a sum of given values are the sums of the values). If sums with and differences to constants occur too and the functions are affine, all values are affine functions of the given values.", "quantifier": "all valid linear (affine) programs of any size and nesting depth over any field, all vector spaces of parameters, all linear (affine) dependencies of the given values on the parameter", "why_tests_cant": "superposition is about all pairs of given values and all programs; a test checks a few", "anchors": ["csdl/lang/variable.py:Variable.__add__", "csdl/lang/variable.py:Variable.__mul__", "csdl/operations/linear_combination.py:linear_combination.__init__", "csdl/operations/power_combination.py:power_combination.__init__", "csdl/rep/graph_representation.py:GraphRepresentation.__init__"]}
{"id": "C120", "title": "Derivatives of computed values obey the rules of calculus, statement by statement", "statement": "Let the given values depend on a real parameter. Where they are differentiable, no operator divides by zero or raises zero to a power below 1 and the functions called have given derivatives, the derivatives of the values computed for all variables of all models exist, satisfy the sum, product, quotient and power rules for every operator, the chain rule for every call, are parts of derivatives for parts, are assembled like the outputs for outputs (zero where nothing is assigned), and agree for variables that are the same by name, connection or alias; and these rules determine them from the derivatives of the given values. So a forward-mode sweep over the program as written yields the derivatives of what its compiled representation computes.", "quantifier": "all valid real programs of any size and nesting depth, all functions and their derivatives, all differentiable dependencies of the given values on a parameter, all points, all execution orders of set-like iteration", "why_tests_cant": "derivatives are limits; finite differences at a few points compare approximations for one program", "anchors": ["csdl/lang/variable.py:Variable.__truediv__", "csdl/operations/power_combination.py:power_combination.__init__", "csdl/operations/linear_combination.py:linear_combination.__init__", "csdl/operations/indexed_passthrough.py:indexed_passthrough", "csdl/rep/graph_representation.py:GraphRepresentation.__init__"]}
{"id": "C121", "title": "Programs with positive constants compute positive values and never divide by zero", "statement": "If the operators of a program that matter are sums, products and quotients of variables or with positive constants, and powers, its functions map positive arguments to positive results, and elements of outputs to which nothing is assigned are positive (as in geometric programs), then for all positive given values all computed values of all variables are positive; so no operator divides by zero or raises zero to a power, and the values are differentiable functions of positive given values wherever the functions are.", "quantifier": "all valid positive real programs of any size and nesting depth, all positive given values, all meanings of functions that keep numbers positive, all differentiable dependencies on a parameter", "why_tests_cant": "a test divides for a few inputs; absence of division by zero is about all of them", "anchors": ["csdl/lang/variable.py:Variable.__truediv__", "csdl/lang/variable.py:Variable.__mul__", "csdl/operations/power_combination.py:power_combination.__init__", "csdl/operations/linear_combination.py:linear_combination.__init__", "csdl/rep/graph_representation.py:GraphRepresentation.__init__"]}
{"id": "C122", "title": "Results do not depend on the choice of units", "statement": "Let the variables of a program have units that are consistent with it: only variables of equal units are added, constants that are added are without unit, units are multiplied, divided and raised to powers as variables are, functions respect units, parts and what is assigned to them have the unit of the whole, and variables that are the same by name, connection or alias have the same unit. If the given values are converted to other units, the computed values of all variables of all models are the previous ones, converted.", "quantifier": "all valid real programs of any size and nesting depth, all assignments of positive conversion factors consistent with the program, all given values (also negative ones and zero), all functions that respect the units", "why_tests_cant": "a test converts a few values for one program; dimensional homogeneity is about all values, factors and programs", "anchors": ["csdl/lang/variable.py:Variable.__add__", "csdl/lang/variable.py:Variable.__mul__", "csdl/operations/power_combination.py:power_combination.__init__", "csdl/operations/linear_combination.py:linear_combination.__init__", "csdl/rep/graph_representation.py:GraphRepresentation.__init__"]}
{"id": "C123", "title": "Programs built by the rules of convex programming compute convex functions; local minima are global", "statement": "If the operators of a program follow the rules of convex programming (sums of convex values, differences of convex and concave values, products with constants of known sign, affine operators, squares of affine values), functions have the curvatures assumed, and the given values have the curvatures assigned to them as functions of parameters in a convex set (e.g. are the design variables), then the computed values of all variables of all models are convex, concave or affine functions of the parameters as assigned, and local minima of convex ones are global.", "quantifier": "all valid real programs of any size and nesting depth, all assignments of curvatures consistent with the program, all normed spaces of parameters and convex sets in them, all dependencies of the given values on the parameters", "why_tests_cant": "convexity and global minimality are about all pairs of points; a test compares a few", "anchors": ["csdl/lang/variable.py:Variable.__add__", "csdl/lang/variable.py:Variable.__sub__", "csdl/operations/power_combination.py:power_combination.__init__", "csdl/operations/linear_combination.py:linear_combination.__init__", "csdl/rep/graph_representation.py:GraphRepresentation.__init__"]}
