## Trusted base

* **Lean's kernel** (Lean 4.33.0) and the Mathlib modules imported (source in /app/mathlib4-4.33.0).
* **Axioms.** `#print axioms` was run on every theorem of `MANIFEST.json`: each depends on a subset of
  `propext`, `Classical.choice`, `Quot.sound`; none of our own, no compiled evaluation
  (`tools/axioms.sh` repeats the check).
* **The reading of the code.**  Nothing here is extracted from the Python text: the tie between the
  model and /repo is the citation on each definition and the mutation experiments below.
* **Behaviour of libraries, assumed as documented:**
  - Python: `dict` iterates in insertion order; `slice`, `range`, `str.isalnum`, `str.rsplit`, integer
    arithmetic; sets iterate in an arbitrary order; objects that do not define `__eq__`/`__hash__`
    (csdl's nodes) are compared by identity.
  - networkx: `DiGraph.add_node/add_edge(s)/remove_node(s)/successors/predecessors` keep insertion
    order and have set semantics; `contracted_nodes(G, u, v, self_loops=False, copy=False)` replaces `v`
    by `u` in every edge and drops the loops; `topological_sort` is Kahn's algorithm by generations and
    raises iff the graph has a cycle; `simple_cycles` is only used in error messages; `ancestors`,
    `dag_longest_path_length` as documented.
  - NumPy: `prod`, `ravel_multi_index` in row-major order (raising when an index is out of range),
    `meshgrid(indexing='ij')`, `arange`, broadcasting; real arithmetic is exact (see below).
* **Idealisations.**  Floating-point numbers are elements of an arbitrary (ordered) field; integers and
  sizes are unbounded; memory and time are not modelled.

## Exactly what is modelled

| code | model |
|---|---|
| `utils/gen_hex_name`, `prepend_namespace`, `check_banned_chars` | `Names` |
| `lang/model.py` data, `lang/subgraph.py` | `Tree`, `ModelApi`, `Compile` |
| `lang/model.py`: `add_objective`, `add_design_variable`, `add_constraint`, `connect`, `declare_variable`, `create_input`, `create_output`, `register_output`, `add` | `ModelApi` (histories of calls on any number of models and objects) |
| `rep/resolve_promotions.py`, `rep/collect_locally_defined_variables.py`, `utils/check_duplicate_keys`, `utils/find_keys_with_matching_values`, `utils/find_names_with_matching_shapes`, `create_reverse_map` | `Promotions` |
| `rep/collect_connections.py`, `collect_design_variables.py`, `collect_constraints.py`, `find_objective.py`, `utils/find_promoted_name.py`, name lookup of `sim/simulator_base.py` | `Collect` |
| `lang/variable.py` indexing, `lang/concatenation.py`, `operations/decompose.py`, `utils/slice_to_list.py` | `Indexing` |
| `lang/variable.py` operators, `lang/standard_operation.py`, `operations/linear_combination.py`, `power_combination.py` | `Arith`, `ComputeString` |
| `lang/variable.py`, `input.py`, `output.py`, `declared_variable.py` constructors, `utils/get_shape_val.py`, `check_default_val_type.py` | `ShapeVal` |
| `lang/custom_operation.py`, `std/custom.py` | `CustomOp` |
| `utils/parameters.py` | `Params` |
| `solvers/*.py`: `__init__` and `_declare_options` of every class | `Solvers` |
| `lang/define_models_recursively.py` | `Define` |
| `rep/construct_unflat_graph.py` (`construct_graphs_all_models` and below) | `BuildGraph`, `Compile` |
| `rep/construct_flat_graph.py` (`construct_flat_graph`, `merge_graphs`, `merge_automatically_connected_nodes`), `rep/get_nodes.py` | `Flatten` |
| `rep/merge_connections.py` | `Connect` |
| `rep/sort_nodes_nx.py` (`flat=True`), networkx graphs | `Graph` |
| `rep/graph_representation.py`: `__init__` as a whole | `Compile` (from objects), `Connect`/`Flatten` (from graphs) |
| `rep/graph_representation.py`: `influences`, counts, `predict_computation_time`, `serial_cost`; `rep/create_graph_with_operations_as_edges.py`, `rep/get_registered_outputs_from_graph.py` | `Analysis` |
| `opt/combine_operations.py`, `opt/remove_dead_code.py` | `Combine` |
| `lang/implicit_operation_factory.py`, `implicit_operation.py`, `bracketed_search_operation.py`, `Model._implicit_operation`, `_bracketed_search`, `_generate_maps_for_implicit_operation`, `_return_implicit_outputs`, `utils/collect_terminals.py` | `Implicit`, `Bracket` |
| `std/`: reshape, transpose, reorder_axes, expand, einsum, einsum_new_api (+ `utils/einsum_utils.py`, `reorder_axes_utils.py`, `decompose_shape_tuple.py`) | `Axes` |
| `std/`: matmat, matvec, dot, cross, outer, inner, sum, max, min, average, pnorm, eigenvalues, solve_linear, sparsematmat, quatrotvec, rotmat, diff | `StdShapes` |
| `std/`: the elementwise functions, inverse hyperbolic functions, exp_a, bessel; `operations/` of the same names with their texts | `Elementwise` |
| `std/rotations/body/body_313.py` | `Rotations` |
| `utils/get_bspline_mtx.py` | `BSpline` |
| `lang/` as a whole: define methods as programs (operators, functions, parts `x[key]`, inputs, outputs, outputs assembled from parts `y[key] = x`, connections, submodels) and the objects they create; repeated arguments of operations; `define_models_recursively` | `Program` |
| `std/custom.py`, `Model._implicit_operation`, `add_design_variable`, `add_constraint`, `add_objective` as statements of programs | `ProgramFull` |
| `Model._generate_maps_for_implicit_operation` on a model defined by a program | `ImplicitProgram` |
| `Model.create_submodel`, `InlineModel`: submodels in `with` blocks | `Program`, `ProgramFull`, `Library` (only the model of the block is used in the block; an exception of the block takes precedence over one of `self.add` in the `finally` clause) |
| values given to `create_input`, `declare_variable` (`val`, `default_val`), as they arrive in the variables of the representation | `Program`, `Spec/Defaults` (values are functions on element positions: shapes and scalars of `val` are in `ShapeVal`) |
| `lang/node.py` `Node._count` across the programs of one process | `Session` (programs one after the other, representations built at the end; building a representation changes no object the model of it reads) |
| `std/__init__.py`: calls of the functions of the library in `define` methods | `Library` (arguments are variables; constant matrices by their shapes and a number for their elements; parameters without effect on shapes and without checks are left out) |
| `rep/construct_flat_graph.py` with `analytics=True`: `write_hierarchy_info_to_file`, `write_connection_and_promotions_to_file`, the attributes `declared_to`, `connected_to` | `Report` (rows as records; without the average value and the object number) |
| hierarchies that use one `Model` object several times | `Shared` (one node per object and use; what the nodes of different uses share are names, roles, shapes and default values, which nothing changes) |
| `Model.print_var` | `Print` (as the last statement of a method; the name of the new output is arbitrary) |
| promotion versus connection (no code of its own: two programs) | `Join` (the change is made in the main model; the connection is its last statement) |
| a model alone and in a program (no code of its own: two programs) | `Modular` |
| another method for one model (no code of its own: two programs) | `Refactor` |
| what a value depends on (no code of its own: two executions) | `Depends` |
| other names for variables and submodels (no code of its own: two programs) | `Rename` |
| unused computations (no code of its own: two programs) | `Dead` (as the last statement of a method) |
| combinations of programs, nothing promoted (no code of its own: `Model.add`) | `Apart` (`promotes=[]`, as the last statement of the main method) |
| exactly which hierarchies and programs are accepted (`rep/graph_representation.py` 60–220 and the stages it calls) | `Exact` (no new model; both directions of acceptance, for sets iterated in any order) |
| the same computations distributed over models in different ways | `Restructure` (no new model; the moved statements contain no submodels, and every variable of the two methods matters in the second theorem) |
| the value column of the report (`utils/format_number.py` 1–14, `rep/construct_flat_graph.py` 619–638) | `FormatNumber` (numbers are exact rationals: no nan, infinities, negative zero; the rounding of `np.average` is not modelled) |
| values passed to the residual model of an implicit operation (`lang/model.py` 997–1014) | `ImplicitProgram` (`passArgs`; values are those of the argument objects when the operation is called) |

## What is not modelled

* Values inside NumPy (rounding, dtype, NaN), plotting, printed text of messages, warnings, the
  layout of the analytics files (their contents are in `Report`), time and memory.
* Back ends: `sim/simulator_base.py` except reading and setting by name (`Collect`, `Lookup`, `History`) consists of stubs that raise
  `NotImplementedError`; code generation is outside /repo.
* `check_compilation` block of `GraphRepresentation.__init__` (a constant `False` disables it), and the
  methods of `GraphRepresentation` that read attributes which are never set (`unflat_graph`,
  `_variable_nodes`, `A`, …) and therefore always raise `AttributeError`.
* Code that nothing calls and that cannot run: `rep/check_for_promotion_induced_cycles.py` (undefined
  names), `rep/set_default_values.py` (missing attribute), `rep/merge_promoted_nodes.py`,
  `std/if_else.py` (commented out), `rep/collect_connections2.py`, `rep/add_dependencies_due_to_connections.py`,
  `rep/add_model_var_dependencies.py`, `rep/collect_promoted_variable_names.py`.
* Attributes that only back ends read: `rep_node`, `declared_to`, `connected_to`, units, descriptions.
* What a back end does with a negative int as key of an assignment (`y[-1] = x`), which csdl records as the
  index -1 (C22): in the meaning of programs (C73) such an index is no element of the output.
* See the end of the table above for what later modules added.

## Testing the theorems against wrong programs

`tools/mutate.py` applies an edit to a scratch copy of the model (a wrong boundary, a missed case, a
swapped argument, a dropped update), rebuilds everything that depends on it with every broken proof
reported but not trusted (`tools/Forge.lean.txt`), and lists the property theorems whose proofs no longer
go through.  Every attempt is one line of `seeded/LOG.jsonl`: definition, edit, claim it breaks,
theorems that failed, theorems tightened.  An edit that no theorem notices although it breaks the English
claim is a weak statement, and was tightened: e.g. the acceptance theorems (`…_accepts`, `…_accepted_iff`)
and the soundness of each error (`C06_shape_error_sound`, `C12_objective_errors`, …) were added after edits
that made the program reject too much survived.
