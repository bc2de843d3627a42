# A Lean 4 model of LSDOlab/csdl

Lean project: `lean/` (modules under `lean/Verif/`, all imported from `lean/Verif.lean`).
Properties: `properties.jsonl`.  Claims: `MANIFEST.json`.  Mutation log: `seeded/LOG.jsonl`.
This file is generated by `tools/design.py` from `tools/design_head.md`, `tools/plan.json`,
`MANIFEST.json` and `tools/design_tail.md`.

## Method

* `Verif/Model/`: the code, function by function.  Every function that is modelled is a total,
  computable Lean function that mirrors the Python branch by branch.  Exceptions are values of
  `Except Err α` (one constructor per `raise` that a caller can tell apart), mutable objects are
  state-passing structures or heaps indexed by object identity (`Nat`), dictionaries are
  insertion-ordered association lists (`Model/Dict.lean`), and a Python `set` whose iteration order
  the code depends on is a list in arbitrary order, so that theorems quantify over the schedule.
  Loops that have no structural measure take fuel; the theorems either say "whenever the result is not
  out-of-fuel" or give a sufficient amount of fuel (`maximum recursion depth` of Python is such a bound).
  Every definition cites the file and lines of `/repo` it models, and says where it simplifies.
* `Verif/Spec/`: small declarative specifications that do not mention the model's helpers, e.g. the
  inductive predicate "variable v of the hierarchy has the name p in the main model", NumPy's slicing,
  the Cox–de Boor recursion, "this assignment of values solves the model".
* `Verif/Proofs/`: lemmas.
* `Verif/Props/`: the property theorems, `Cxx_…`, each followed by `example`s that show that a
  concrete, non-trivial case meets the hypotheses.

A theorem with the suffix `_partial` proves less than the property it belongs to.  When the code
violates a property, the file contains (a) a theorem proving the negation with a concrete witness
program, and (b) the part that does hold, with suffix `_partial`.

## Plan per property


| id | property | modelled in `Model/` | how it is proved | theorems in `Props/` | status |
|---|---|---|---|---|---|
| C01 | Automatically generated names never collide | Names | base-63 expansion with its prefix; injective below 62*63^4, exact collision set above | Names | partial |
| C02 | Hierarchical names are unambiguous | Names | joining with dots is injective on dot-free names (induction on the path) | Names | proved |
| C03 | Promotion map groups variables exactly by promoted name | Promotions | mutual induction over the tree of models against the inductive predicate `PromotedAs` | Promotions | proved |
| C04 | Promoted and unpromoted lookup are mutually inverse | Promotions | from C03: every variable has exactly one promoted name | Promotions | proved |
| C05 | At most one source per promoted name | Promotions | invariant of the fold over submodels | Promotions | proved |
| C06 | Variables merged by promotion have the same size | Promotions | shape checks carried through the fold; witness for the missing one | Promotions, Promotions2 | partial |
| C07 | Invalid promotes are rejected | Promotions | case analysis of the three kinds of promotes; witness | Promotions | partial |
| C08 | Promotion resolution never trips its internal consistency checks | Promotions | counting: promoted + not promoted = all | Promotions | proved |
| C09 | Simulator keys: promoted and unpromoted names address the same variable | Collect | state machine of get/set on the maps of C04 | Collect | proved |
| C10 | All declared connections are collected, once, with promoted names | Collect | induction over the tree; spec: connection in a model at a path | Collect | proved |
| C11 | Names visible in a model can be used in its optimisation and connection declarations | Collect | induction over the tree; two lookups, the second with the namespace | Collect | partial |
| C12 | Design variables, constraints and objective are unique | Collect | induction over the tree with the accumulated dictionary | Collect | proved |
| C13 | Rebuilding the representation of a model gives the same objective | Collect | two builds in sequence; the first one changes the declared name | Collect | partial |
| C14 | Output names are unique within a model | ModelApi | invariant over histories of calls | ModelApi, ModelApi2 | partial |
| C15 | No local name denotes two sources | ModelApi | invariant over histories of calls | ModelApi | partial |
| C16 | Optimisation declarations are well formed | ModelApi | invariant over histories of calls; acceptance iff | ModelApi, ModelApi2 | proved |
| C17 | Connections and submodels of a model are recorded faithfully | ModelApi | invariant over histories of calls; acceptance iff | ModelApi, ModelApi2 | partial |
| C18 | Index lists of slices agree with Python slicing | Indexing | spec: Python slice indices; case analysis of missing/negative bounds, arithmetic progressions | Indexing | proved |
| C19 | Extracting elements selects exactly the elements NumPy would | Indexing | row-major position of the selected multi-indices; spec: NumPy selection | Indexing, Indexing2 | partial |
| C20 | Indexing twice with equal keys gives the same variable | Indexing | invariant of the cache over histories of indexing | Indexing | partial |
| C21 | Row-major flattening is a bijection | Indexing | induction over the shape: bijection with [0, size) | Indexing | proved |
| C22 | Indexed assignment writes every element at most once | Indexing | invariant of the concatenation over histories of assignments | Concat, Indexing2 | partial |
| C23 | A rejected indexed assignment has no effect | Indexing | step analysis; witness for overlapping assignments | Concat | partial |
| C24 | Execution order respects dependencies | Graph | Kahn by generations: loop invariant, measure; success iff acyclic | Graph | proved |
| C25 | Results do not depend on the execution order chosen | Graph | operations with arbitrary semantics: execution in any topological order gives the unique solution | Graph | proved |
| C26 | The graph of a model contains everything its outputs depend on | BuildGraph | work-list invariant: nodes and edges are exactly those reachable from the outputs | BuildGraph | proved |
| C27 | Unused declared variables appear in the graph | BuildGraph | witness for every model; used declared variables by C26 | BuildGraph | partial |
| C28 | Unnamed submodels do not disturb the parent's operations | BuildGraph | name table invariant; exact condition for a clash; witnesses | BuildGraph | partial |
| C29 | Flattening keeps every node and dependency and names it by its promoted name | Flatten | induction over the tree of graphs | Flatten | partial |
| C30 | After merging, one node per promoted name | Flatten | fold of contractions = quotient of the graph by promoted name | Flatten | proved |
| C31 | The representative declared variable is the one closest to the root | Flatten | fold: minimum of the depth; witness that depth 0 and 1 are confused | Flatten | partial |
| C32 | A connection replaces its target by its source | Connect | fold of contractions along connections; witness for chains | Accepts, Connect | partial |
| C33 | Each variable is computed by at most one operation | Connect | in-degree invariant through both merging phases | Connect | proved |
| C34 | Residual dependencies are found exactly | Implicit | depth-first search invariant: terminals = reachable leaves | Implicit | partial |
| C35 | States and residuals are paired one to one | Implicit | pairing of the two lists; shapes | Accepts, Implicit | partial |
| C36 | Exposed outputs are returned in the order requested | Implicit | filter of the registration order; permutation | Implicit | partial |
| C37 | Declared derivatives expand wildcards completely | CustomOp | recursion over of x wrt | CustomOp | partial |
| C38 | Custom operation inputs and outputs are declared once | CustomOp | invariant over histories of declarations | CustomOp | partial |
| C39 | Options hold only valid values | Params | invariant over histories of option calls | Params | partial |
| C40 | A failed option declaration leaves no invalid value behind | Params | state after a failed declaration | Params | partial |
| C41 | Arithmetic on variables means arithmetic | Arith | heap of variables and operations, evaluation over a field; every operator; induction over expression trees | Arith | proved |
| C42 | Standard operations have pairwise distinct arguments | Arith | argument deduplication: distinct objects, same values | Arith | proved |
| C43 | Reshaping and reordering preserve elements | Axes | bijection of index sets | Axes | partial |
| C44 | Expansion shapes are consistent | Axes | characterisation of acceptance and shape | Axes | partial |
| C45 | Einstein summation output shapes are correct | Axes | spec: size of a label; letters allotted by the new API are injective | Einsum | proved |
| C46 | Products accept only conformable arguments | StdShapes | characterisation of acceptance against conformability | StdShapes | partial |
| C47 | Reductions have the shape of NumPy reductions | StdShapes | comparison with the shape of NumPy reductions | StdShapes | partial |
| C48 | Models are defined once, top down | Define | heap of model objects with sharing and cycles; histories of builds; log of define calls | Define | partial |
| C49 | Combining operations preserves results | Combine | semantics of operation graphs; composition of operations; witness | Combine | partial |
| C50 | Compute strings denote the operation | ComputeString | semantics of the token string against the linear/power combination | ComputeString | partial |
| C51 | Shape inference of values | ShapeVal | case analysis of the argument kinds | ShapeVal | proved |
| C52 | Finite differences along an axis | StdShapes | diff through Indexing: always rejected | StdShapes | partial |
| C53 | The size of a variable is the number of its elements | ShapeVal | product of the shape for each constructor | ShapeVal | partial |
| C54 | Custom operations are called with exactly their declared inputs | CustomOp | matching of arguments and declared inputs; iff | Accepts, CustomOp | proved |
| C55 | Constant arrays in arithmetic are combined as in NumPy | Arith | array constants broadcast to the shape of the variable | Arith | partial |
| C56 | reorder_axes takes a permutation of the axis labels | Axes | labels and permutations | Axes | partial |
| C57 | expand respects the axis labels | Axes | labels | Axes | partial |
| C58 | einsum rejects inconsistent operands | Axes | rank check; witnesses | Einsum | partial |
| C59 | Linear algebra functions accept only conformable arguments | StdShapes | characterisation of acceptance | StdShapes | partial |
| C60 | Dead code removal removes exactly the dead code | Combine | sort returns all nodes, so nothing is removed | Combine | partial |
| C61 | Executing the representation solves the model | Connect | from C24, C25, C29, C30, C32: the order executes to the unique solution of the flat model | EndToEnd | proved |
| C62 | The B-spline matrix is the matrix of the B-spline basis | BSpline | recurrence in place = Cox–de Boor basis on clamped knots; partition of unity, positivity, end points | BSpline | proved |
| C63 | influences reports exactly the dependencies of the outputs on the inputs | Analysis | ancestors of a graph; spec: dependency path | Analysis | partial |
| C64 | The graph with operations as edges has the same dependencies | Analysis | paths through operations | Analysis | proved |
| C65 | Counts of variables, operations, uses and outputs are consistent | Analysis | double counting of edges | Analysis | proved |
| C66 | The predicted parallel computation time is that of the critical path | Analysis | longest path in a bipartite graph | Analysis | partial |
| C67 | Bracketed search: exactly one bracket per state, and bracket variables are dependencies | Bracket | acceptance iff; stored brackets | Bracket | partial |
| C68 | Default values given for states are honoured | Bracket | what is recorded; witnesses | Bracket | partial |
| C69 | Newton and Broyden need a linear solver | Bracket | case analysis | Bracket | proved |
| C70 | From model objects to values | Compile | composition of BuildGraph, Promotions, Flatten, Connect, Graph for a tree of model objects; spec: values that solve the model (equations of the operations + equality of variables identified by name or connection); existence, uniqueness, result of execution | Compile | proved |
| C71 | Circular dependencies are reported, and nothing else is | Compile | as C70: error iff the dependencies through operations, names and connections are cyclic | Cycle | proved |
| C72 | Valid models are accepted | Compile | as C70: a well-formed hierarchy is never rejected | Valid | proved |
| C73 | Programs mean what they say | Program | model of define methods as programs and of the objects they create (invariants by induction over statements and hierarchy); spec: the statements as equations, live variables, sameness by name/connection/unary plus/equal parts; parts of outputs assigned as equations between elements; composed with C70 | Program, ProgramConcat, ProgramParts | proved |
| C74 | Valid programs are accepted and compute their meaning | Program | spec: conditions on the text of the program (StmtOk, MethodOk, ValidProgram); running iff by induction over statements with the invariant of C73 and the theorem that two variables are one object exactly if they are aliases; acceptance by mapping valid programs to valid hierarchies (C72), circles of objects to circles of the program; combined with C73 | ValidProgram | proved |
| C75 | Solver options are exactly those documented for the class, checked and kept | Solvers | the calls of `_declare_options` of each class, with those of its superclasses, are run on the model of `Parameters`; the result is compared line by line with a table of options (Spec/Solvers) by evaluation in the kernel, and an invariant carries it through any sequence of assignments | Solvers | partial |
| C76 | Inverse hyperbolic functions invert the hyperbolic functions | Elementwise | the six functions as the statements they execute in the program language of C73; for any solution of any program containing them the equations are composed to a formula over the reals, then Mathlib's arsinh/arcosh/artanh; for arsech an algebraic equation is solved | Elementwise | partial |
| C77 | The text of an elementwise operation computes the function | Elementwise | texts as tokens; a small reader of the two forms with NumPy's functions as functions of real numbers; case by case | Elementwise | proved |
| C78 | exp_a and bessel accept what they document, keep the shape, and the text of exp_a is the power | Elementwise | case analysis; the reader of C77 extended with powers and the precedence of unary minus | Elementwise | partial |
| C79 | body_313 builds the 3-1-3 rotation matrix | Rotations | the statements `body_313` executes, as part of an arbitrary program; each entry of a solution is evaluated by induction on the expression, and compared with the product of the axis rotations over the reals; the accepted shapes from the exact conditions of C74 | Rotations | partial |
| C80 | Programs with custom and implicit operations | ProgramFull | programs with custom operations (their own `define` methods run first), implicit operations and declarations as further statements; written with calls and registrations they are programs of C73/C74, and running both gives the same objects; the compiler ignores declarations (by induction over the hierarchy) except for the tables of C12 | ProgramFull | proved |
| C81 | Optimisation declarations of programs | ProgramFull | from C12 applied to the model the program creates, and the statements of each method read off the tables of the model | ProgramFull | proved |
| C82 | Programs in one session do not influence each other | Session | The model of a program run (C73, C80) starts from the objects that exist already (`runFrom`, `xrunFrom`); a session (`runSession`) runs programs one after the other.  The invariants of C73 and C80 are proved for all objects that exist before and after; `C82_no_interference` compares the representation built at the end of a session with the one of the program alone, through the uniqueness of solutions. | ProgramFull, Session | proved |
| C83 | Standard library calls in programs | Library | A statement is a call of a function of the library (`LStmt`); running it reads the shapes of the argument objects, computes the shapes of the results by the functions of C42-C52, C78 and creates the operations.  `LBody.typed` computes all shapes from the text alone; by induction over the hierarchy both agree, so C80 and C82 apply.  `C83_library_shapes` (Props/LibShapes) states for every function which shapes it accepts and gives.  `C83_solve`, `C83_solve_constant_matrix`, `C83_solve_constant_side` (Props/LibrarySolve), `C83_exp_a`, `C83_inverse_functions` combine the equations of the operations that one call creates. | LibShapes, Library, LibrarySolve | proved |
| C84 | Programs of one model that run are built | OneModel | Every variable gets a rank: 0 for declared variables, the number of the last assignment for outputs assembled from parts, the number of the first statement that creates the same variable otherwise.  Variables that are the same have the same rank (the alias relation is analysed through the variable at the end of a chain of unary pluses), and the rank grows along statements, so there is no cycle; the other conditions of C74 are trivial for one model.  Two counterexamples show that the conditions are needed. | OneModel | proved |
| C85 | Submodels in with blocks mean the same as submodels in methods of their own | Inline | In the model of a program run, the statements of a `with self.create_submodel(...)` block are executed where the block is, on a model of their own; its submodels are defined later with the others (`Program`, `ProgramFull`, `Library`: `add true`).  The invariants of C73, C80, C82, C83 are proved for both kinds, so the conditions under which a program runs and the meaning of its representation depend on the text only; two texts that differ only in the kind of the submodels have the same conditions, solutions and declarations by induction over the text. | Inline | proved |
| C86 | Variables that nothing computes have the values the program gives them | Props/Defaults.lean | values of `create_input` and `declare_variable` are stored with the objects of Model/Program.lean; Spec/Defaults.lean says which value a variable has (`DefaultOf`); the proof follows the merging of automatically connected nodes (Props/Compile.lean `Kept`: which object of a class is kept) and the last declaration of a name in the graph of a model (Proofs/Declared.lean) | Defaults | proved |
| C87 | Values can be read by name from an executed representation | Props/Lookup.lean | the maps of Model/Connect.lean; `indexNodes_maps` (Proofs/Connect.lean) says what they contain, C32 that the map from targets to sources contains the connections, `follow_sources` that following it is the contraction; lifted through FlatQuotient (C61), Kept (C70) and `means_kept` (C73) to programs; Spec/Lookup.lean: `Leads`, `ValueByName` | Lookup | proved |
| C88 | The results of an implicit operation satisfy the residual equations written in its model | ImplicitProgram | The residual model is itself a program (C80, C82), run separately; `residualModel` is what `_generate_maps_for_implicit_operation` reads of it. Name lookup (C87), the meaning of programs (C82: existence and uniqueness of solutions) and the dependency check (soundness of `collect_terminals`) give the equivalence of the back end's contract and the equations; composition with C80 for the calling program. Assumption on back ends: the contract `SolvedBy` (values are written and read by name). Simplification: objects of the residual model are not among those of the calling program. | ImplicitProgram | proved |
| C89 | A model object used as several submodels behaves like as many separate models | Shared | `compileUses` numbers the calls of `construct_graphs_all_models` and gives every object one node per call (the code starts each call with an empty dictionary of nodes). The unfolded hierarchy satisfies the hypotheses of C70, C71 and C72 (automatically generated names occur once per use only: these theorems were weakened to allow that); solutions, joined variables, circles and validity are translated back to pairs of a path and an object. | Shared | proved |
| C90 | Variables of other models used as arguments are reported | Foreign | Weaker assumptions than C70 (`MixedOk`: no ownership of variables): invariants over the merging of graphs (no custom operation computes a variable of that name), over the contractions of the automatic merging (a node with the same promoted name remains) and over the indexing loop; lifted to several uses of models with the unfolding of C89. | Foreign | partial |
| C91 | The places of submodels and connections in a method do not influence results | Reorder | The relation `Reordered` exchanges neighbouring statements; its effect on every notion of the specification of C73/C74 (statements other than connections, submodels, promoted names, aliases, liveness, solutions, validity) is proved by induction; then C74 (existence and uniqueness of solutions) and C86 (values given in the program) are applied to both programs. | Reorder | partial |
| C92 | analytics=True changes nothing and hierarchy.txt describes the hierarchy | Report | The model with the files returns the model without files (by cases on the phases). Conversely every row is written without error: promoted namespaces are prefixes of paths (from C03 and the names without dots), so the check of `hierarchy.txt` never fails, and the recursion for the second file terminates (see C94). The sections are the walk through the models of `flatten`, related to the hierarchy by C70. | Report | partial |
| C93 | The promotion level in hierarchy.txt is the level the variable is promoted to | Report | Induction on the loop that writes the levels, for every prefix `q` of the path. | Report | partial |
| C94 | promotions_connections.txt shows which variables are the same variable | Report | `declared_to` and `connected_to` are computed exactly from the identification of C61 (which variables are merged by name, which by connection); they form a forest because connections without chains can be ranked by their last use; a block is the set below a root of the forest, which is a class of the identification. | Report | partial |
| C95 | Chains of connections: what is read of a variable | Chain | `merge_connections` contracts edges one connection after the other; by induction the final graph is the image of the merged graph under the composition of the substitutions target→source, as far as arguments of operations are concerned, while results stay at their own nodes (a removed target that is used again is re-created). Execution of this quotient is characterised through the topological order; then lifted to objects and to programs (an object has two values, copies read the read value). | Chain, ChainProgram | proved |
| C96 | Printing a variable (adding an output) changes nothing | Print | `Body.print` appends the statements of `print_var` to a method; `Replaced` puts the method back into the program. Promoted names, denotations, connections, equalities, solutions and given variables of the changed program are compared with those of the original one by induction over the path; the new variable feeds nothing and is the same as no other, so cycles are not added. Validity of the changed program follows, and the values by uniqueness of solutions (C74). The default values are also the same (Props/PrintDefaults.lean). | Print, PrintDefaults | proved |
| C97 | Promotion or connection: only which variables are joined matters | Join | `SameJoins` says that the equivalence generated by equal promoted names, connections and aliases is the same in both programs. A solution of one program is then a solution of the other (all equations but the equalities are those of the common statements), and solutions are unique (C74). For `promote or connect`, the promoted names of the two programs are compared by induction over the path: all are equal except `a`, which is `n.a` after the change for the variables of the submodel; the new connection joins the two names again. With clear default values the programs run from their default values agree too (Props/JoinDefaults.lean). | Join, JoinDefaults | proved |
| C98 | A model computes the same on its own and as part of a program | Modular | For the model at a path there is a map from the names its variables have in it to the promoted names they have in the main model (`Lifts`, by induction over the path); names in connections denote corresponding variables in both. So the restriction of a solution of the program is a solution of the model, and solutions are unique (C74). | Modular | proved |
| C99 | Rewriting one model's method so that it computes the same changes nothing else | Refactor | the method of the model at a path is exchanged (`Replaced`); the hierarchies of names are equal because the interface is; variables that are the same in one program have counterparts that are the same in the other (induction along the chain of sameness), so the given variables correspond; a solution of the new program, with the old method's values put in at the path, is a solution of the old one, and solutions are unique (C74); a cycle in the new program is cut at the variables with counterparts and mapped to a cycle in the old one; the need for the dependency condition is shown by a program that becomes circular. With clear default values, and the same values given to the inputs and to the last declarations of each name by both methods, the programs run from their default values agree too (Props/RefactorDefaults.lean) | Refactor, RefactorDefaults | proved |
| C100 | A value depends only on the given values and functions it is computed from | Depends | the variables that matter are finitely many and the program is not circular, so there is induction along the computation; in each step the two solutions (C74) agree because the statement's equation reads only its operands, its function and the parts assigned to it | Depends | proved |
| C101 | Consistent renaming of variables and submodels changes no value | Rename | every notion of the specification (promoted names, denotation, equality of variables, circularity, fine statements) is preserved by the renaming and, applied to its inverse, reflected; so validity and solutions (C74) are carried over | DefaultsSame, Rename | proved |
| C102 | Unused computations change nothing | Dead | the method with the extra statement looks the same in everything that matters (the new variables are not reached, and aliases among old variables are unchanged because the new ones can be mapped to old ones); programs that look alike have the same validity, given variables and solutions (C74) | Dead, DefaultsSame | proved |
| C103 | Combining programs without promotions: each part computes what it computes alone | Apart | The names of the submodel all begin with its name and a dot, no name of the rest does; so names, connections, sameness, dependencies and cycles of the combination split into those of the two parts; values by C74. | Apart, ApartDefaults | proved |
| C104 | Exactly the acceptable programs are accepted | Exact | Acceptance of every stage (promotions, connections, merging, sorting) is characterised in both directions: each error gives a violated condition (C06, C07, C10–C12, C92 …) and an acceptable program passes every check (as in C72); programs are compared with the hierarchies they build through the correspondence of C73. | Exact, ExactFull | proved |
| C105 | It does not matter how computations are distributed over models | Restructure | `Restructured` relates the computations of two programs; the values of the second, read through the correspondence, are a solution of the first, and solutions are unique (C74). Moving statements to a submodel is an instance: the statements are compared one by one (`Inlined`), names of the submodel are the names of the main model (C74), and a given variable of one is given in the other. | Restructure | proved |
| C106 | Values in the analytics report are the true ones within half a percent | FormatNumber | `format_number` is modelled on characters (rounding to even, digits, exponent, `str.replace`) for exact rational numbers; a grammar of decimal texts (`Stands`) is the specification. Proved: the three formats stand for the rounded number, the replacements keep it, rounding changes it by at most half a percent, and a text stands for one number. | FormatNumber | proved |
| C107 | Values of arguments reach the residual model of an implicit operation | PassArgs | `passArgs` models the loop that checks the arguments and stores their values in the declared variables of the residual model after its representation has been built. Spec/PassArgs.lean says which value a declaration has then. Proved from C86 with the place of the kept declaration (`GivenAt`), using that main's nodes come before those of its submodels in the flat graph (Proofs/Flatten.lean `mergeKids_prefix`). | PassArgs | partial |
| C108 | Listing and saving options | ParamsList | The model of C39 with `recordable`, the flag `_all_recordable`, `__iter__`, `__contains__`, `items` and `__getstate__`. Spec: the order of the options as a function of the history. Proved by induction over the calls, with the invariant that the flag is set only if every option may be saved. | ParamsList | proved |
| C109 | Which values must be given | Given | Spec: an input that is not the target of a connection; a declared variable; an input or registered output. Proved from the equations of a valid program: the names reached from a free input's name through connections are closed under being the same variable (a target has one connection, names denote one variable), and none of them is an output's name; conversely the value of C86 exists for every given variable. Free choice: nodes of variables are equal exactly if the variables are the same, so any consistent choice extends to values of the nodes. | Given | proved |
| C110 | What an optimiser optimises | Optimise | Spec: `DesignInput`, `NodeByName` (as `ValueByName` of C87), `SetBy` (the values an optimiser sets). Composition of C80 (acceptance), C81 (declarations), C86 (defaults), C87 (names) and C109 (free inputs are apart) over one representation. The condition on design variables in `XValid` is shown to follow from the others (induction over the hierarchy: the list of declarations has no repetitions). Without the condition on connections refuted by an example with two design variables at one node. | Optimise | proved |
| C111 | Merging keeps sizes | MergedSizes | Over the program text: aliases keep the shape (induction on aliasing), names and connections keep the number of elements (validity: `sizes`, `connections`, different names in a method), induction over the equivalence. In the representation: the node of a variable is an object of the same class (C73), whose shape is that of the text (invariant of execution); copies made for repeated arguments are nodes of their own. Examples: shapes (2,3) and (6,) are merged; a name declared twice with different sizes. | MergedSizes | proved |
| C112 | A connection only passes a value | JoinMore | Promotions, denotations and live variables do not depend on the last connection; every condition of validity follows for the shorter program (connections are issued in a sublist; a cycle without the connection is a cycle with it). Values: the values of each program solve the other's equations (C74, C97's transfer lemma), and solutions are unique given the values that must be given. Example: the two-model program of C97 without its last connection. | JoinMore | proved |
| C113 | An input can be declared instead | InputDeclared | `InputsDeclared` relates the methods of the two programs.  Declaring instead of creating an input only changes which variable of a set of joined variables stands first; on the variables that matter in the second program both programs join the same (`InputsDeclared.joins`), so the first's solution solves the second, and the solution of a valid program is unique (C74). | InputDeclared | proved |
| C114 | No element outside of an array is read | Inside | by induction on the dependencies: two solutions of the equations of the program, whose given values agree inside of their shapes, agree inside of the shapes at every variable that matters; for every operator by its validity (shapes of the arguments), for parts because the index expression is valid, for assembled outputs because the parts lie inside, for connections and names because joined variables have the same shape; the hypotheses are met by a program that reads parts of a vector | Inside | proved |
| C115 | A run depends on the values given last, not on what was done before | History | the steps of a session (set by name, run) change the values of the nodes of the representation; by induction on the steps: the node found by a name is the node of the variables it denotes (C87), variables have the same node exactly if they are the same variable, so given variables have the values given last; a run computes the one solution with these values (C74); what run does is the meaning of the representation, as in C61 | History | proved |
| C116 | Numbers do not influence what is accepted and what is built | Numbers | numbers and functions are left out of states and objects; every function of the model of running a program commutes with leaving them out, so that two runs of programs that differ only in numbers go the same way, by induction on the programs; the same for programs with custom and implicit operations, of which their sort is kept; compilation reads only the objects without values; both a family of programs for all numbers and the exception for zero divisors are given | Numbers | proved |
| C117 | Computing with a larger field of numbers (complex numbers) gives the same results | Embed | a ring homomorphism of fields is applied to all numbers of states and objects; every function of the model of running a program commutes with it, by induction on the programs; the exponents of the operations created are exponents of the program, 1 or -1, an invariant of running; the meaning of each operation and hence execution in any order commute with the homomorphism; every choice of powers and functions has an extension; for real and complex numbers the usual powers with integer exponents are shown to be one | Embed, EmbedComplex | proved |
| C118 | Values are differentiable (continuous) functions of the values given | Smooth | a property of functions of a parameter that the given values have and every statement keeps holds of all values: induction along the computation, with the unique solution of C74; differentiability and continuity are kept by every operator where it divides by no zero and raises no zero to a small power, by parts and by assembling outputs, and by functions by hypothesis | Smooth | proved |
| C119 | Linear programs compute linear functions | Linear | the same induction with linearity (a linear map of the parameter) and affinity; linear programs are defined by their operators, functions and unassigned elements | Linear | proved |
| C120 | Derivatives of computed values obey the rules of calculus, statement by statement | Tangent | differentiability of C118; differentiating each equation of the solution that execution computes gives the rules; uniqueness by induction along the computation | Tangent | proved |
| C121 | Programs with positive constants compute positive values and never divide by zero | Positive | positivity is a property that given values have and every statement keeps: induction along the computation with the solution of C74; then no divisor is zero, and C118 applies | Positive | proved |
| C122 | Results do not depend on the choice of units | Units | properties of two solutions, one for each choice of units, that may differ from variable to variable but not between variables that are the same: induction along the computation; powers of products with a positive factor are products of powers, for negative bases too | Units | proved |
| C123 | Programs built by the rules of convex programming compute convex functions; local minima are global | Convex | curvature is a property of functions of the parameter that depends on the variable but is the same for variables that are the same: induction along the computation with the solution of C74; local minima by Mathlib's theorem on convex functions | Convex | proved |

## What is not proved, and why: disagreements between the code and the properties

The properties are stated as a user would state them.  Where the code does not have the property, the
negation is proved of the model with a concrete witness (theorem names in the notes or with suffix
`_refuted`), and the part that does hold is proved with suffix `_partial`.  In every case below the part
that is missing is missing because the code does not have it, unless the note says otherwise.

* **C01** (Automatically generated names never collide; partial): Well-formedness proved for every counter. Distinctness is false of the code from 62*63^4 nodes on (C01_auto_names_collide); proved below that bound, with the exact collision set.
* **C04** (Promoted and unpromoted lookup are mutually inverse; proved): Dotted declared names, which the property excludes, break it: C04_dotted_names_break_inverse.
* **C06** (Variables merged by promotion have the same size; partial): False of the code for a source and a declared variable promoted from sibling submodels (C06_size_clash_accepted). Proved: declared variables among themselves; source and declared variable when one model contains the other.
* **C07** (Invalid promotes are rejected; partial): First half false of the code: promotes is validated against the parent's namespace (C07_unknown_promote_accepted); proved that listed names are visible in the parent. Second half (valid names never rejected) proved.
* **C11** (Names visible in a model can be used in its optimisation and connection declarations; partial): False of the code: a name visible in a submodel but promoted further up is rejected with KeyError (C11_visible_name_rejected). Proved for names that keep their name, and for all names visible in the main model.
* **C13** (Rebuilding the representation of a model gives the same objective; partial): False of the code: the build overwrites the declared objective name, and the second build raises KeyError (C13_rebuild_fails). Proved when the objective was declared under its name in the main model.
* **C14** (Output names are unique within a model; partial): Names of registered outputs: false of the code when one output object is registered with two models (C14_shared_output_duplicates_names); proved otherwise. No object twice and rejected calls have no effect: proved for all histories.
* **C15** (No local name denotes two sources; partial): False of the code: create_input and declare_variable do not check names (C15_clashing_names_accepted). Proved for histories in which those two calls use new names.
* **C17** (Connections and submodels of a model are recorded faithfully; partial): Connections proved in full. Submodel names: automatic names are not checked (C17_automatic_submodel_name_clashes); proved when user-given names do not have the form of automatic names.
* **C19** (Extracting elements selects exactly the elements NumPy would; partial): Proved for every key made of ints and slices (the documented keys). Tuple keys with other elements (e.g. Ellipsis) are silently accepted and can select the wrong element: C19_ellipsis_wrong_element.
* **C20** (Indexing twice with equal keys gives the same variable; partial): Proved for keys whose normalised form (per-axis start/stop/step with missing bounds filled in) agrees: same object, and different normal forms give different objects. The statement as worded (same slice => same object) is false of the code: C20_same_slice_two_objects exhibits x[0:3] vs x[0:3:1] and x[0:-1] vs x[0:2].
* **C22** (Indexed assignment writes every element at most once; partial): False as worded: x[-1] is recorded as index -1 (C22_negative_index) and a variable renamed between two assignments becomes a dependency twice (C22_renamed_variable). Proved: recorded indices of accepted assignments pairwise distinct and below the size for every history; in range and elements written at most once when no key is a negative int; dependencies are exactly the accepted variables in order, once each when no variable is renamed.
* **C23** (A rejected indexed assignment has no effect; partial): False as worded for overlapping assignments (C23_overlap_has_effect). Proved for every rejection without overlap; in all cases dependencies and earlier entries are unchanged.
* **C26** (The graph of a model contains everything its outputs depend on; proved): Under the naming hypothesis NamesOk (operations have names of their own and no object has the name of a submodel); C28 shows that the code does not ensure the latter.
* **C27** (Unused declared variables appear in the graph; partial): Does not hold of the code: C27_unused_declared_is_lost proves that an unused declared variable is never a node of the graph, in any model. Proved part: used declared variables are in the graph and the operations depend on them.
* **C28** (Unnamed submodels do not disturb the parent's operations; partial): Does not hold of the code: the automatic name of an unnamed submodel is always that of the next object created (C28_unnamed_submodel_name_taken), and an object with the name of a submodel is lost (C28_operation_lost, C28_addition_lost). Proved part: exactly when names clash, and that all operations survive when no needed object has the name of a submodel.
* **C29** (Flattening keeps every node and dependency and names it by its promoted name; partial): flat graph exact and promoted names for every variable known to promotion resolution; as stated false: unregistered outputs of custom operations in submodels keep the main model's namespace (C29_unregistered_output_captures)
* **C31** (The representative declared variable is the one closest to the root; partial): closest with main and its direct submodels counted as equally close; as stated false (C31_submodel_wins)
* **C32** (A connection replaces its target by its source; partial): for connections whose source is not the target of an earlier connection; as stated false: chain a->b, b->c (C32_chain_broken)
* **C34** (Residual dependencies are found exactly; partial): Exact for dependencies inside the residual model (any graph). Dependencies through submodels of the residual model are missed by the code: C34_submodel_dependency_missed.
* **C35** (States and residuals are paired one to one; partial): Everything except the shapes of the outputs returned for the states, which the code takes from the given value: C35_state_shape_changed, C35_duplicate_declared; C35_state_shapes_partial gives sufficient conditions.
* **C36** (Exposed outputs are returned in the order requested; partial): False of the code (C36_registration_order): registration order is used; proved when the expose list is in registration order, and as a permutation otherwise.
* **C37** (Declared derivatives expand wildcards completely; partial): Proved whenever both expansions are non-empty; false of the code for an empty wildcard or list (C37_empty_wildcard). C37_never_overwrites holds without exception.
* **C38** (Custom operation inputs and outputs are declared once; partial): Outputs can be declared twice (nouts counts both), an output can be redeclared as input, a failed add_input leaves the name declared (C38_not_once). What holds always, and sufficient conditions for the rest, are proved.
* **C39** (Options hold only valid values; partial): Proved for every history with successful declarations (failed declarations: C40). types=bool is checked by equality with True/False, so ints are accepted: C39_bool_accepts_int.
* **C40** (A failed option declaration leaves no invalid value behind; partial): False of the code for every invalid default: C40_invalid_default_stays. Proved for declarations rejected for other reasons, and for other options.
* **C43** (Reshaping and reordering preserve elements; partial): reshape does not hold for negative sizes: (-2, -3) is accepted for 6 elements (C43_reshape_refuted); proved for non-negative sizes; transpose and reorder_axes proved in full.
* **C44** (Expansion shapes are consistent; partial): Proved for the shapes the function can handle; refuted for output rank above 10, where the ten-letter alphabet always raises IndexError (C44_refuted).
* **C46** (Products accept only conformable arguments; partial): dot, cross, outer fully characterised; matmat, matvec, inner accept non-conformable shapes (C46_refuted).
* **C47** (Reductions have the shape of NumPy reductions; partial): Proved for axes of the array; refuted for out-of-range axes of vectors, int axes of sum, all axes of average/pnorm (C47_refuted).
* **C48** (Models are defined once, top down; partial): Proved for all histories of successful builds with arbitrary sharing and cycles; false after a failed build (define is run again) and for models edited after a build (C48_refuted).
* **C49** (Combining operations preserves results; partial): Proved when what is computed between two unary elementwise operations has no other use; refuted otherwise: a variable used by a third operation is removed (C49_refuted).
* **C50** (Compute strings denote the operation; partial): False as stated (C50_linear_refuted, C50_power_refuted): coefficients strictly between -1 and 1 are dropped, names run together when a negative term precedes the first positive one and the constant is 0, and all-zero combinations give no assignment. C50_linear_iff_partial characterises exactly when the text of a linear combination with scalar literals is right; it covers everything the operators create. Array literals are not modelled.
* **C52** (Finite differences along an axis; partial): The property is false: diff never succeeds for a non-empty axis, whatever the history of the array (C52_refuted).
* **C53** (The size of a variable is the number of its elements; partial): False for create_output (C53_concatenation_size: size is always 1); proved for inputs, declared variables and outputs of operations.
* **C55** (Constant arrays in arithmetic are combined as in NumPy; partial): False as stated (C55_refuted): the shape of a constant array is never compared with that of the variable. Proved for arrays that broadcast to the variable's shape.
* **C56** (reorder_axes takes a permutation of the axis labels; partial): Every permutation is accepted; refuted: 'ij->i' and 'ij->ii' are accepted.
* **C57** (expand respects the axis labels; partial): Refuted: 'ab->ba' keeps the given shape and unlabelled axes are accepted; the part that holds is proved.
* **C58** (einsum rejects inconsistent operands; partial): Refuted: inconsistent sizes, unknown output labels and superfluous operands are accepted.
* **C59** (Linear algebra functions accept only conformable arguments; partial): eigenvalues, solve, rotmat proved; sparsematmat accepts three axes, quatrotvec any last axes (C59_refuted).
* **C60** (Dead code removal removes exactly the dead code; partial): Live nodes are kept; but nothing is ever removed, whatever the graph (C60_unchanged), so dead nodes stay (C60_refuted).
* **C63** (influences reports exactly the dependencies of the outputs on the inputs; partial): Proved for registered outputs that no operation uses, and for the second dictionary; the first dictionary contains nodes instead of names (C63_output_map_has_no_names) and outputs that are used by an operation are missing from both (C63_used_output_missing).
* **C66** (The predicted parallel computation time is that of the critical path; partial): The code returns the number of edges of a longest path, which is twice the number of operations on it (C66_twice_critical_path_partial, C66_not_number_of_operations).
* **C67** (Bracketed search: exactly one bracket per state, and bracket variables are dependencies; partial): Acceptance, stored brackets, dependencies and outputs proved; the shape of a bracket is not compared with the shape of its state (C67_bracket_shape_unchecked).
* **C68** (Default values given for states are honoured; partial): False of the code: numbers dropped, all defaults dropped with brackets, arrays rejected with IndexError; proved what is recorded.
* **C75** (Solver options are exactly those documented for the class, checked and kept; partial): Proved for every class, keyword arguments and later assignments, with what 'accepts' means spelled out. Missing from the English: a bool option accepts every number equal to 0 or 1 (C75_bool_accepts_numbers), and a range accepts nan (C75_range_accepts_nan). Infinite floats and objects with their own comparison are not modelled.
* **C76** (Inverse hyperbolic functions invert the hyperbolic functions; partial): Proved for arsinh (all x), arcosh (x >= 1), artanh (|x| < 1), arcoth (|x| > 1), for every solution of every program, over the real numbers. False for arsech: for 0 < x <= 1 the result is right only at x = 1 (C76_arsech_refuted); arcsch returns None (C76_arcsch_refuted).
* **C78** (exp_a and bessel accept what they document, keep the shape, and the text of exp_a is the power; partial): Acceptance and shapes proved exactly. The text of exp_a is right for numbers not below zero only: for a negative base Python reads -(2**x) (C78_exp_a_text_negative), for arrays and variables the text is no expression (C78_exp_a_text_objects). bessel has no text.
* **C79** (body_313 builds the 3-1-3 rotation matrix; partial): Proved for all programs and real angles: the product of the three axis rotations, orthogonal, determinant 1. Partial because angles of the default shape (1,) are rejected (C79_scalar_angles_rejected): only angles of shape (1, 1) and outputs with two axes of at least three elements are accepted (C79_accepted_shapes_partial); the axes argument and check_axes have no effect in the code.
* **C90** (Variables of other models used as arguments are reported; partial): Proved for names unknown in the using model (C90_unknown_rejected_partial). The full claim is false of the code: a model with a variable of the same name captures the argument silently (C90_foreign_captured).
* **C91** (The places of submodels and connections in a method do not influence results; partial): proved for connections that do not form chains; refuted for chains (C91_order_of_connections_matters), and for variables with two given values (C91_order_of_values_matters)
* **C92** (analytics=True changes nothing and hierarchy.txt describes the hierarchy; partial): Proved in full where the connections do not form chains (NoChain). The full statement is false of the code: C92_cycle_fails.
* **C93** (The promotion level in hierarchy.txt is the level the variable is promoted to; partial): Proved for variables not promoted to the main model (q > 0). The full statement is false of the code: C93_main_level_not_shown.
* **C94** (promotions_connections.txt shows which variables are the same variable; partial): Proved where the connections do not form chains (NoChain); with chains a report may not be written at all (C92_cycle_fails).
* **C107** (Values of arguments reach the residual model of an implicit operation; partial): The full statement is false: a value that a direct submodel of the residual model gives to its declaration of an argument hides the value passed (C107_value_of_submodel_wins). C107_passed_values_partial says which value every given variable has; C107_argument_value that an argument has its value if no input and no value in a direct submodel overrides it.
* **C111** (Merging keeps sizes; proved): The hypothesis on repeated declarations is needed (C111_redeclared_size); shapes are not kept (C111_shapes_may_differ).
* **C112** (A connection only passes a value; proved): a connection at the end of a method (the order of connections and statements: C91, C96)
* **C113** (An input can be declared instead; proved): both programs are assumed valid: declaring an input may leave a promoted name or a connection without a source
* **C114** (No element outside of an array is read; proved): All valid programs whose joined variables have equal shapes (the code only demands equal sizes, C111; what a connection of differently shaped arrays means is left to the back end).
* **C115** (A run depends on the values given last, not on what was done before; proved): All valid programs and all histories. SimulatorBase leaves run to the back end: it is modelled as executing the representation (C61).
* **C116** (Numbers do not influence what is accepted and what is built; proved): All programs (Program); NumPy arrays as divisors may contain zeros (infinity in NumPy), only the number zero raises.
* **C117** (Computing with a larger field of numbers (complex numbers) gives the same results; proved): Programs of Verif/Model/Program.lean (without custom and implicit operations); numbers are elements of fields, without rounding.
* **C118** (Values are differentiable (continuous) functions of the values given; proved): Programs of Verif/Model/Program.lean (without custom and implicit operations); real numbers (elements of fields), without rounding.
* **C119** (Linear programs compute linear functions; proved): Programs of Verif/Model/Program.lean (without custom and implicit operations); real numbers (elements of fields), without rounding.
* **C120** (Derivatives of computed values obey the rules of calculus, statement by statement; proved): Programs of Verif/Model/Program.lean (without custom and implicit operations); real numbers, without rounding.
* **C121** (Programs with positive constants compute positive values and never divide by zero; proved): Programs of Verif/Model/Program.lean (without custom and implicit operations); real numbers, without rounding, overflow or underflow.
* **C122** (Results do not depend on the choice of units; proved): Programs of Verif/Model/Program.lean (without custom and implicit operations); real numbers, without rounding; powers of real numbers as in Mathlib (NumPy gives nan for negative bases and non-integer exponents).
* **C123** (Programs built by the rules of convex programming compute convex functions; local minima are global; proved): Programs of Verif/Model/Program.lean (without custom and implicit operations); real numbers, without rounding.

## Trusted base

* **Lean's kernel** (Lean 4.33.0) and the Mathlib modules imported (source in /app/mathlib4-4.33.0).
* **Axioms.** `#print axioms` was run on every theorem of `MANIFEST.json`: each depends on a subset of
  `propext`, `Classical.choice`, `Quot.sound`; none of our own, no compiled evaluation
  (`tools/axioms.sh` repeats the check).
* **The reading of the code.**  Nothing here is extracted from the Python text: the tie between the
  model and /repo is the citation on each definition and the mutation experiments below.
* **Behaviour of libraries, assumed as documented:**
  - Python: `dict` iterates in insertion order; `slice`, `range`, `str.isalnum`, `str.rsplit`, integer
    arithmetic; sets iterate in an arbitrary order; objects that do not define `__eq__`/`__hash__`
    (csdl's nodes) are compared by identity.
  - networkx: `DiGraph.add_node/add_edge(s)/remove_node(s)/successors/predecessors` keep insertion
    order and have set semantics; `contracted_nodes(G, u, v, self_loops=False, copy=False)` replaces `v`
    by `u` in every edge and drops the loops; `topological_sort` is Kahn's algorithm by generations and
    raises iff the graph has a cycle; `simple_cycles` is only used in error messages; `ancestors`,
    `dag_longest_path_length` as documented.
  - NumPy: `prod`, `ravel_multi_index` in row-major order (raising when an index is out of range),
    `meshgrid(indexing='ij')`, `arange`, broadcasting; real arithmetic is exact (see below).
* **Idealisations.**  Floating-point numbers are elements of an arbitrary (ordered) field; integers and
  sizes are unbounded; memory and time are not modelled.

## Exactly what is modelled

| code | model |
|---|---|
| `utils/gen_hex_name`, `prepend_namespace`, `check_banned_chars` | `Names` |
| `lang/model.py` data, `lang/subgraph.py` | `Tree`, `ModelApi`, `Compile` |
| `lang/model.py`: `add_objective`, `add_design_variable`, `add_constraint`, `connect`, `declare_variable`, `create_input`, `create_output`, `register_output`, `add` | `ModelApi` (histories of calls on any number of models and objects) |
| `rep/resolve_promotions.py`, `rep/collect_locally_defined_variables.py`, `utils/check_duplicate_keys`, `utils/find_keys_with_matching_values`, `utils/find_names_with_matching_shapes`, `create_reverse_map` | `Promotions` |
| `rep/collect_connections.py`, `collect_design_variables.py`, `collect_constraints.py`, `find_objective.py`, `utils/find_promoted_name.py`, name lookup of `sim/simulator_base.py` | `Collect` |
| `lang/variable.py` indexing, `lang/concatenation.py`, `operations/decompose.py`, `utils/slice_to_list.py` | `Indexing` |
| `lang/variable.py` operators, `lang/standard_operation.py`, `operations/linear_combination.py`, `power_combination.py` | `Arith`, `ComputeString` |
| `lang/variable.py`, `input.py`, `output.py`, `declared_variable.py` constructors, `utils/get_shape_val.py`, `check_default_val_type.py` | `ShapeVal` |
| `lang/custom_operation.py`, `std/custom.py` | `CustomOp` |
| `utils/parameters.py` | `Params` |
| `solvers/*.py`: `__init__` and `_declare_options` of every class | `Solvers` |
| `lang/define_models_recursively.py` | `Define` |
| `rep/construct_unflat_graph.py` (`construct_graphs_all_models` and below) | `BuildGraph`, `Compile` |
| `rep/construct_flat_graph.py` (`construct_flat_graph`, `merge_graphs`, `merge_automatically_connected_nodes`), `rep/get_nodes.py` | `Flatten` |
| `rep/merge_connections.py` | `Connect` |
| `rep/sort_nodes_nx.py` (`flat=True`), networkx graphs | `Graph` |
| `rep/graph_representation.py`: `__init__` as a whole | `Compile` (from objects), `Connect`/`Flatten` (from graphs) |
| `rep/graph_representation.py`: `influences`, counts, `predict_computation_time`, `serial_cost`; `rep/create_graph_with_operations_as_edges.py`, `rep/get_registered_outputs_from_graph.py` | `Analysis` |
| `opt/combine_operations.py`, `opt/remove_dead_code.py` | `Combine` |
| `lang/implicit_operation_factory.py`, `implicit_operation.py`, `bracketed_search_operation.py`, `Model._implicit_operation`, `_bracketed_search`, `_generate_maps_for_implicit_operation`, `_return_implicit_outputs`, `utils/collect_terminals.py` | `Implicit`, `Bracket` |
| `std/`: reshape, transpose, reorder_axes, expand, einsum, einsum_new_api (+ `utils/einsum_utils.py`, `reorder_axes_utils.py`, `decompose_shape_tuple.py`) | `Axes` |
| `std/`: matmat, matvec, dot, cross, outer, inner, sum, max, min, average, pnorm, eigenvalues, solve_linear, sparsematmat, quatrotvec, rotmat, diff | `StdShapes` |
| `std/`: the elementwise functions, inverse hyperbolic functions, exp_a, bessel; `operations/` of the same names with their texts | `Elementwise` |
| `std/rotations/body/body_313.py` | `Rotations` |
| `utils/get_bspline_mtx.py` | `BSpline` |
| `lang/` as a whole: define methods as programs (operators, functions, parts `x[key]`, inputs, outputs, outputs assembled from parts `y[key] = x`, connections, submodels) and the objects they create; repeated arguments of operations; `define_models_recursively` | `Program` |
| `std/custom.py`, `Model._implicit_operation`, `add_design_variable`, `add_constraint`, `add_objective` as statements of programs | `ProgramFull` |
| `Model._generate_maps_for_implicit_operation` on a model defined by a program | `ImplicitProgram` |
| `Model.create_submodel`, `InlineModel`: submodels in `with` blocks | `Program`, `ProgramFull`, `Library` (only the model of the block is used in the block; an exception of the block takes precedence over one of `self.add` in the `finally` clause) |
| values given to `create_input`, `declare_variable` (`val`, `default_val`), as they arrive in the variables of the representation | `Program`, `Spec/Defaults` (values are functions on element positions: shapes and scalars of `val` are in `ShapeVal`) |
| `lang/node.py` `Node._count` across the programs of one process | `Session` (programs one after the other, representations built at the end; building a representation changes no object the model of it reads) |
| `std/__init__.py`: calls of the functions of the library in `define` methods | `Library` (arguments are variables; constant matrices by their shapes and a number for their elements; parameters without effect on shapes and without checks are left out) |
| `rep/construct_flat_graph.py` with `analytics=True`: `write_hierarchy_info_to_file`, `write_connection_and_promotions_to_file`, the attributes `declared_to`, `connected_to` | `Report` (rows as records; without the average value and the object number) |
| hierarchies that use one `Model` object several times | `Shared` (one node per object and use; what the nodes of different uses share are names, roles, shapes and default values, which nothing changes) |
| `Model.print_var` | `Print` (as the last statement of a method; the name of the new output is arbitrary) |
| promotion versus connection (no code of its own: two programs) | `Join` (the change is made in the main model; the connection is its last statement) |
| a model alone and in a program (no code of its own: two programs) | `Modular` |
| another method for one model (no code of its own: two programs) | `Refactor` |
| what a value depends on (no code of its own: two executions) | `Depends` |
| other names for variables and submodels (no code of its own: two programs) | `Rename` |
| unused computations (no code of its own: two programs) | `Dead` (as the last statement of a method) |
| combinations of programs, nothing promoted (no code of its own: `Model.add`) | `Apart` (`promotes=[]`, as the last statement of the main method) |
| exactly which hierarchies and programs are accepted (`rep/graph_representation.py` 60–220 and the stages it calls) | `Exact` (no new model; both directions of acceptance, for sets iterated in any order) |
| the same computations distributed over models in different ways | `Restructure` (no new model; the moved statements contain no submodels, and every variable of the two methods matters in the second theorem) |
| the value column of the report (`utils/format_number.py` 1–14, `rep/construct_flat_graph.py` 619–638) | `FormatNumber` (numbers are exact rationals: no nan, infinities, negative zero; the rounding of `np.average` is not modelled) |
| values passed to the residual model of an implicit operation (`lang/model.py` 997–1014) | `ImplicitProgram` (`passArgs`; values are those of the argument objects when the operation is called) |

## What is not modelled

* Values inside NumPy (rounding, dtype, NaN), plotting, printed text of messages, warnings, the
  layout of the analytics files (their contents are in `Report`), time and memory.
* Back ends: `sim/simulator_base.py` except reading and setting by name (`Collect`, `Lookup`, `History`) consists of stubs that raise
  `NotImplementedError`; code generation is outside /repo.
* `check_compilation` block of `GraphRepresentation.__init__` (a constant `False` disables it), and the
  methods of `GraphRepresentation` that read attributes which are never set (`unflat_graph`,
  `_variable_nodes`, `A`, …) and therefore always raise `AttributeError`.
* Code that nothing calls and that cannot run: `rep/check_for_promotion_induced_cycles.py` (undefined
  names), `rep/set_default_values.py` (missing attribute), `rep/merge_promoted_nodes.py`,
  `std/if_else.py` (commented out), `rep/collect_connections2.py`, `rep/add_dependencies_due_to_connections.py`,
  `rep/add_model_var_dependencies.py`, `rep/collect_promoted_variable_names.py`.
* Attributes that only back ends read: `rep_node`, `declared_to`, `connected_to`, units, descriptions.
* What a back end does with a negative int as key of an assignment (`y[-1] = x`), which csdl records as the
  index -1 (C22): in the meaning of programs (C73) such an index is no element of the output.
* See the end of the table above for what later modules added.

## Testing the theorems against wrong programs

`tools/mutate.py` applies an edit to a scratch copy of the model (a wrong boundary, a missed case, a
swapped argument, a dropped update), rebuilds everything that depends on it with every broken proof
reported but not trusted (`tools/Forge.lean.txt`), and lists the property theorems whose proofs no longer
go through.  Every attempt is one line of `seeded/LOG.jsonl`: definition, edit, claim it breaks,
theorems that failed, theorems tightened.  An edit that no theorem notices although it breaks the English
claim is a weak statement, and was tightened: e.g. the acceptance theorems (`…_accepts`, `…_accepted_iff`)
and the soundness of each error (`C06_shape_error_sound`, `C12_objective_errors`, …) were added after edits
that made the program reject too much survived.
