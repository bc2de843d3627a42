{
 "C01": [
  "Names",
  "base-63 expansion with its prefix; injective below 62*63^4, exact collision set above"
 ],
 "C02": [
  "Names",
  "joining with dots is injective on dot-free names (induction on the path)"
 ],
 "C03": [
  "Promotions",
  "mutual induction over the tree of models against the inductive predicate `PromotedAs`"
 ],
 "C04": [
  "Promotions",
  "from C03: every variable has exactly one promoted name"
 ],
 "C05": [
  "Promotions",
  "invariant of the fold over submodels"
 ],
 "C06": [
  "Promotions",
  "shape checks carried through the fold; witness for the missing one"
 ],
 "C07": [
  "Promotions",
  "case analysis of the three kinds of promotes; witness"
 ],
 "C08": [
  "Promotions",
  "counting: promoted + not promoted = all"
 ],
 "C09": [
  "Collect",
  "state machine of get/set on the maps of C04"
 ],
 "C10": [
  "Collect",
  "induction over the tree; spec: connection in a model at a path"
 ],
 "C11": [
  "Collect",
  "induction over the tree; two lookups, the second with the namespace"
 ],
 "C12": [
  "Collect",
  "induction over the tree with the accumulated dictionary"
 ],
 "C13": [
  "Collect",
  "two builds in sequence; the first one changes the declared name"
 ],
 "C14": [
  "ModelApi",
  "invariant over histories of calls"
 ],
 "C15": [
  "ModelApi",
  "invariant over histories of calls"
 ],
 "C16": [
  "ModelApi",
  "invariant over histories of calls; acceptance iff"
 ],
 "C17": [
  "ModelApi",
  "invariant over histories of calls; acceptance iff"
 ],
 "C18": [
  "Indexing",
  "spec: Python slice indices; case analysis of missing/negative bounds, arithmetic progressions"
 ],
 "C19": [
  "Indexing",
  "row-major position of the selected multi-indices; spec: NumPy selection"
 ],
 "C20": [
  "Indexing",
  "invariant of the cache over histories of indexing"
 ],
 "C21": [
  "Indexing",
  "induction over the shape: bijection with [0, size)"
 ],
 "C22": [
  "Indexing",
  "invariant of the concatenation over histories of assignments"
 ],
 "C23": [
  "Indexing",
  "step analysis; witness for overlapping assignments"
 ],
 "C24": [
  "Graph",
  "Kahn by generations: loop invariant, measure; success iff acyclic"
 ],
 "C25": [
  "Graph",
  "operations with arbitrary semantics: execution in any topological order gives the unique solution"
 ],
 "C26": [
  "BuildGraph",
  "work-list invariant: nodes and edges are exactly those reachable from the outputs"
 ],
 "C27": [
  "BuildGraph",
  "witness for every model; used declared variables by C26"
 ],
 "C28": [
  "BuildGraph",
  "name table invariant; exact condition for a clash; witnesses"
 ],
 "C29": [
  "Flatten",
  "induction over the tree of graphs"
 ],
 "C30": [
  "Flatten",
  "fold of contractions = quotient of the graph by promoted name"
 ],
 "C31": [
  "Flatten",
  "fold: minimum of the depth; witness that depth 0 and 1 are confused"
 ],
 "C32": [
  "Connect",
  "fold of contractions along connections; witness for chains"
 ],
 "C33": [
  "Connect",
  "in-degree invariant through both merging phases"
 ],
 "C34": [
  "Implicit",
  "depth-first search invariant: terminals = reachable leaves"
 ],
 "C35": [
  "Implicit",
  "pairing of the two lists; shapes"
 ],
 "C36": [
  "Implicit",
  "filter of the registration order; permutation"
 ],
 "C37": [
  "CustomOp",
  "recursion over of x wrt"
 ],
 "C38": [
  "CustomOp",
  "invariant over histories of declarations"
 ],
 "C39": [
  "Params",
  "invariant over histories of option calls"
 ],
 "C40": [
  "Params",
  "state after a failed declaration"
 ],
 "C41": [
  "Arith",
  "heap of variables and operations, evaluation over a field; every operator; induction over expression trees"
 ],
 "C42": [
  "Arith",
  "argument deduplication: distinct objects, same values"
 ],
 "C43": [
  "Axes",
  "bijection of index sets"
 ],
 "C44": [
  "Axes",
  "characterisation of acceptance and shape"
 ],
 "C45": [
  "Axes",
  "spec: size of a label; letters allotted by the new API are injective"
 ],
 "C46": [
  "StdShapes",
  "characterisation of acceptance against conformability"
 ],
 "C47": [
  "StdShapes",
  "comparison with the shape of NumPy reductions"
 ],
 "C48": [
  "Define",
  "heap of model objects with sharing and cycles; histories of builds; log of define calls"
 ],
 "C49": [
  "Combine",
  "semantics of operation graphs; composition of operations; witness"
 ],
 "C50": [
  "ComputeString",
  "semantics of the token string against the linear/power combination"
 ],
 "C51": [
  "ShapeVal",
  "case analysis of the argument kinds"
 ],
 "C52": [
  "StdShapes",
  "diff through Indexing: always rejected"
 ],
 "C53": [
  "ShapeVal",
  "product of the shape for each constructor"
 ],
 "C54": [
  "CustomOp",
  "matching of arguments and declared inputs; iff"
 ],
 "C55": [
  "Arith",
  "array constants broadcast to the shape of the variable"
 ],
 "C56": [
  "Axes",
  "labels and permutations"
 ],
 "C57": [
  "Axes",
  "labels"
 ],
 "C58": [
  "Axes",
  "rank check; witnesses"
 ],
 "C59": [
  "StdShapes",
  "characterisation of acceptance"
 ],
 "C60": [
  "Combine",
  "sort returns all nodes, so nothing is removed"
 ],
 "C61": [
  "Connect",
  "from C24, C25, C29, C30, C32: the order executes to the unique solution of the flat model"
 ],
 "C62": [
  "BSpline",
  "recurrence in place = Cox–de Boor basis on clamped knots; partition of unity, positivity, end points"
 ],
 "C63": [
  "Analysis",
  "ancestors of a graph; spec: dependency path"
 ],
 "C64": [
  "Analysis",
  "paths through operations"
 ],
 "C65": [
  "Analysis",
  "double counting of edges"
 ],
 "C66": [
  "Analysis",
  "longest path in a bipartite graph"
 ],
 "C67": [
  "Bracket",
  "acceptance iff; stored brackets"
 ],
 "C68": [
  "Bracket",
  "what is recorded; witnesses"
 ],
 "C69": [
  "Bracket",
  "case analysis"
 ],
 "C70": [
  "Compile",
  "composition of BuildGraph, Promotions, Flatten, Connect, Graph for a tree of model objects; spec: values that solve the model (equations of the operations + equality of variables identified by name or connection); existence, uniqueness, result of execution"
 ],
 "C71": [
  "Compile",
  "as C70: error iff the dependencies through operations, names and connections are cyclic"
 ],
 "C72": [
  "Compile",
  "as C70: a well-formed hierarchy is never rejected"
 ],
 "C73": [
  "Program",
  "model of define methods as programs and of the objects they create (invariants by induction over statements and hierarchy); spec: the statements as equations, live variables, sameness by name/connection/unary plus/equal parts; parts of outputs assigned as equations between elements; composed with C70"
 ],
 "C74": [
  "Program",
  "spec: conditions on the text of the program (StmtOk, MethodOk, ValidProgram); running iff by induction over statements with the invariant of C73 and the theorem that two variables are one object exactly if they are aliases; acceptance by mapping valid programs to valid hierarchies (C72), circles of objects to circles of the program; combined with C73"
 ],
 "C75": [
  "Solvers",
  "the calls of `_declare_options` of each class, with those of its superclasses, are run on the model of `Parameters`; the result is compared line by line with a table of options (Spec/Solvers) by evaluation in the kernel, and an invariant carries it through any sequence of assignments"
 ],
 "C76": [
  "Elementwise",
  "the six functions as the statements they execute in the program language of C73; for any solution of any program containing them the equations are composed to a formula over the reals, then Mathlib's arsinh/arcosh/artanh; for arsech an algebraic equation is solved"
 ],
 "C77": [
  "Elementwise",
  "texts as tokens; a small reader of the two forms with NumPy's functions as functions of real numbers; case by case"
 ],
 "C78": [
  "Elementwise",
  "case analysis; the reader of C77 extended with powers and the precedence of unary minus"
 ],
 "C79": [
  "Rotations",
  "the statements `body_313` executes, as part of an arbitrary program; each entry of a solution is evaluated by induction on the expression, and compared with the product of the axis rotations over the reals; the accepted shapes from the exact conditions of C74"
 ],
 "C80": [
  "ProgramFull",
  "programs with custom operations (their own `define` methods run first), implicit operations and declarations as further statements; written with calls and registrations they are programs of C73/C74, and running both gives the same objects; the compiler ignores declarations (by induction over the hierarchy) except for the tables of C12"
 ],
 "C81": [
  "ProgramFull",
  "from C12 applied to the model the program creates, and the statements of each method read off the tables of the model"
 ],
 "C82": [
  "Session",
  "The model of a program run (C73, C80) starts from the objects that exist already (`runFrom`, `xrunFrom`); a session (`runSession`) runs programs one after the other.  The invariants of C73 and C80 are proved for all objects that exist before and after; `C82_no_interference` compares the representation built at the end of a session with the one of the program alone, through the uniqueness of solutions."
 ],
 "C83": [
  "Library",
  "A statement is a call of a function of the library (`LStmt`); running it reads the shapes of the argument objects, computes the shapes of the results by the functions of C42-C52, C78 and creates the operations.  `LBody.typed` computes all shapes from the text alone; by induction over the hierarchy both agree, so C80 and C82 apply.  `C83_library_shapes` (Props/LibShapes) states for every function which shapes it accepts and gives.  `C83_solve`, `C83_solve_constant_matrix`, `C83_solve_constant_side` (Props/LibrarySolve), `C83_exp_a`, `C83_inverse_functions` combine the equations of the operations that one call creates."
 ],
 "C84": [
  "OneModel",
  "Every variable gets a rank: 0 for declared variables, the number of the last assignment for outputs assembled from parts, the number of the first statement that creates the same variable otherwise.  Variables that are the same have the same rank (the alias relation is analysed through the variable at the end of a chain of unary pluses), and the rank grows along statements, so there is no cycle; the other conditions of C74 are trivial for one model.  Two counterexamples show that the conditions are needed."
 ],
 "C85": [
  "Inline",
  "In the model of a program run, the statements of a `with self.create_submodel(...)` block are executed where the block is, on a model of their own; its submodels are defined later with the others (`Program`, `ProgramFull`, `Library`: `add true`).  The invariants of C73, C80, C82, C83 are proved for both kinds, so the conditions under which a program runs and the meaning of its representation depend on the text only; two texts that differ only in the kind of the submodels have the same conditions, solutions and declarations by induction over the text."
 ],
 "C86": [
  "Props/Defaults.lean",
  "values of `create_input` and `declare_variable` are stored with the objects of Model/Program.lean; Spec/Defaults.lean says which value a variable has (`DefaultOf`); the proof follows the merging of automatically connected nodes (Props/Compile.lean `Kept`: which object of a class is kept) and the last declaration of a name in the graph of a model (Proofs/Declared.lean)"
 ],
 "C87": [
  "Props/Lookup.lean",
  "the maps of Model/Connect.lean; `indexNodes_maps` (Proofs/Connect.lean) says what they contain, C32 that the map from targets to sources contains the connections, `follow_sources` that following it is the contraction; lifted through FlatQuotient (C61), Kept (C70) and `means_kept` (C73) to programs; Spec/Lookup.lean: `Leads`, `ValueByName`"
 ],
 "C88": [
  "ImplicitProgram",
  "The residual model is itself a program (C80, C82), run separately; `residualModel` is what `_generate_maps_for_implicit_operation` reads of it. Name lookup (C87), the meaning of programs (C82: existence and uniqueness of solutions) and the dependency check (soundness of `collect_terminals`) give the equivalence of the back end's contract and the equations; composition with C80 for the calling program. Assumption on back ends: the contract `SolvedBy` (values are written and read by name). Simplification: objects of the residual model are not among those of the calling program."
 ],
 "C89": [
  "Shared",
  "`compileUses` numbers the calls of `construct_graphs_all_models` and gives every object one node per call (the code starts each call with an empty dictionary of nodes). The unfolded hierarchy satisfies the hypotheses of C70, C71 and C72 (automatically generated names occur once per use only: these theorems were weakened to allow that); solutions, joined variables, circles and validity are translated back to pairs of a path and an object."
 ],
 "C90": [
  "Foreign",
  "Weaker assumptions than C70 (`MixedOk`: no ownership of variables): invariants over the merging of graphs (no custom operation computes a variable of that name), over the contractions of the automatic merging (a node with the same promoted name remains) and over the indexing loop; lifted to several uses of models with the unfolding of C89."
 ],
 "C91": [
  "Reorder",
  "The relation `Reordered` exchanges neighbouring statements; its effect on every notion of the specification of C73/C74 (statements other than connections, submodels, promoted names, aliases, liveness, solutions, validity) is proved by induction; then C74 (existence and uniqueness of solutions) and C86 (values given in the program) are applied to both programs."
 ],
 "C92": [
  "Report",
  "The model with the files returns the model without files (by cases on the phases). Conversely every row is written without error: promoted namespaces are prefixes of paths (from C03 and the names without dots), so the check of `hierarchy.txt` never fails, and the recursion for the second file terminates (see C94). The sections are the walk through the models of `flatten`, related to the hierarchy by C70."
 ],
 "C93": [
  "Report",
  "Induction on the loop that writes the levels, for every prefix `q` of the path."
 ],
 "C94": [
  "Report",
  "`declared_to` and `connected_to` are computed exactly from the identification of C61 (which variables are merged by name, which by connection); they form a forest because connections without chains can be ranked by their last use; a block is the set below a root of the forest, which is a class of the identification."
 ],
 "C95": [
  "Chain",
  "`merge_connections` contracts edges one connection after the other; by induction the final graph is the image of the merged graph under the composition of the substitutions target→source, as far as arguments of operations are concerned, while results stay at their own nodes (a removed target that is used again is re-created). Execution of this quotient is characterised through the topological order; then lifted to objects and to programs (an object has two values, copies read the read value)."
 ],
 "C96": [
  "Print",
  "`Body.print` appends the statements of `print_var` to a method; `Replaced` puts the method back into the program. Promoted names, denotations, connections, equalities, solutions and given variables of the changed program are compared with those of the original one by induction over the path; the new variable feeds nothing and is the same as no other, so cycles are not added. Validity of the changed program follows, and the values by uniqueness of solutions (C74). The default values are also the same (Props/PrintDefaults.lean)."
 ],
 "C97": [
  "Join",
  "`SameJoins` says that the equivalence generated by equal promoted names, connections and aliases is the same in both programs. A solution of one program is then a solution of the other (all equations but the equalities are those of the common statements), and solutions are unique (C74). For `promote or connect`, the promoted names of the two programs are compared by induction over the path: all are equal except `a`, which is `n.a` after the change for the variables of the submodel; the new connection joins the two names again. With clear default values the programs run from their default values agree too (Props/JoinDefaults.lean)."
 ],
 "C98": [
  "Modular",
  "For the model at a path there is a map from the names its variables have in it to the promoted names they have in the main model (`Lifts`, by induction over the path); names in connections denote corresponding variables in both. So the restriction of a solution of the program is a solution of the model, and solutions are unique (C74)."
 ],
 "C99": [
  "Refactor",
  "the method of the model at a path is exchanged (`Replaced`); the hierarchies of names are equal because the interface is; variables that are the same in one program have counterparts that are the same in the other (induction along the chain of sameness), so the given variables correspond; a solution of the new program, with the old method's values put in at the path, is a solution of the old one, and solutions are unique (C74); a cycle in the new program is cut at the variables with counterparts and mapped to a cycle in the old one; the need for the dependency condition is shown by a program that becomes circular. With clear default values, and the same values given to the inputs and to the last declarations of each name by both methods, the programs run from their default values agree too (Props/RefactorDefaults.lean)"
 ],
 "C100": [
  "Depends",
  "the variables that matter are finitely many and the program is not circular, so there is induction along the computation; in each step the two solutions (C74) agree because the statement's equation reads only its operands, its function and the parts assigned to it"
 ],
 "C101": [
  "Rename",
  "every notion of the specification (promoted names, denotation, equality of variables, circularity, fine statements) is preserved by the renaming and, applied to its inverse, reflected; so validity and solutions (C74) are carried over"
 ],
 "C102": [
  "Dead",
  "the method with the extra statement looks the same in everything that matters (the new variables are not reached, and aliases among old variables are unchanged because the new ones can be mapped to old ones); programs that look alike have the same validity, given variables and solutions (C74)"
 ],
 "C103": [
  "Apart",
  "The names of the submodel all begin with its name and a dot, no name of the rest does; so names, connections, sameness, dependencies and cycles of the combination split into those of the two parts; values by C74."
 ],
 "C104": [
  "Exact",
  "Acceptance of every stage (promotions, connections, merging, sorting) is characterised in both directions: each error gives a violated condition (C06, C07, C10–C12, C92 …) and an acceptable program passes every check (as in C72); programs are compared with the hierarchies they build through the correspondence of C73."
 ],
 "C105": [
  "Restructure",
  "`Restructured` relates the computations of two programs; the values of the second, read through the correspondence, are a solution of the first, and solutions are unique (C74). Moving statements to a submodel is an instance: the statements are compared one by one (`Inlined`), names of the submodel are the names of the main model (C74), and a given variable of one is given in the other."
 ],
 "C106": [
  "FormatNumber",
  "`format_number` is modelled on characters (rounding to even, digits, exponent, `str.replace`) for exact rational numbers; a grammar of decimal texts (`Stands`) is the specification. Proved: the three formats stand for the rounded number, the replacements keep it, rounding changes it by at most half a percent, and a text stands for one number."
 ],
 "C107": [
  "PassArgs",
  "`passArgs` models the loop that checks the arguments and stores their values in the declared variables of the residual model after its representation has been built. Spec/PassArgs.lean says which value a declaration has then. Proved from C86 with the place of the kept declaration (`GivenAt`), using that main's nodes come before those of its submodels in the flat graph (Proofs/Flatten.lean `mergeKids_prefix`)."
 ],
 "C108": [
  "ParamsList",
  "The model of C39 with `recordable`, the flag `_all_recordable`, `__iter__`, `__contains__`, `items` and `__getstate__`. Spec: the order of the options as a function of the history. Proved by induction over the calls, with the invariant that the flag is set only if every option may be saved."
 ],
 "C109": [
  "Given",
  "Spec: an input that is not the target of a connection; a declared variable; an input or registered output. Proved from the equations of a valid program: the names reached from a free input's name through connections are closed under being the same variable (a target has one connection, names denote one variable), and none of them is an output's name; conversely the value of C86 exists for every given variable. Free choice: nodes of variables are equal exactly if the variables are the same, so any consistent choice extends to values of the nodes."
 ],
 "C110": [
  "Optimise",
  "Spec: `DesignInput`, `NodeByName` (as `ValueByName` of C87), `SetBy` (the values an optimiser sets). Composition of C80 (acceptance), C81 (declarations), C86 (defaults), C87 (names) and C109 (free inputs are apart) over one representation. The condition on design variables in `XValid` is shown to follow from the others (induction over the hierarchy: the list of declarations has no repetitions). Without the condition on connections refuted by an example with two design variables at one node."
 ],
 "C111": [
  "MergedSizes",
  "Over the program text: aliases keep the shape (induction on aliasing), names and connections keep the number of elements (validity: `sizes`, `connections`, different names in a method), induction over the equivalence. In the representation: the node of a variable is an object of the same class (C73), whose shape is that of the text (invariant of execution); copies made for repeated arguments are nodes of their own. Examples: shapes (2,3) and (6,) are merged; a name declared twice with different sizes."
 ],
 "C112": [
  "JoinMore",
  "Promotions, denotations and live variables do not depend on the last connection; every condition of validity follows for the shorter program (connections are issued in a sublist; a cycle without the connection is a cycle with it). Values: the values of each program solve the other's equations (C74, C97's transfer lemma), and solutions are unique given the values that must be given. Example: the two-model program of C97 without its last connection."
 ],
 "C113": [
  "InputDeclared",
  "`InputsDeclared` relates the methods of the two programs.  Declaring instead of creating an input only changes which variable of a set of joined variables stands first; on the variables that matter in the second program both programs join the same (`InputsDeclared.joins`), so the first's solution solves the second, and the solution of a valid program is unique (C74)."
 ],
 "C114": [
  "Inside",
  "by induction on the dependencies: two solutions of the equations of the program, whose given values agree inside of their shapes, agree inside of the shapes at every variable that matters; for every operator by its validity (shapes of the arguments), for parts because the index expression is valid, for assembled outputs because the parts lie inside, for connections and names because joined variables have the same shape; the hypotheses are met by a program that reads parts of a vector"
 ],
 "C115": [
  "History",
  "the steps of a session (set by name, run) change the values of the nodes of the representation; by induction on the steps: the node found by a name is the node of the variables it denotes (C87), variables have the same node exactly if they are the same variable, so given variables have the values given last; a run computes the one solution with these values (C74); what run does is the meaning of the representation, as in C61"
 ],
 "C116": [
  "Numbers",
  "numbers and functions are left out of states and objects; every function of the model of running a program commutes with leaving them out, so that two runs of programs that differ only in numbers go the same way, by induction on the programs; the same for programs with custom and implicit operations, of which their sort is kept; compilation reads only the objects without values; both a family of programs for all numbers and the exception for zero divisors are given"
 ],
 "C117": [
  "Embed",
  "a ring homomorphism of fields is applied to all numbers of states and objects; every function of the model of running a program commutes with it, by induction on the programs; the exponents of the operations created are exponents of the program, 1 or -1, an invariant of running; the meaning of each operation and hence execution in any order commute with the homomorphism; every choice of powers and functions has an extension; for real and complex numbers the usual powers with integer exponents are shown to be one"
 ],
 "C118": [
  "Smooth",
  "a property of functions of a parameter that the given values have and every statement keeps holds of all values: induction along the computation, with the unique solution of C74; differentiability and continuity are kept by every operator where it divides by no zero and raises no zero to a small power, by parts and by assembling outputs, and by functions by hypothesis"
 ],
 "C119": [
  "Linear",
  "the same induction with linearity (a linear map of the parameter) and affinity; linear programs are defined by their operators, functions and unassigned elements"
 ],
 "C120": [
  "Tangent",
  "differentiability of C118; differentiating each equation of the solution that execution computes gives the rules; uniqueness by induction along the computation"
 ],
 "C121": [
  "Positive",
  "positivity is a property that given values have and every statement keeps: induction along the computation with the solution of C74; then no divisor is zero, and C118 applies"
 ],
 "C122": [
  "Units",
  "properties of two solutions, one for each choice of units, that may differ from variable to variable but not between variables that are the same: induction along the computation; powers of products with a positive factor are products of powers, for negative bases too"
 ],
 "C123": [
  "Convex",
  "curvature is a property of functions of the parameter that depends on the variable but is the same for variables that are the same: induction along the computation with the solution of C74; local minima by Mathlib's theorem on convex functions"
 ]
}