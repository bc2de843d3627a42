import Verif.Model.Names
import Verif.Model.Graph
/-
Model of analyses of the flat graph of a representation: `GraphRepresentation.influences` (csdl/rep/graph_representation.py:966-1029),
`create_graph_with_operations_as_edges` (csdl/rep/create_graph_with_operations_as_edges.py:9-27), and the methods of
`GraphRepresentation` that count nodes and predict the computation time.
-/
namespace Csdl.Analysis
open Csdl

/-- What is known of a node (csdl/rep/variable_node.py, csdl/rep/operation_node.py). -/
structure NodeInfo where
  /-- `isinstance(x, VariableNode)`; otherwise `OperationNode` -/
  isVar : Bool
  /-- `isinstance(x.var, Output)` -/
  isOutput : Bool := false
  /-- `x.var.name != x.var._id` -/
  named : Bool := false
  /-- `x.namespace` -/
  ns : Name := []
  /-- `x.name` -/
  name : Name := []
  /-- `np.prod(x.var.shape)` -/
  size : Nat := 1

/-- A flat graph with its nodes.  Simplification: no implicit operations (`ImplicitOperationNode`). -/
structure AGraph where
  g : Graph
  info : Nat → NodeInfo

/-- `G.out_degree(n)` -/
def outDegree (g : Graph) (n : Nat) : Nat := (g.succs n).length

/-- The loop of a breadth first search against the edges (networkx `bfs_edges(G, source, reverse=True)`); `seen` are the nodes seen, and `queue` those of them whose
predecessors have not been looked at.  `fuel` bounds the number of nodes looked at. -/
def bfs (g : Graph) : Nat → List Nat → List Nat → List Nat
  | 0, _, seen => seen
  | _ + 1, [], seen => seen
  | fuel + 1, n :: queue, seen =>
    bfs g fuel (queue ++ (g.preds n).filter (· ∉ seen)) (seen ++ (g.preds n).filter (· ∉ seen))

/-- networkx `ancestors(G, source)`: all nodes found, without the source -/
def ancestors (g : Graph) (r : Nat) : List Nat := (bfs g g.nodes.length [r] [r]).filter (· ≠ r)

/-- `prepend_namespace(x.namespace, x.name)` -/
def AGraph.fullName (a : AGraph) (x : Nat) : Name := prependNamespace (a.info x).ns (a.info x).name

/-- csdl/rep/get_registered_outputs_from_graph.py:6-17 -/
def registeredOutputs (a : AGraph) : List Nat :=
  (a.g.nodes.filter fun x => (a.info x).isVar && decide (outDegree a.g x = 0)).filter fun x => (a.info x).isOutput && (a.info x).named

/-- csdl/rep/graph_representation.py:1016-1017, 1021-1023: the ancestors of `r` without predecessors -/
def leaves (a : AGraph) (r : Nat) : List Nat := (ancestors a.g r).filter fun x => decide (a.g.inDegree x = 0)

/-- An element of a set in the first dictionary `influences` returns. -/
inductive Elem where
  | node (n : Nat)
  | name (s : Name)
  deriving DecidableEq

/-- csdl/rep/graph_representation.py:1010-1018.  `filter(f, l)` keeps the elements (nodes) of `l` for which `f` is true; a string is true if it is not empty. -/
def outputToInputs (a : AGraph) : Dict Name (List Elem) :=
  (registeredOutputs a).foldl (fun d r => d.set (a.fullName r) (((leaves a r).filter fun x => decide (a.fullName x ≠ [])).map Elem.node)) []

/-- csdl/rep/graph_representation.py:1024-1028: one leaf -/
def addInfluence (a : AGraph) (r : Nat) (d : Dict Name (List Name)) (leaf : Nat) : Dict Name (List Name) :=
  let d1 := if d.has (a.fullName leaf) then d else d.set (a.fullName leaf) []
  let old := (d1.get? (a.fullName leaf)).getD []
  d1.set (a.fullName leaf) (if a.fullName r ∈ old then old else old ++ [a.fullName r])

/-- csdl/rep/graph_representation.py:1019-1028 -/
def inputToOutputs (a : AGraph) : Dict Name (List Name) :=
  (registeredOutputs a).foldl (fun d r => (leaves a r).foldl (addInfluence a r) d) []

/-- csdl/rep/graph_representation.py:966-1029 `influences`; all arguments are ignored by the code -/
def influences (a : AGraph) : Dict Name (List Elem) × Dict Name (List Name) := (outputToInputs a, inputToOutputs a)

/-- csdl/rep/create_graph_with_operations_as_edges.py:9-27.  Simplification: no weights (they are 1 without implicit operations). -/
def opsAsEdges (a : AGraph) : Graph :=
  let ops := a.g.nodes.filter fun x => !(a.info x).isVar
  let vars := a.g.nodes.filter fun x => (a.info x).isVar
  ops.foldl (fun ng op => ng.addEdges ((a.g.preds op).flatMap fun u => (a.g.succs op).map fun v => (u, v))) (({} : Graph).addNodes vars)

/-- csdl/rep/graph_representation.py:772-791 `outputs_per_operation(implicit=False)` -/
def outputsPerOperation (a : AGraph) : List Nat := (a.g.nodes.filter fun x => !(a.info x).isVar).map (outDegree a.g)

/-- csdl/rep/graph_representation.py:793-811 `num_uses_of_variables(implicit=False)` -/
def numUsesOfVariables (a : AGraph) : List Nat := (a.g.nodes.filter fun x => (a.info x).isVar).map (outDegree a.g)

/-- csdl/rep/graph_representation.py:1140-1166 `nout_vars(vectorized, implicit=False)` -/
def noutVars (a : AGraph) (vectorized : Bool) : Nat :=
  let vs := a.g.nodes.filter fun x => (a.info x).isVar && decide (0 < a.g.inDegree x)
  if vectorized then vs.length else (vs.map fun x => (a.info x).size).sum

/-- csdl/rep/graph_representation.py:1168-1194 `nin_vars(vectorized, implicit=False)` -/
def ninVars (a : AGraph) (vectorized : Bool) : Nat :=
  let vs := a.g.nodes.filter fun x => (a.info x).isVar && decide (a.g.inDegree x = 0)
  if vectorized then vs.length else (vs.map fun x => (a.info x).size).sum

/-- csdl/rep/graph_representation.py:574-593 `serial_cost()` without implicit operations: the operations among the sorted nodes -/
def serialCost (a : AGraph) (sorted : List Nat) : Nat := (sorted.filter fun x => !(a.info x).isVar).length

/-- networkx `dag_longest_path`: the distance of one node, from those of its predecessors -/
def distOf (g : Graph) (dist : Dict Nat Nat) (v : Nat) : Nat :=
  ((g.preds v).map fun u => (dist.get? u).getD 0 + 1).foldl max 0

/-- networkx `dag_longest_path`: the distances, computed in a topological order -/
def distances (g : Graph) (order : List Nat) : Dict Nat Nat := order.foldl (fun dist v => dist.set v (distOf g dist v)) []

/-- csdl/rep/graph_representation.py:717-728 `predict_computation_time(parallel=True)`: networkx `dag_longest_path_length(flat_graph)`, the sum of the weights (1 for each edge) along a longest path; 0 for an empty graph.
`none`: the graph has a cycle (NetworkXUnfeasible). -/
def predictParallel (g : Graph) : Option Nat := (kahn g).map fun order => ((distances g order).map (·.2)).foldl max 0

end Csdl.Analysis
