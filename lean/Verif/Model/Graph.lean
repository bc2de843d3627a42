import Verif.Model.Dict
/-
Model of the networkx `DiGraph` operations csdl uses, and of the sorting of the flattened graph
(csdl/rep/sort_nodes_nx.py:39-54, csdl/rep/graph_representation.py:384-393).

networkx itself is not part of /repo; what is modelled is its documented behaviour: nodes and the successors of a node are
enumerated in insertion order; there are no parallel edges.
-/
namespace Csdl

/-- A networkx `DiGraph`: nodes and edges, each in insertion order.  Nodes are identified with numbers. -/
structure Graph where
  nodes : List Nat := []
  edges : List (Nat × Nat) := []
  deriving DecidableEq, Repr

namespace Graph

/-- `G.add_node(n)` -/
def addNode (g : Graph) (n : Nat) : Graph := if n ∈ g.nodes then g else { g with nodes := g.nodes ++ [n] }

/-- `G.add_edge(u, v)`: adds missing nodes, does nothing if the edge is there. -/
def addEdge (g : Graph) (u v : Nat) : Graph :=
  let g := (g.addNode u).addNode v
  if (u, v) ∈ g.edges then g else { g with edges := g.edges ++ [(u, v)] }

/-- `G.remove_node(n)` / one step of `G.remove_nodes_from` (which ignores missing nodes) -/
def removeNode (g : Graph) (n : Nat) : Graph :=
  { nodes := g.nodes.filter (· ≠ n), edges := g.edges.filter fun e => e.1 ≠ n ∧ e.2 ≠ n }

/-- `G.remove_nodes_from(l)` -/
def removeNodes (g : Graph) (l : List Nat) : Graph := l.foldl removeNode g

/-- `G.add_edges_from(l)` -/
def addEdges (g : Graph) (l : List (Nat × Nat)) : Graph := l.foldl (fun g e => g.addEdge e.1 e.2) g

/-- `G.add_nodes_from(l)` -/
def addNodes (g : Graph) (l : List Nat) : Graph := l.foldl addNode g

/-- `G.successors(n)` (`G.neighbors(n)`) -/
def succs (g : Graph) (n : Nat) : List Nat := (g.edges.filter fun e => e.1 = n).map (·.2)

/-- `G.predecessors(n)` -/
def preds (g : Graph) (n : Nat) : List Nat := (g.edges.filter fun e => e.2 = n).map (·.1)

/-- `G.in_degree(n)` -/
def inDegree (g : Graph) (n : Nat) : Nat := (g.preds n).length

/-- `contracted_nodes(G, u, v, self_loops=False, copy=False)`: the edges of `v` are moved to `u`, except those from or to `u`
(and `v`); `v` is removed. -/
def contract (g : Graph) (u v : Nat) : Graph :=
  let inE := (g.edges.filter fun e => e.2 = v ∧ e.1 ≠ u ∧ e.1 ≠ v).map fun e => (e.1, u)
  let outE := (g.edges.filter fun e => e.1 = v ∧ e.2 ≠ u ∧ e.2 ≠ v).map fun e => (u, e.2)
  (g.removeNode v).addEdges (inE ++ outE)

end Graph

/-! ### Kahn's algorithm, as in networkx `topological_sort` -/

/-- `indegree_map[child] -= 1`, moving the child to `zero_indegree` when it reaches 0.  `none`: KeyError. -/
def relaxOne (st : Dict Nat Nat × List Nat) (child : Nat) : Option (Dict Nat Nat × List Nat) :=
  match st.1.get? child with
  | none => none
  | some d => if d - 1 = 0 then some (st.1.pop child, st.2 ++ [child]) else some (st.1.set child (d - 1), st.2)

/-- the loop over the children of a node -/
def relax : Dict Nat Nat × List Nat → List Nat → Option (Dict Nat Nat × List Nat)
  | st, [] => some st
  | st, c :: cs =>
    match relaxOne st c with
    | none => none
    | some st => relax st cs

/-- The main loop.  networkx works generation by generation; the nodes of the generations, one after the other, are those of one
first-in first-out queue.  `fuel` bounds the number of nodes taken from the queue (`none` if it runs out; the theorems show it does not).
`none`: `NetworkXUnfeasible`. -/
def kahnLoop (g : Graph) : Nat → Dict Nat Nat → List Nat → List Nat → Option (List Nat)
  | _, indeg, [], out => if indeg = [] then some out else none
  | 0, _, _ :: _, _ => none
  | fuel + 1, indeg, n :: queue, out =>
    match relax (indeg, queue) (g.succs n) with
    | none => none
    | some st => kahnLoop g fuel st.1 st.2 (out ++ [n])

/-- networkx `list(topological_sort(G))` -/
def kahn (g : Graph) : Option (List Nat) :=
  kahnLoop g g.nodes.length ((g.nodes.filter fun v => 0 < g.inDegree v).map fun v => (v, g.inDegree v))
    (g.nodes.filter fun v => g.inDegree v = 0) []

/-- Errors of building the representation of a graph. -/
inductive RepErr where
  | key | value
  deriving DecidableEq, Repr

/-- csdl/rep/sort_nodes_nx.py:39-54 with `flat=True`, and csdl/rep/graph_representation.py:384-393.  Any exception of the sort becomes a
KeyError.  `put_inputs_first` (sort_nodes_nx.py:16-20) assigns to a local name only and has no effect. -/
def flatSort (g : Graph) : Except RepErr (List Nat) :=
  match kahn g with
  | none => .error .key
  | some l => if g.nodes.length ≠ l.length then .error .value else .ok l

end Csdl
