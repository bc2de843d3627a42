import Verif.Model.Graph
import Verif.Model.Names
/-
Model of the construction of the graph of one model: csdl/rep/construct_unflat_graph.py:198-315.
-/
namespace Csdl

/-- Kinds of csdl `Node` objects: `Variable`, `Operation`, `Subgraph`. -/
inductive OKind where
  | var | op | model
  deriving DecidableEq, Repr

/-- A csdl `Node` object (csdl/lang/node.py:26-36): name, `dependencies` and, for operations, `outs` (csdl/lang/operation.py:26). -/
structure CObj where
  kind : OKind
  name : Name
  deps : List Nat := []
  outs : List Nat := []
  deriving Repr

/-- The csdl objects, by identity. -/
abbrev Heap := Nat → CObj

/-- `AttributeError` (a `ModelNode` or `OperationNode` has no attribute `var`); `KeyError` (a `Subgraph` has no entry); `fuel`: the bound on the number of iterations was too
small (never the case, see the theorems). -/
inductive GErr where
  | attribute | key | fuel
  deriving DecidableEq, Repr

/-- csdl/rep/construct_unflat_graph.py:300-315 `get_graph_node`.  A graph node (`VariableNode`, `OperationNode` or `ModelNode`) is identified with the
csdl object it was created for; `nodes` maps names to graph nodes. -/
def getGraphNode (h : Heap) (nodes : Dict Name Nat) (c : Nat) : Except GErr (Dict Name Nat × Nat) :=
  match nodes.get? (h c).name with
  | none => if (h c).kind = .model then .error .key else .ok (nodes.set (h c).name c, c)
  | some r => if (h c).kind = .var ∧ (h r).kind ≠ .var then .error .attribute else .ok (nodes, r)

/-- State of the loop of `construct_graph_this_model` (csdl/rep/construct_unflat_graph.py:255-263); `queue` is `bfs_queue` with its end first, `queued` is
`queued_nodes`. -/
structure BState where
  graph : Graph
  nodes : Dict Name Nat
  queue : List Nat
  queued : List Nat

/-- csdl/rep/construct_unflat_graph.py:271-281 (`fwd = false`: from predecessor `p` to the current node `gn`) and 285-295 (`fwd = true`: from the
current node to successor `p`) -/
def link (h : Heap) (gn : Nat) (fwd : Bool) (st : BState) (p : Nat) : Except GErr BState :=
  match getGraphNode h st.nodes p with
  | .error e => .error e
  | .ok (nodes, gp) =>
    let graph := if fwd then st.graph.addEdge gn gp else st.graph.addEdge gp gn
    if p ∈ st.queued then .ok { st with graph := graph, nodes := nodes }
    else .ok { graph := graph, nodes := nodes, queue := p :: st.queue, queued := p :: st.queued }

/-- the `for` loops of lines 272 and 285 -/
def linkAll (h : Heap) (gn : Nat) (fwd : Bool) : BState → List Nat → Except GErr BState
  | st, [] => .ok st
  | st, p :: ps =>
    match link h gn fwd st p with
    | .error e => .error e
    | .ok st => linkAll h gn fwd st ps

/-- csdl/rep/construct_unflat_graph.py:267-295: one iteration, for the node `c` taken from the queue -/
def visit (h : Heap) (c : Nat) (st : BState) : Except GErr BState :=
  match getGraphNode h st.nodes c with
  | .error e => .error e
  | .ok (nodes, gn) =>
    match linkAll h gn false { st with nodes := nodes } (h c).deps with
    | .error e => .error e
    | .ok st => if (h c).kind = .op then linkAll h gn true st (h c).outs else .ok st

/-- csdl/rep/construct_unflat_graph.py:262-295: the `while` loop -/
def buildLoop (h : Heap) : Nat → BState → Except GErr BState
  | 0, st => if st.queue = [] then .ok st else .error .fuel
  | fuel + 1, st =>
    match st.queue with
    | [] => .ok st
    | c :: queue =>
      match visit h c { st with queue := queue } with
      | .error e => .error e
      | .ok st => buildLoop h fuel st

/-- csdl/rep/construct_unflat_graph.py:218-230: one node per submodel name -/
def addModels (h : Heap) : Graph × Dict Name Nat → List Nat → Graph × Dict Name Nat
  | gn, [] => gn
  | gn, s :: subs =>
    if gn.2.has (h s).name then addModels h gn subs else addModels h (gn.1.addNode s, gn.2.set (h s).name s) subs

/-- csdl/rep/construct_unflat_graph.py:198-252 `construct_graphs_all_models`, for one model: `subs`, `inputs`, `outputs` and `declared` are its lists
of submodels, inputs, registered outputs and declared variables. -/
def buildGraph (h : Heap) (subs inputs outputs declared : List Nat) (fuel : Nat) : Except GErr BState :=
  let gn := addModels h ({}, []) subs
  let inputNodes := Dict.ofPairs (inputs.map fun i => ((h i).name, i))
  let leaves := outputs ++ declared
  buildLoop h fuel { graph := gn.1.addNodes (inputNodes.map (·.2)), nodes := gn.2.update inputNodes, queue := leaves.reverse, queued := leaves }

end Csdl
