import Verif.Model.Flatten
import Verif.Model.Collect
/-
Model of the merging of user-declared connections: csdl/rep/merge_connections.py:18-220, and of csdl/rep/construct_flat_graph.py:474-533.
-/
namespace Csdl

/-- `promoted_to_node`, `unpromoted_to_node` (csdl/rep/merge_connections.py:64-65) -/
structure NodeMaps where
  p2n : Dict Name Nat := []
  u2n : Dict Name Nat := []

/-- csdl/rep/merge_connections.py:116-131: the unpromoted names of one node -/
def indexNames (u2p : Dict Name Name) (v : Nat) : List Name → Dict Name Nat → Except FErr (Dict Name Nat)
  | [], d => .ok d
  | u :: us, d => if d.has u then .error .key else if u2p.has u then indexNames u2p v us (d.set u v) else .error .key

/-- csdl/rep/merge_connections.py:93-111: a name that is not in the map is accepted only for outputs of custom operations -/
def checkCustom (I : NHeap) (g : Graph) (v : Nat) : Except FErr Unit :=
  match g.preds v with
  | [] => .error .index
  | p :: _ => if (I p).kind ≠ .op then .error .attribute else if (I p).custom then .ok () else .error .key

/-- csdl/rep/merge_connections.py:66-131: one node.  `st` holds the namespaces; `g` is the graph after automatic merging. -/
def indexNode (I : NHeap) (st : FState) (p2u : Dict Name (List Name)) (u2p : Dict Name Name) (g : Graph) (d : NodeMaps) (v : Nat) : Except FErr NodeMaps :=
  if (I v).kind ≠ .var then .ok d
  else if 1 < (g.preds v).length then .error .key
  else if (I v).name = (I v).auto then .ok d
  else match p2u.get? (st.pname I v) with
    | none =>
      match checkCustom I g v with
      | .error e => .error e
      | .ok () => .ok d
    | some us =>
      match indexNames u2p v us d.u2n with
      | .error e => .error e
      | .ok u2n => .ok ⟨d.p2n.set (st.pname I v) v, u2n⟩

/-- csdl/rep/merge_connections.py:66: the loop over the nodes -/
def indexNodes (I : NHeap) (st : FState) (p2u : Dict Name (List Name)) (u2p : Dict Name Name) (g : Graph) : List Nat → NodeMaps → Except FErr NodeMaps
  | [], d => .ok d
  | v :: vs, d =>
    match indexNode I st p2u u2p g d v with
    | .error e => .error e
    | .ok d => indexNodes I st p2u u2p g vs d

/-- csdl/rep/merge_connections.py:18-39 `find_unique_node`.  Simplification: `model_namespace` is already prepended. -/
def findNode (d : NodeMaps) (name : Name) : Except FErr Nat :=
  match d.p2n.get? name with
  | some v => .ok v
  | none =>
    match d.u2n.get? name with
    | some v => .ok v
    | none => .error .key

/-- networkx `contracted_nodes(G, u, v, self_loops=False, copy=False)`: at the end it stores data on the node `u`, which raises KeyError if `u` is not in the graph. -/
def nxContract (g : Graph) (u v : Nat) : Except FErr Graph := if u ∈ (g.contract u v).nodes then .ok (g.contract u v) else .error .key

/-- csdl/rep/merge_connections.py:164-201: the checks of one connection.  `done` is `connected_tgt_nodes_to_source_nodes`.  The check of the class of the target
(178) never fails: every variable is a `Variable`. -/
def checkConnection (I : NHeap) (g : Graph) (done : Dict Nat Nat) (src tgt : Nat) : Except FErr Unit :=
  if done.has tgt then .error .key
  else if (I src).role = .declared then .error .value
  else if g.inDegree tgt ≠ 0 then .error .value
  else if (I src).shape ≠ (I tgt).shape ∧ (I src).shape.size ≠ (I tgt).shape.size then .error .value
  else .ok ()

/-- csdl/rep/merge_connections.py:156-218: one connection -/
def mergeConnection (I : NHeap) (d : NodeMaps) (acc : Graph × Dict Nat Nat) (c : Name × Name × Name) : Except FErr (Graph × Dict Nat Nat) :=
  match findNode d (prependNamespace c.2.2 c.1) with
  | .error e => .error e
  | .ok src =>
    match findNode d (prependNamespace c.2.2 c.2.1) with
    | .error e => .error e
    | .ok tgt =>
      match checkConnection I acc.1 acc.2 src tgt with
      | .error e => .error e
      | .ok () =>
        match nxContract acc.1 src tgt with
        | .error e => .error e
        | .ok g => .ok (g, acc.2.set tgt src)

/-- csdl/rep/merge_connections.py:142: the loop over the connections -/
def mergeConnectionList (I : NHeap) (d : NodeMaps) : List (Name × Name × Name) → Graph × Dict Nat Nat → Except FErr (Graph × Dict Nat Nat)
  | [], acc => .ok acc
  | c :: cs, acc =>
    match mergeConnection I d acc c with
    | .error e => .error e
    | .ok acc => mergeConnectionList I d cs acc

/-- csdl/rep/merge_connections.py:42-220 `merge_connections` on the graph `g` (after automatic merging) -/
def mergeConnections (I : NHeap) (st : FState) (p2u : Dict Name (List Name)) (u2p : Dict Name Name) (g : Graph) (cs : List (Name × Name × Name)) :
    Except FErr (NodeMaps × Graph × Dict Nat Nat) :=
  match indexNodes I st p2u u2p g g.nodes {} with
  | .error e => .error e
  | .ok d =>
    match mergeConnectionList I d cs (g, []) with
    | .error e => .error e
    | .ok r => .ok (d, r.1, r.2)

/-- csdl/rep/construct_flat_graph.py:474-533 `construct_flat_graph`, called from csdl/rep/graph_representation.py:362-371 with the connections of
`collect_connections` (modelled in Verif/Model/Collect.lean).  The files written with `analytics` are in Verif/Model/Report.lean. -/
def constructFlat (I : NHeap) (order : List Nat → List Nat) (p2u : Dict Name (List Name)) (u2p : Dict Name Name) (g : Graph) (kids : Kids)
    (cs : List (Name × Name × Name)) : Except FErr (NodeMaps × Graph × Dict Nat Nat) :=
  match flatten I p2u u2p g kids with
  | .error e => .error e
  | .ok st => mergeConnections I st p2u u2p (mergeAuto I order st) cs

end Csdl
