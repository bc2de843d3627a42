import Verif.Model.BuildGraph
import Verif.Model.Promotions
/-
Model of the construction of the flat graph: csdl/rep/construct_flat_graph.py:107-375, csdl/rep/graph_representation.py:353-360.
-/
namespace Csdl

/-- Classes of variables (csdl/lang/input.py, output.py, declared_variable.py). -/
inductive Role where
  | input | output | declared
  deriving DecidableEq, Repr

/-- What the code reads of a graph node: `VariableNode` (csdl/rep/variable_node.py), `OperationNode`, `ModelNode`. -/
structure NInfo where
  kind : OKind
  name : Name
  /-- `var._id` -/
  auto : Name := []
  role : Role := .declared
  /-- `var.default_val == False`: a value was given to `declare_variable` (csdl/lang/model.py:329-342) -/
  explicit : Bool := false
  /-- `isinstance(node.op, CustomOperation)` -/
  custom : Bool := false
  shape : Shape := [1]
  deriving Repr

/-- The graph nodes, by identity. -/
abbrev NHeap := Nat → NInfo

/-- The child models of a graph (`graph.model_nodes`), each with its graph and its own child models:
csdl/rep/model_node.py, csdl/rep/construct_unflat_graph.py:218-230.  `graph.model_nodes` is a Python set: the list is any order of iteration. -/
inductive Kids where
  | nil
  | cons (id : Nat) (name : Name) (g : Graph) (kids rest : Kids)

/-- the model nodes themselves -/
def Kids.ids : Kids → List Nat
  | .nil => []
  | .cons id _ _ _ rest => id :: rest.ids

/-- The graph being built, with the attributes `namespace` and `unpromoted_namespace` of the nodes. -/
structure FState where
  graph : Graph
  ns : Nat → Name
  uns : Nat → Name

/-- Errors of building the flat graph. -/
inductive FErr where
  | key | attribute | index | value
  deriving DecidableEq, Repr

/-- `s.split('.')` -/
def splitDot : Name → List Name
  | [] => [[]]
  | c :: s => if c = '.' then [] :: splitDot s else
    match splitDot s with
    | [] => [[c]]
    | w :: ws => (c :: w) :: ws

/-- `'.'.join(l)` -/
def joinDot : List Name → Name
  | [] => []
  | [a] => a
  | a :: b :: l => a ++ '.' :: joinDot (b :: l)

/-- csdl/rep/construct_flat_graph.py:207-208, csdl/rep/graph_representation.py:359-360: `'.'.join(name.rsplit('.')[:-1])` -/
def namespaceOf (p : Name) : Name := joinDot (splitDot p).dropLast

/-- `d[k] = v` for the attribute dictionaries -/
def setAttr (f : Nat → Name) (v : Nat) (x : Name) : Nat → Name := fun w => if w = v then x else f w

/-- csdl/rep/construct_flat_graph.py:211-220: a name that is not in the maps is accepted only if the first predecessor is a custom operation. -/
def checkUnknown (I : NHeap) (g : Graph) (v : Nat) : Except FErr Unit :=
  if (I v).name = (I v).auto then .ok ()
  else match g.preds v with
    | [] => .error .key
    | p :: _ => if (I p).kind ≠ .op then .error .attribute else if (I p).custom then .ok () else .error .key

/-- csdl/rep/construct_flat_graph.py:194-220: the attributes of one variable of a child model -/
def assignNs (I : NHeap) (p2u : Dict Name (List Name)) (u2p : Dict Name Name) (uns : Name) (st : FState) (v : Nat) : Except FErr FState :=
  let name := prependNamespace uns (I v).name
  let st1 : FState := { st with uns := setAttr st.uns v uns }
  if p2u.has name then .ok { st1 with ns := setAttr st.ns v uns }
  else match u2p.get? name with
    | some p => .ok { st1 with ns := setAttr st.ns v (namespaceOf p) }
    | none =>
      match checkUnknown I st.graph v with
      | .error e => .error e
      | .ok () => .ok st1

/-- csdl/rep/construct_flat_graph.py:194: the loop over `child_vars` -/
def assignAll (I : NHeap) (p2u : Dict Name (List Name)) (u2p : Dict Name Name) (uns : Name) : FState → List Nat → Except FErr FState
  | st, [] => .ok st
  | st, v :: vs =>
    match assignNs I p2u u2p uns st v with
    | .error e => .error e
    | .ok st => assignAll I p2u u2p uns st vs

/-- csdl/rep/get_nodes.py:26-33 `get_var_nodes` -/
def varNodes (I : NHeap) (g : Graph) : List Nat := g.nodes.filter fun v => (I v).kind = .var

/-- csdl/rep/construct_flat_graph.py:126-240: the loop over the child models.  The recursive call of `merge_graphs` first removes the child
models of the child (line 122).  The file written with `analytics` is in Verif/Model/Report.lean; not modelled: the emptying of the child's own graph (lines 230-231). -/
def mergeKids (I : NHeap) (p2u : Dict Name (List Name)) (u2p : Dict Name Name) : Kids → Name → FState → Except FErr FState
  | .nil, _, st => .ok st
  | .cons _ name g kids rest, ns, st =>
    let st1 : FState := { st with graph := (st.graph.addEdges g.edges).addNodes g.nodes }
    match assignAll I p2u u2p (prependNamespace ns name) st1 (varNodes I g) with
    | .error e => .error e
    | .ok st2 =>
      match mergeKids I p2u u2p kids (prependNamespace ns name) { st2 with graph := st2.graph.removeNodes kids.ids } with
      | .error e => .error e
      | .ok st3 => mergeKids I p2u u2p rest ns st3

/-- csdl/rep/graph_representation.py:353-360: the attribute `namespace` of the variables of the main model -/
def rootNs (I : NHeap) (p2u : Dict Name (List Name)) (u2p : Dict Name Name) (v : Nat) : Name :=
  if p2u.has (I v).name then []
  else match u2p.get? (I v).name with
    | some p => namespaceOf p
    | none => []

/-- csdl/rep/construct_flat_graph.py:107-241 `merge_graphs` on the graph of the main model, after csdl/rep/graph_representation.py:353-360.
New graph nodes have empty namespaces (csdl/rep/ir_node.py:9, csdl/rep/variable_node.py:12). -/
def flatten (I : NHeap) (p2u : Dict Name (List Name)) (u2p : Dict Name Name) (g : Graph) (kids : Kids) : Except FErr FState :=
  mergeKids I p2u u2p kids [] ⟨g.removeNodes kids.ids, fun v => if v ∈ varNodes I g then rootNs I p2u u2p v else [], fun _ => []⟩

/-! ### automatic merging -/

/-- `prepend_namespace(x.namespace, x.name)` -/
def FState.pname (st : FState) (I : NHeap) (x : Nat) : Name := prependNamespace (st.ns x) (I x).name

/-- csdl/rep/get_nodes.py:46-54 -/
def srcNodes (I : NHeap) (l : List Nat) : List Nat := l.filter fun v => (I v).role = .input ∨ (I v).role = .output
def tgtNodes (I : NHeap) (l : List Nat) : List Nat := l.filter fun v => (I v).role = .declared

/-- `unpromoted_namespace.count('.')` -/
def dots (s : Name) : Nat := s.count '.'

/-- csdl/rep/construct_flat_graph.py:300-311: one target, one step of the choice of the representative -/
def chooseTarget (I : NHeap) (st : FState) (u : Dict Name Nat) (t : Nat) : Dict Name Nat :=
  match u.get? (st.pname I t) with
  | none => u.set (st.pname I t) t
  | some c =>
    if dots (st.uns t) < dots (st.uns c) then u.set (st.pname I t) t
    else if dots (st.uns c) = dots (st.uns t) ∧ (I t).explicit = true then u.set (st.pname I t) t
    else u

/-- csdl/rep/construct_flat_graph.py:289-311 `unique_targets` -/
def uniqueTargets (I : NHeap) (st : FState) (targets : List Nat) : Dict Name Nat := targets.foldl (chooseTarget I st) []

/-- csdl/rep/construct_flat_graph.py:313-315: `targets.remove(tgt)` for every representative -/
def removeAll (targets : List Nat) (reps : List Nat) : List Nat := reps.foldl List.erase targets

/-- csdl/rep/construct_flat_graph.py:318-325: one target -/
def groupStep (I : NHeap) (st : FState) (d : Dict Name (List Nat)) (t : Nat) : Dict Name (List Nat) :=
  match d.get? (st.pname I t) with
  | none => d.set (st.pname I t) [t]
  | some s => d.set (st.pname I t) (s ++ [t])

/-- csdl/rep/construct_flat_graph.py:317-325 `redundant_targets`, by name -/
def groupTargets (I : NHeap) (st : FState) (l : List Nat) : Dict Name (List Nat) := l.foldl (groupStep I st) []

/-- csdl/rep/construct_flat_graph.py:346-358: contraction of the redundant targets.  `order` is the order in which a Python set is iterated. -/
def contractRedundant (order : List Nat → List Nat) (u : Dict Name Nat) (red : Dict Name (List Nat)) (g : Graph) : Graph :=
  red.foldl (fun g kt => match u.get? kt.1 with | none => g | some r => (order kt.2).foldl (fun g t => g.contract r t) g) g

/-- csdl/rep/construct_flat_graph.py:360-375: contraction of the representatives into the sources -/
def contractSources (u : Dict Name Nat) (sources : Dict Name Nat) (g : Graph) : Graph :=
  sources.foldl (fun g ks => match u.get? ks.1 with | none => g | some r => g.contract ks.2 r) g

/-- csdl/rep/construct_flat_graph.py:244-375 `merge_automatically_connected_nodes`.  Not modelled: the bookkeeping of `declared_to` and
`add_IR_mapping`. -/
def mergeAuto (I : NHeap) (order : List Nat → List Nat) (st : FState) : Graph :=
  let vars := varNodes I st.graph
  let sources := Dict.ofPairs ((srcNodes I vars).map fun x => (st.pname I x, x))
  let targets := tgtNodes I vars
  let u := uniqueTargets I st targets
  let red := groupTargets I st (removeAll targets (u.map (·.2)))
  contractSources u sources (contractRedundant order u red st.graph)

end Csdl
