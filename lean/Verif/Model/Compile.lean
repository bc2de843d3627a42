import Verif.Model.Connect
/-
Model of the construction of the representation of a model as a whole, from the csdl objects: csdl/rep/graph_representation.py:227-393 (`GraphRepresentation.__init__`),
csdl/rep/construct_unflat_graph.py:198-252 (`construct_graphs_all_models`).  `define_models_recursively` is modelled in Verif/Model/Define.lean; here all models are defined.
-/
namespace Csdl

/-- A csdl object: `Variable` (csdl/lang/variable.py), `Operation` (csdl/lang/operation.py) or `Subgraph` (csdl/lang/subgraph.py), all derived from csdl/lang/node.py:26-36. -/
structure Obj where
  kind : OKind
  name : Name
  /-- `_id` -/
  auto : Name := []
  role : Role := .declared
  /-- a value was given to `declare_variable` -/
  explicit : Bool := false
  /-- a `CustomOperation` -/
  custom : Bool := false
  shape : Shape := [1]
  deps : List Nat := []
  outs : List Nat := []
  deriving Repr

/-- The csdl objects, by identity. -/
abbrev Objs := Nat → Obj

/-- what csdl/rep/construct_unflat_graph.py reads of the objects -/
def Objs.heap (H : Objs) : Heap := fun i => { kind := (H i).kind, name := (H i).name, deps := (H i).deps, outs := (H i).outs }

/-- what csdl/rep/construct_flat_graph.py and csdl/rep/merge_connections.py read of the objects -/
def Objs.info (H : Objs) : NHeap := fun i =>
  { kind := (H i).kind, name := (H i).name, auto := (H i).auto, role := (H i).role, explicit := (H i).explicit, custom := (H i).custom, shape := (H i).shape }

mutual
/-- A csdl `Model` (csdl/lang/model.py:49-98) after `define`: its lists of inputs, registered outputs and declared variables, its connections and optimisation declarations, and
its `Subgraph` objects. -/
inductive OModel where
  | mk (inputs outputs declared : List Nat) (connections : List (Name × Name)) (designVars constraints : Dict Name Nat) (objective : Option (Name × Nat)) (subs : OSubs)
/-- `Model.subgraphs`: the `Subgraph` object, `promotes`, the submodel -/
inductive OSubs where
  | nil
  | cons (id : Nat) (promotes : Option (List Name)) (m : OModel) (rest : OSubs)
end

/-- A `Subgraph` object. -/
structure OSub where
  id : Nat
  promotes : Option (List Name)
  model : OModel

/-- the list `model.subgraphs` -/
def OSubs.toList : OSubs → List OSub
  | .nil => []
  | .cons i p m rest => ⟨i, p, m⟩ :: rest.toList

/-- `Model.inputs` and so on -/
def OModel.inputs : OModel → List Nat
  | .mk i _ _ _ _ _ _ _ => i
def OModel.outputs : OModel → List Nat
  | .mk _ o _ _ _ _ _ _ => o
def OModel.declared : OModel → List Nat
  | .mk _ _ d _ _ _ _ _ => d
def OModel.connections : OModel → List (Name × Name)
  | .mk _ _ _ c _ _ _ _ => c
def OModel.subs : OModel → List OSub
  | .mk _ _ _ _ _ _ _ s => s.toList

/-- name and shape of a variable -/
def Objs.varInfo (H : Objs) (i : Nat) : VarInfo := ⟨(H i).name, (H i).shape⟩

mutual
/-- What csdl/rep/resolve_promotions.py and csdl/rep/collect_*.py read of the models: names and shapes. -/
def OModel.toModel (H : Objs) : OModel → Model
  | .mk i o d c dv cn ob subs => .mk { inputs := i.map H.varInfo, outputs := o.map H.varInfo, declared := d.map H.varInfo, connections := c, designVars := dv, constraints := cn, objective := ob } (subs.toSubs H)
def OSubs.toSubs (H : Objs) : OSubs → Subs
  | .nil => .nil
  | .cons i p m rest => .cons (H i).name p (m.toModel H) (rest.toSubs H)
end

mutual
/-- csdl/rep/construct_unflat_graph.py:198-252 `construct_graphs_all_models`: the graph of a model and of the models below it.  `graph.model_nodes` is a set; this list is one order. -/
def OModel.graphs (H : Objs) (fuel : Nat) : OModel → Except GErr (Graph × Kids)
  | .mk i o d _ _ _ _ subs => do
    let kids ← subs.kids H fuel []
    let st ← buildGraph H.heap (subs.toList.map OSub.id) i o d fuel
    pure (st.graph, kids)
/-- csdl/rep/construct_unflat_graph.py:218-230: the loop over the submodels; `seen` are the names in `nodes` -/
def OSubs.kids (H : Objs) (fuel : Nat) : OSubs → List Name → Except GErr Kids
  | .nil, _ => .ok .nil
  | .cons i _ m rest, seen =>
    if (H i).name ∈ seen then rest.kids H fuel seen
    else do
      let gk ← m.graphs H fuel
      let r ← rest.kids H fuel ((H i).name :: seen)
      pure (.cons i (H i).name gk.1 gk.2 r)
end

/-- Errors of the construction, by phase. -/
inductive BuildErr where
  | promotions (e : PErr) | names (e : CErr) | graph (e : GErr) | flat (e : FErr) | sort (e : RepErr)

/-- The representation: what `GraphRepresentation` stores. -/
structure Rep where
  p2u : Dict Name (List Name)
  connections : List (Name × Name)
  designVars : Dict Name Nat
  objective : Option (Name × Nat)
  constraints : Dict Name Nat
  maps : NodeMaps
  graph : Graph
  done : Dict Nat Nat
  sorted : List Nat

/-- an exception of one of the functions called -/
def raises {ε α : Type} (f : ε → BuildErr) : Except ε α → Except BuildErr α
  | .ok a => .ok a
  | .error e => .error (f e)

/-- csdl/rep/graph_representation.py:227-393 `GraphRepresentation.__init__`.  `order` is the order in which sets of nodes are iterated. -/
def compile (H : Objs) (fuel : Nat) (order : List Nat → List Nat) (root : OModel) : Except BuildErr Rep := do
  let r ← raises .promotions (resolve (root.toModel H) none)
  let cs ← raises .names (repConnections (root.toModel H) r.p2u)
  let dv ← raises .names (collectDecl Local.designVars r.p2u (root.toModel H) [] [])
  let ob ← raises .names (findObjective r.p2u (root.toModel H) [] none)
  let cn ← raises .names (collectDecl Local.constraints r.p2u (root.toModel H) [] [])
  let gk ← raises .graph (root.graphs H fuel)
  let f ← raises .flat (constructFlat H.info order r.p2u (createReverseMap r.p2u) gk.1 gk.2 (collectConnections (root.toModel H) []))
  let l ← raises .sort (flatSort f.2.1)
  pure ⟨r.p2u, cs, dv, ob, cn, f.1, f.2.1, f.2.2, l⟩

end Csdl
