import Verif.Model.Promotions
/-
Model of the collection of connections, design variables, constraints and the objective
(csdl/rep/collect_*.py, csdl/rep/find_objective.py, csdl/rep/graph_representation.py) and of the key lookup of
the simulator (csdl/sim/simulator_base.py).
-/
namespace Csdl

/-- Errors of the collection functions. -/
inductive CErr where
  /-- KeyError: name not found (csdl/utils/find_promoted_name.py:11, csdl/sim/simulator_base.py:157-159) -/
  | unknown
  /-- ValueError of collect_constraints.py:31-34, collect_design_variables.py:31-32, find_objective.py:29-32 -/
  | redundant
  deriving DecidableEq, Repr

/-- csdl/utils/find_promoted_name.py:4-11 -/
def findPromotedName (name : Name) (p2u : Dict Name (List Name)) (u2p : Dict Name Name) : Except CErr Name :=
  if p2u.has name then .ok name
  else match u2p.get? name with
    | some p => .ok p
    | none => .error .unknown

mutual
/-- csdl/rep/collect_connections.py:5-41: triples (source, target, namespace), submodels first. -/
def collectConnections : Model → Name → List (Name × Name × Name)
  | .mk l subs, ns => collectConnectionsSubs subs ns ++ l.connections.map fun ab => (ab.1, ab.2, ns)
def collectConnectionsSubs : Subs → Name → List (Name × Name × Name)
  | .nil, _ => []
  | .cons n _ m rest, ns => collectConnections m (prependNamespace ns n) ++ collectConnectionsSubs rest ns
end

/-- `list(dict.fromkeys(l))` (csdl/rep/graph_representation.py:259): insert the elements in order into a dictionary and
list its keys. -/
def dictFromKeys {α : Type} [DecidableEq α] (l : List α) : List α :=
  l.foldl (fun acc x => if x ∈ acc then acc else acc ++ [x]) []

/-- csdl/rep/graph_representation.py:239-259 `self.connections` -/
def repConnections (m : Model) (p2u : Dict Name (List Name)) : Except CErr (List (Name × Name)) := do
  let u2p := createReverseMap p2u
  let cs ← (collectConnections m []).mapM fun abc => do
    let a ← findPromotedName (prependNamespace abc.2.2 abc.1) p2u u2p
    let b ← findPromotedName (prependNamespace abc.2.2 abc.2.1) p2u u2p
    pure (a, b)
  pure (dictFromKeys cs)

/-- `model.promoted_to_unpromoted` of a submodel, stored by csdl/rep/resolve_promotions.py:347.  It does not depend on
the `promotes` argument.  Only used after promotions of the whole hierarchy have been resolved. -/
def storedP2u (m : Model) : Dict Name (List Name) :=
  match resolve m none with
  | .ok r => r.p2u
  | .error _ => []

/-- csdl/rep/collect_constraints.py:18-27 and, identical, collect_design_variables.py:18-27 and
find_objective.py:18-27: the name is looked up first in the model's own maps, then, with the namespace, in the maps of
the main model. -/
def lookupTwice (p2u : Dict Name (List Name)) (m : Model) (ns k : Name) : Except CErr Name := do
  let n ← findPromotedName k (storedP2u m) (createReverseMap (storedP2u m))
  findPromotedName (prependNamespace ns n) p2u (createReverseMap p2u)

/-- csdl/rep/collect_constraints.py:17-36, collect_design_variables.py:17-34: one pass through the declarations of
one model. -/
def collectOwn (p2u : Dict Name (List Name)) (m : Model) (ns : Name) :
    List (Name × Nat) → Dict Name Nat → Except CErr (Dict Name Nat)
  | [], acc => .ok acc
  | (k, d) :: rest, acc => do
    let name ← lookupTwice p2u m ns k
    if acc.has name then .error .redundant
    else collectOwn p2u m ns rest (acc.set name d)

mutual
/-- csdl/rep/collect_constraints.py:10-47 (`sel := Local.constraints`) and
csdl/rep/collect_design_variables.py:10-45 (`sel := Local.designVars`). -/
def collectDecl (sel : Local → Dict Name Nat) (p2u : Dict Name (List Name)) :
    Model → Name → Dict Name Nat → Except CErr (Dict Name Nat)
  | .mk l subs, ns, acc => do
    let acc ← collectOwn p2u (.mk l subs) ns (sel l) acc
    collectDeclSubs sel p2u subs ns acc
def collectDeclSubs (sel : Local → Dict Name Nat) (p2u : Dict Name (List Name)) :
    Subs → Name → Dict Name Nat → Except CErr (Dict Name Nat)
  | .nil, _, acc => .ok acc
  | .cons n _ m rest, ns, acc => do
    let acc ← collectDecl sel p2u m (prependNamespace ns n) acc
    collectDeclSubs sel p2u rest ns acc
end

mutual
/-- csdl/rep/find_objective.py:10-46; the objective is its name and its payload. -/
def findObjective (p2u : Dict Name (List Name)) : Model → Name → Option (Name × Nat) → Except CErr (Option (Name × Nat))
  | .mk l subs, ns, obj => do
    let obj ← match l.objective with
      | none => pure obj
      | some (k, d) => do
        let name ← lookupTwice p2u (.mk l subs) ns k
        if obj.isSome then .error .redundant else pure (some (name, d))
    findObjectiveSubs p2u subs ns obj
def findObjectiveSubs (p2u : Dict Name (List Name)) : Subs → Name → Option (Name × Nat) →
    Except CErr (Option (Name × Nat))
  | .nil, _, obj => .ok obj
  | .cons n _ m rest, ns, obj => do
    let obj ← findObjective p2u m (prependNamespace ns n) obj
    findObjectiveSubs p2u rest ns obj
end

mutual
/-- Side effect of `find_objective` on the models (csdl/rep/find_objective.py:34-35): `objective = model.objective;
objective['name'] = name` overwrites the name stored in the model. -/
def objectiveMutates (p2u : Dict Name (List Name)) : Model → Name → Model
  | .mk l subs, ns =>
    let l' := match l.objective with
      | none => l
      | some (k, d) => match lookupTwice p2u (.mk l subs) ns k with
        | .ok name => { l with objective := some (name, d) }
        | .error _ => l
    .mk l' (objectiveMutatesSubs p2u subs ns)
def objectiveMutatesSubs (p2u : Dict Name (List Name)) : Subs → Name → Subs
  | .nil, _ => .nil
  | .cons n p m rest, ns => .cons n p (objectiveMutates p2u m (prependNamespace ns n)) (objectiveMutatesSubs p2u rest ns)
end

/-- csdl/rep/graph_representation.py:236-322 restricted to the objective: resolve the promotions, find the objective.
Returns the objective and the model as it is left behind. -/
def buildObjective (m : Model) : Except (PErr ⊕ CErr) (Option (Name × Nat) × Model) :=
  match resolve m none with
  | .error e => .error (.inl e)
  | .ok r => match findObjective r.p2u m [] none with
    | .error e => .error (.inr e)
    | .ok o => .ok (o, objectiveMutates r.p2u m [])

/-! ### simulator -/

/-- State of a `Simulator`: the two maps of the representation and the storage of the back end, a
mapping from promoted names to values.  `SimulatorBase.executable` is supplied by the back end; it is modelled as a
dictionary. -/
structure Sim (V : Type) where
  p2u : Dict Name (List Name)
  u2p : Dict Name Name
  executable : Dict Name V

/-- csdl/sim/simulator_base.py:144-159 `_find_promoted_name` -/
def Sim.findName {V : Type} (s : Sim V) (key : Name) : Except CErr Name :=
  if s.p2u.has key then .ok key
  else match s.u2p.get? key with
    | some k => .ok k
    | none => .error .unknown

/-- csdl/sim/simulator_base.py:130-136 `__getitem__` (the warning is not modelled) -/
def Sim.getItem {V : Type} (s : Sim V) (key : Name) : Except CErr V := do
  let k ← s.findName key
  match s.executable.get? k with
  | some v => .ok v
  | none => .error .unknown

/-- csdl/sim/simulator_base.py:138-142 `__setitem__` -/
def Sim.setItem {V : Type} (s : Sim V) (key : Name) (v : V) : Except CErr (Sim V) := do
  let k ← s.findName key
  pure { s with executable := s.executable.set k v }

end Csdl
