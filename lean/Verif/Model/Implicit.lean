import Verif.Model.BuildGraph
import Verif.Model.ModelApi
import Verif.Model.Tree
/-
Model of implicit operations: csdl/utils/collect_terminals.py:9-49, csdl/lang/implicit_operation_factory.py:18-96,
csdl/lang/model.py:869-933, 935-1135 (`_generate_maps_for_implicit_operation`) and 1137-1196 (`_return_implicit_outputs`).
-/
namespace Csdl

/-! ### collect_terminals -/

/-- terminals found so far, variables visited so far -/
abbrev TState := List Nat × List Nat

/-- csdl/utils/collect_terminals.py:9-11 `isterminal` -/
def isTerminal (h : Heap) (v : Nat) : Bool := decide ((h v).kind = .var) && decide ((h v).deps = [])

/-- `for x in l: st = f(st, x)`; `none`: out of fuel -/
def foldOpt {α : Type} (f : TState → α → Option TState) : TState → List α → Option TState
  | st, [] => some st
  | st, a :: l =>
    match f st a with
    | none => none
    | some st => foldOpt f st l

/-- csdl/utils/collect_terminals.py:24-34: one dependency `w` of an operation; `rec` is `collect_terminals` on `w` -/
def visitDep (h : Heap) (rname : Name) (rec : TState → Nat → Option TState) (st : TState) (w : Nat) : Option TState :=
  if w ∈ st.2 then some st
  else if (h w).name ≠ rname then rec (if isTerminal h w then w :: st.1 else st.1, w :: st.2) w
  else some (st.1, w :: st.2)

/-- csdl/utils/collect_terminals.py:37-49 `collect_terminals`, with `collect_terminals2` (14-34) inlined.  `rname` is `residual.name`.  `fuel` bounds the depth of recursion
(the theorems show how much is enough; Python's own recursion limit is not modelled). -/
def collectTerminals (h : Heap) (rname : Name) : Nat → TState → Nat → Option TState
  | 0, _, _ => none
  | fuel + 1, st, v => foldOpt (fun st op => foldOpt (visitDep h rname (collectTerminals h rname fuel)) st (h op).deps) st (h v).deps

/-! ### implicit operations -/

/-- The model that defines the residuals, after it has been defined: its objects and lists of objects. -/
structure IModel where
  h : Heap
  shape : Nat → Shape
  inputs : List Nat := []
  outputs : List Nat := []
  declared : List Nat := []

/-- A Python value given for a state: a number, or an array of some shape. -/
inductive StateVal where
  | number
  | array (shape : Shape)
  deriving DecidableEq, Repr

/-- Errors (all are ValueError in csdl): which check failed. -/
inductive ImpErr where
  | inputs | dupArgs | dupStates | dupResiduals | count | arg | argShape | state | residual | expose | shape | dependency | value | register
  deriving DecidableEq, Repr

/-- csdl/lang/implicit_operation_factory.py:18-52: `declare_state` appends to `residuals` and sets an entry of `states`. -/
structure Factory where
  residuals : List Name := []
  states : Dict Name StateVal := []

def Factory.declareState (f : Factory) (c : Name × Name × StateVal) : Factory := ⟨f.residuals ++ [c.2.1], f.states.set c.1 c.2.2⟩

/-- a sequence of `declare_state(state, residual=..., val=...)` calls -/
def Factory.declareAll (cs : List (Name × Name × StateVal)) : Factory := cs.foldl Factory.declareState {}

/-- `{x.name: x for x in l}` -/
def nameMap (h : Heap) (l : List Nat) : Dict Name Nat := Dict.ofPairs (l.map fun x => ((h x).name, x))

/-- csdl/lang/model.py:1001-1014: the arguments -/
def checkArgs (M : IModel) : List (Name × Shape) → Except ImpErr Unit
  | [] => .ok ()
  | a :: as =>
    match (nameMap M.h M.declared).get? a.1 with
    | none => .error .arg
    | some v => if a.2 ≠ M.shape v then .error .argShape else checkArgs M as

/-- csdl/lang/model.py:1018-1022, 1030-1034, 1042-1046: names must be in a map -/
def checkNames (d : Dict Name Nat) (e : ImpErr) : List Name → Except ImpErr Unit
  | [] => .ok ()
  | x :: xs => if d.has x then checkNames d e xs else .error e

/-- csdl/lang/model.py:1051-1060: `out_res_map`, `res_out_map` -/
def pairUp (M : IModel) : List (Name × Name) → Dict Name Nat × Dict Name Nat → Except ImpErr (Dict Name Nat × Dict Name Nat)
  | [], m => .ok m
  | (s, r) :: l, m =>
    match (nameMap M.h M.outputs).get? r, (nameMap M.h M.declared).get? s with
    | some ro, some so => if M.shape ro ≠ M.shape so then .error .shape else pairUp M l (m.1.set s ro, m.2.set r so)
    | _, _ => .error .residual

/-- csdl/lang/model.py:1074-1081, 1102-1110: terminals of one output.  The order of `list(set(...))` is arbitrary. -/
def terminalsOf (M : IModel) (fuel : Nat) (r : Nat) : Option (List Nat) := (collectTerminals M.h (M.h r).name fuel ([], []) r).map (·.1)

/-- csdl/lang/model.py:1070-1095, 1097-1118: `out_in_map` -/
def inMap (M : IModel) (fuel : Nat) (keep : List Name) (needState : Bool) : List (Name × Nat) → Except ImpErr (Dict Name (List Nat))
  | [] => .ok []
  | (s, r) :: l =>
    match terminalsOf M fuel r with
    | none => .error .dependency
    | some ts =>
      if needState = true ∧ s ∉ ts.map (fun v => (M.h v).name) then .error .dependency
      else match inMap M fuel keep needState l with
        | .error e => .error e
        | .ok d => .ok ((s, ts.filter fun v => (M.h v).name ∈ keep) :: d)

/-- The result of csdl/lang/model.py:935-1135. -/
structure IMaps where
  outRes : Dict Name Nat
  resOut : Dict Name Nat
  outIn : Dict Name (List Nat)
  expIn : Dict Name (List Nat)
  exposed : List Nat
  exposedResiduals : List Name

/-- csdl/lang/model.py:935-1135 `_generate_maps_for_implicit_operation`.  Not modelled here: `GraphRepresentation(model)` (line 949), which may raise.  The
check of '.' in exposed names (972-976) creates an exception without raising it. -/
def genMaps (M : IModel) (fuel : Nat) (args : List (Name × Shape)) (states residuals expose : List Name) : Except ImpErr IMaps :=
  if M.inputs ≠ [] then .error .inputs
  else if ¬ (args.map (·.1)).Nodup then .error .dupArgs
  else if ¬ states.Nodup then .error .dupStates
  else if ¬ residuals.Nodup then .error .dupResiduals
  else if states.length ≠ residuals.length then .error .count
  else do
    checkArgs M args
    checkNames (nameMap M.h M.declared) .state states
    checkNames (nameMap M.h M.outputs) .residual residuals
    checkNames (nameMap M.h M.outputs) .expose expose
    let m ← pairUp M (states.zip residuals) ([], [])
    let outIn ← inMap M fuel (args.map (·.1) ++ states) true m.1
    let expIn ← inMap M fuel (args.map (·.1) ++ states) false (expose.filterMap fun e => ((nameMap M.h M.outputs).get? e).map fun r => (e, r))
    pure ⟨m.1, m.2, outIn, Dict.ofPairs expIn, M.outputs.filter (fun x => (M.h x).name ∈ expose), expose.filter (· ∈ residuals)⟩

/-- csdl/utils/get_shape_val.py:26-46 for a shape and a number or an array -/
def stateShape (shape : Shape) : StateVal → Except ImpErr Shape
  | .number => .ok shape
  | .array s => if shape = [1] then .ok s else if s = shape then .ok shape else .error .value

/-- csdl/lang/model.py:1150-1164: the outputs for the states; the first declared variable of that name is used -/
def stateOuts (M : IModel) : List (Name × StateVal) → Except ImpErr (List (Name × Shape))
  | [] => .ok []
  | (s, v) :: l =>
    match M.declared.filter (fun x => (M.h x).name = s) with
    | [] => .error .state
    | x :: _ =>
      match stateShape (M.shape x) v with
      | .error e => .error e
      | .ok sh =>
        match stateOuts M l with
        | .error e => .error e
        | .ok outs => .ok ((s, sh) :: outs)

/-- csdl/lang/model.py:1167-1183: the outputs for exposed variables, in the order of `model.registered_outputs` -/
def exposedOuts (M : IModel) (expose : List Name) : List (Name × Shape) :=
  (M.outputs.filter fun x => (M.h x).name ∈ expose).map fun x => ((M.h x).name, M.shape x)

/-- csdl/lang/model.py:430-485 `register_output` of new outputs in the calling model, whose names in use are `used`.  Simplification: on failure the outputs registered
before remain registered in csdl; this is not modelled. -/
def registerNew : List Name → List (Name × Shape) → Except ImpErr Unit
  | _, [] => .ok ()
  | used, o :: os => if checkBannedChars o.1 = false ∨ o.1 ∈ used then .error .register else registerNew (o.1 :: used) os

/-- csdl/lang/implicit_operation_factory.py:69-96 and csdl/lang/model.py:869-933: calling the factory, without brackets and defaults.  Result: the maps stored
on the operation and the returned outputs. -/
def implicitCall (M : IModel) (fuel : Nat) (used : List Name) (f : Factory) (args : List (Name × Shape)) (expose : List Name) : Except ImpErr (IMaps × List (Name × Shape)) := do
  let maps ← genMaps M fuel args (f.states.map (·.1)) f.residuals expose
  let outs ← stateOuts M f.states
  registerNew used (outs ++ exposedOuts M expose)
  pure (maps, outs ++ exposedOuts M expose)

end Csdl
