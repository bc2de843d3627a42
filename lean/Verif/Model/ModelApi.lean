import Verif.Model.Tree
import Mathlib.Data.Rat.Defs
import Mathlib.Algebra.Order.Ring.Unbundled.Rat
/-
Model of the imperative API of `csdl.Model` (csdl/lang/model.py:207-542): sequences of calls on any number of models that
share output objects and the global node counter.
-/
namespace Csdl.Api

/-- Exceptions raised by the API. -/
inductive Err where
  | key | value | type
  /-- the model or object does not exist: not expressible in Python, where calls are made on existing objects -/
  | noSuchObject
  deriving DecidableEq, Repr

/-- A bound of a constraint (csdl/utils/check_constraint_value_type.py): a number, an array, or an object of another type.
Simplification: numbers are rationals, arrays are one-dimensional. -/
inductive Bound where
  | num (q : Rat)
  | arr (l : List Rat)
  | other
  deriving DecidableEq

/-- csdl/utils/check_constraint_value_type.py:4-9: accepted values (no TypeError) -/
def Bound.ok : Option Bound → Bool
  | some .other => false
  | _ => true

/-- NumPy broadcasting of a number or one-dimensional array to `n` entries. -/
def Bound.entries : Bound → List Rat
  | .num q => [q]
  | .arr l => l
  | .other => []

/-- `np.greater(lower, upper)` with broadcasting; `none`: ValueError, shapes cannot be broadcast. -/
def npGreater (a b : List Rat) : Option (List Bool) :=
  if a.length = b.length then some (List.zipWith (fun x y => decide (y < x)) a b)
  else match a, b with
    | [x], b => some (b.map fun y => decide (y < x))
    | a, [y] => some (a.map fun x => decide (y < x))
    | _, _ => none

/-- Arguments `lower`, `upper`, `equals` of `add_constraint`. -/
structure ConstraintArgs where
  lower : Option Bound := none
  upper : Option Bound := none
  equals : Option Bound := none
  deriving DecidableEq

/-- The state of a `Model` object (csdl/lang/model.py:49-80).  `outputs` holds references to `Output` objects
(`registered_outputs` and `registered_outputs_set`); `outNames` is `registered_output_names_set`.  Inputs and declared
variables never change their name, so `input_names_set` and `declared_variable_names_set` are the names of the
lists. -/
structure MState where
  inputs : List Name := []
  declared : List Name := []
  outputs : List Nat := []
  outNames : List Name := []
  subgraphs : List Name := []
  objective : Option (Name × Nat) := none
  constraints : Dict Name ConstraintArgs := []
  designVars : Dict Name Nat := []
  connections : List (Name × Name) := []

/-- All models, the current name of every `Output` object, and the number of nodes created so far
(`Node._count + 1`, csdl/lang/node.py:24-30). -/
structure World where
  models : List MState := []
  objs : List Name := []
  nodes : Nat := 0

/-- Whether the `val`/`shape` arguments are accepted: `badType`: `check_default_val_type` raises TypeError before the
variable is constructed; `badShape`: `get_shape_val` raises ValueError in the constructor, after the node counter has been
incremented (csdl/lang/variable.py:43-48). -/
inductive ValArg where
  | good | badType | badShape
  deriving DecidableEq

/-- A call of the API. -/
inductive Call where
  /-- `Model()` -/
  | newModel
  /-- an expression that creates an `Output` object and `extra` further nodes (its operation, intermediate results) -/
  | newOutput (extra : Nat)
  | createInput (m : Nat) (name : Name) (val : ValArg)
  | declareVariable (m : Nat) (name : Name) (val : ValArg)
  /-- `register_output(name, var)`; `none`: `var` is not an `Output` -/
  | registerOutput (m : Nat) (name : Name) (var : Option Nat)
  | createOutput (m : Nat) (name : Name) (val : ValArg)
  /-- `add(submodel, name)`; `isModel = false`: the argument is not a `Model` -/
  | add (m : Nat) (name : Option Name) (isModel : Bool)
  | addObjective (m : Nat) (name : Name) (payload : Nat)
  | addDesignVariable (m : Nat) (name : Name) (payload : Nat)
  | addConstraint (m : Nat) (name : Name) (args : ConstraintArgs)
  | connect (m : Nat) (a b : Name)

/-- Replace the state of model `i`. -/
def World.put (w : World) (i : Nat) (s : MState) : World := { w with models := w.models.set i s }

/-- Names of the registered outputs of a model: `[x.name for x in self.registered_outputs]`. -/
def World.outputNames (w : World) (s : MState) : List Name := s.outputs.map fun o => w.objs.getD o []

/-- csdl/lang/model.py:430-485 `register_output` on the model `s = w.models[i]` -/
def registerOutput (w : World) (i : Nat) (s : MState) (name : Name) (var : Option Nat) : World × Option Err :=
  if checkBannedChars name = false then (w, some .value)
  else match var with
  | none => (w, some .type)
  | some o =>
    if o ∈ s.outputs then (w, some .value)
    else if name ∈ s.outNames then (w, some .value)
    else if name ∈ s.inputs then (w, some .value)
    else if name ∈ s.declared then (w, some .value)
    else
      let w := { w with objs := w.objs.set o name }
      (w.put i { s with outputs := s.outputs ++ [o], outNames := s.outNames ++ [name] }, none)

/-- csdl/lang/model.py:254-285 `add_constraint` -/
def addConstraint (w : World) (i : Nat) (s : MState) (name : Name) (a : ConstraintArgs) : World × Option Err :=
  if s.constraints.has name then (w, some .value)
  else if Bound.ok a.lower = false then (w, some .type)
  else if Bound.ok a.upper = false then (w, some .type)
  else if Bound.ok a.equals = false then (w, some .type)
  else
    let done := (w.put i { s with constraints := s.constraints.set name a }, none)
    match a.lower, a.upper with
    | some l, some u => match npGreater l.entries u.entries with
      | none => (w, some .value)
      | some g => if g.any id then (w, some .value) else done
    | _, _ => done

/-- One API call on the model `s = w.models[i]` it is made on. -/
def stepOn (w : World) (i : Nat) (s : MState) : Call → World × Option Err
  | .newModel => (w, none)
  | .newOutput _ => (w, none)
  -- csdl/lang/model.py:348-384
  | .createInput _ name val =>
    if checkBannedChars name = false then (w, some .value)
    else match val with
    | .badType => (w, some .type)
    | .badShape => ({ w with nodes := w.nodes + 1 }, some .value)
    | .good => ({ w with nodes := w.nodes + 1 }.put i { s with inputs := s.inputs ++ [name] }, none)
  -- csdl/lang/model.py:297-346
  | .declareVariable _ name val =>
    match val with
    | .badType => (w, some .type)
    | .badShape => ({ w with nodes := w.nodes + 1 }, some .value)
    | .good => ({ w with nodes := w.nodes + 1 }.put i { s with declared := s.declared ++ [name] }, none)
  | .registerOutput _ name var => registerOutput w i s name var
  -- csdl/lang/model.py:386-428
  | .createOutput _ name val =>
    if checkBannedChars name = false then (w, some .value)
    else match val with
    | .badType => (w, some .type)
    | .badShape => ({ w with nodes := w.nodes + 1 }, some .value)
    | .good =>
      let w := { w with nodes := w.nodes + 1, objs := w.objs ++ [name] }
      registerOutput w i s name (some (w.objs.length - 1))
  -- csdl/lang/model.py:487-542, csdl/lang/subgraph.py:11-31
  | .add _ name isModel =>
    if name.any (fun n => checkBannedChars n = false) then (w, some .value)
    else if isModel = false then (w, some .type)
    else if name.any (fun n => n ∈ s.subgraphs) then (w, some .key)
    else
      let w := { w with nodes := w.nodes + 1 }
      (w.put i { s with subgraphs := s.subgraphs ++ [name.getD (genHexName w.nodes)] }, none)
  -- csdl/lang/model.py:207-225
  | .addObjective _ name payload =>
    if s.objective.isSome then (w, some .value)
    else (w.put i { s with objective := some (name, payload) }, none)
  -- csdl/lang/model.py:227-252
  | .addDesignVariable _ name payload =>
    if name ∉ s.inputs then (w, some .key)
    else if s.designVars.has name then (w, some .key)
    else (w.put i { s with designVars := s.designVars.set name payload }, none)
  | .addConstraint _ name args => addConstraint w i s name args
  -- csdl/lang/model.py:287-295 (a repeated connection only issues a warning)
  | .connect _ a b =>
    if a = b then (w, some .key)
    else if (a, b) ∈ s.connections then (w, none)
    else (w.put i { s with connections := s.connections ++ [(a, b)] }, none)

/-- The model a call is made on. -/
def Call.model : Call → Option Nat
  | .newModel => none
  | .newOutput _ => none
  | .createInput m _ _ => some m
  | .declareVariable m _ _ => some m
  | .registerOutput m _ _ => some m
  | .createOutput m _ _ => some m
  | .add m _ _ => some m
  | .addObjective m _ _ => some m
  | .addDesignVariable m _ _ => some m
  | .addConstraint m _ _ => some m
  | .connect m _ _ => some m

/-- The output object a call refers to exists (always the case in Python). -/
def Call.wf (w : World) : Call → Bool
  | .registerOutput _ _ (some o) => decide (o < w.objs.length)
  | _ => true

/-- A call made on a model. -/
def stepModel (w : World) (c : Call) : World × Option Err :=
  match c.model.bind fun i => (w.models[i]?).map fun s => (i, s) with
  | none => (w, some .noSuchObject)
  | some (i, s) => stepOn w i s c

/-- One API call: the new state of all objects and the exception raised, if any. -/
def step (w : World) (c : Call) : World × Option Err :=
  if c.wf w = false then (w, some .noSuchObject)
  else match c with
  -- csdl/lang/model.py:49-80
  | .newModel => ({ w with models := w.models ++ [{}] }, none)
  -- csdl/lang/output.py:11-36, csdl/lang/variable.py:43-47: an expression result has its automatic name
  | .newOutput extra => ({ w with nodes := w.nodes + extra + 1, objs := w.objs ++ [genHexName (w.nodes + extra)] }, none)
  | c => stepModel w c

/-- The state after a sequence of calls; exceptions are caught by the caller. -/
def run (w : World) (cs : List Call) : World := cs.foldl (fun w c => (step w c).1) w

/-- The state after a sequence of calls from the start of the program. -/
def exec (cs : List Call) : World := run {} cs

end Csdl.Api
