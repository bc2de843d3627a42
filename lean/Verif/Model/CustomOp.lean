import Verif.Model.ShapeVal
import Verif.Model.Dict
import Verif.Model.Names
/-
Model of csdl/lang/custom_operation.py and csdl/std/custom.py.
-/
namespace Csdl.Custom
open Csdl

/-- Python exceptions. -/
inductive CErr where
  | key | value | type | recursion
  deriving DecidableEq, Repr

/-- A `CustomOperation` object: `input_meta`, `output_meta`, `nargs`, `nouts`, `derivatives_meta`, `dependencies`.  Of the metadata of an input or output only the shape is kept; `none`:
the dictionary was created but `get_shape_val` raised (csdl/lang/custom_operation.py:125-127, 173-175).  `D` is the metadata of a derivative. -/
structure Op (D : Type) where
  inputs : Dict Name (Option Shape) := []
  outputs : Dict Name (Option Shape) := []
  nargs : Nat := 0
  nouts : Nat := 0
  derivs : Dict (Name × Name) D := []
  deps : List (Name × Shape) := []

/-- csdl/lang/custom_operation.py:85-130 `add_input` -/
def addInput {D V : Type} [Mul V] [One V] (o : Op D) (name : Name) (shape : ShapeArg) (val : ValArg V) : Op D × Option CErr :=
  if o.inputs.has name then (o, some .key)
  else match getShapeVal shape val false with
    | none => ({ o with inputs := o.inputs.set name none }, some .value)
    | some (s, _) => ({ o with inputs := o.inputs.set name (some s), nargs := o.nargs + 1 }, none)

/-- csdl/lang/custom_operation.py:132-178 `add_output` -/
def addOutput {D V : Type} [Mul V] [One V] (o : Op D) (name : Name) (shape : ShapeArg) (val : ValArg V) : Op D × Option CErr :=
  if o.inputs.has name then (o, some .key)
  else match getShapeVal shape val false with
    | none => ({ o with outputs := o.outputs.set name none }, some .value)
    | some (s, _) => ({ o with outputs := o.outputs.set name (some s), nouts := o.nouts + 1 }, none)

/-- An argument `of` or `wrt`: a string or a list of strings. -/
inductive Names where
  | str (s : Name)
  | list (l : List Name)

/-- csdl/lang/custom_operation.py:244-262: `of_list`, `wrt_list`; `all` is the list of all outputs or inputs -/
def expandNames (all : List Name) : Names → List Name
  | .str s => if s = ['*'] then all else []
  | .list l => if ['*'] ∈ l then all else l

/-- continue unless an exception was raised -/
def andThen {S : Type} (r : S × Option CErr) (k : S → S × Option CErr) : S × Option CErr :=
  match r with
  | (s, none) => k s
  | (s, some e) => (s, some e)

/-- a loop that ends at the first exception -/
def loopErr {α S : Type} (f : S → α → S × Option CErr) : S → List α → S × Option CErr
  | s, [] => (s, none)
  | s, a :: l => andThen (f s a) fun s => loopErr f s l

/-- csdl/lang/custom_operation.py:309-321: one derivative.  A list is not hashable: TypeError. -/
def declareOne {D : Type} (o : Op D) (of wrt : Names) (d : D) : Op D × Option CErr :=
  match of, wrt with
  | .str a, .str b => if o.derivs.has (a, b) then (o, some .key) else ({ o with derivs := o.derivs.set (a, b) d }, none)
  | _, _ => (o, some .type)

/-- csdl/lang/custom_operation.py:180-321 `declare_derivatives`.  `fuel` is what is left of Python's recursion limit. -/
def declareDerivatives {D : Type} (d : D) : Nat → Op D → Names → Names → Op D × Option CErr
  | 0, o, _, _ => (o, some .recursion)
  | fuel + 1, o, of, wrt =>
    let ofs := expandNames (o.outputs.map (·.1)) of
    let wrts := expandNames (o.inputs.map (·.1)) wrt
    if ofs ≠ [] ∧ wrts ≠ [] then
      loopErr (fun o a => loopErr (fun o b => declareDerivatives d fuel o (.str a) (.str b)) o wrts) o ofs
    else if ofs ≠ [] then loopErr (fun o a => declareDerivatives d fuel o (.str a) wrt) o ofs
    else if wrts ≠ [] then loopErr (fun o b => declareDerivatives d fuel o of (.str b)) o wrts
    else declareOne o of wrt d

/-- A call of a user's `define` method on the operation. -/
inductive CCall (V D : Type) where
  | input (name : Name) (shape : ShapeArg) (val : ValArg V)
  | output (name : Name) (shape : ShapeArg) (val : ValArg V)
  | derivs (of wrt : Names) (d : D)

/-- one call; Python's recursion limit is 1000 -/
def step {V D : Type} [Mul V] [One V] (limit : Nat) (o : Op D) : CCall V D → Op D × Option CErr
  | .input n s v => addInput o n s v
  | .output n s v => addOutput o n s v
  | .derivs of wrt d => declareDerivatives d limit o of wrt

/-- any sequence of calls, whether they raise or not -/
def run {V D : Type} [Mul V] [One V] (limit : Nat) (o : Op D) (cs : List (CCall V D)) : Op D := cs.foldl (fun o c => (step limit o c).1) o

/-- csdl/std/custom.py:19-34: the arguments are matched with the inputs.  Not modelled: the values. -/
def matchArgs {D : Type} : Op D → List ((Name × Shape) × Name) → Op D × Option CErr
  | o, [] => (o, none)
  | o, (arg, key) :: l =>
    if arg.1 ≠ key then (o, some .value)
    else match o.inputs.get? arg.1 with
      | some (some s) => if arg.2 ≠ s then (o, some .value) else matchArgs { o with deps := o.deps ++ [arg] } l
      | _ => (o, some .key)

/-- csdl/std/custom.py:40-55: the outputs -/
def makeOuts : List (Name × Option Shape) → Option (List (Name × Shape))
  | [] => some []
  | (n, some s) :: l => (makeOuts l).map ((n, s) :: ·)
  | (_, none) :: _ => none

/-- csdl/std/custom.py:8-55 `custom(*args, op=op)`, where `define` makes the calls `cs` and lets exceptions through.  Result: the returned outputs. -/
def custom {V D : Type} [Mul V] [One V] (limit : Nat) (o : Op D) (cs : List (CCall V D)) (args : List (Name × Shape)) : Op D × Except CErr (List (Name × Shape)) :=
  match loopErr (step limit) o cs with
  | (o, some e) => (o, .error e)
  | (o, none) =>
    if args.length ≠ o.inputs.length then (o, .error .type)
    else match matchArgs o (args.zip (o.inputs.map (·.1))) with
      | (o, some e) => (o, .error e)
      | (o, none) =>
        match makeOuts o.outputs with
        | none => (o, .error .key)
        | some outs => (o, .ok outs)

end Csdl.Custom
