import Verif.Model.Names
/-
Model of csdl/lang/define_models_recursively.py: running the user's `define` methods over a hierarchy of model objects, which may be shared, cyclic, and built repeatedly.
-/
namespace Csdl.Define
open Csdl

/-- The data of a `Model` object that `define_models_recursively` looks at (csdl/lang/model.py:49-98).  A model object is identified by a number; `subs` are the submodels in `model.subgraphs`.  A registered output carries
`some d` if it is a `Concatenation` whose attribute `defined` is `d` (csdl/lang/concatenation.py:47,141-142), `none` if it is any other output. -/
structure Obj where
  defined : Bool := false
  inputs : List Name := []
  outputs : List (Name × Option Bool) := []
  subs : List Nat := []
  designVars : List Name := []

/-- What one run of the user's `define` of a model leaves behind: the new lists of inputs, outputs and design variables, and the submodels it has added (`Model.add` only appends, csdl/lang/model.py:878-884). -/
structure Effect where
  inputs : List Name := []
  outputs : List (Name × Option Bool) := []
  newSubs : List Nat := []
  designVars : List Name := []

inductive DErr where
  | value | key | recursion | user
  deriving DecidableEq, Repr

/-- All model objects, and the models whose `define` has been run, in order. -/
structure DState where
  heap : Nat → Obj
  calls : List Nat := []

/-- The user's `define` methods: what running `define` of a model does in a given state, and the exception it raises, if any.  Simplification: `define` of a model changes that model only (it may create new model objects by adding them). -/
abbrev Prog := DState → Nat → Effect × Option DErr

/-- The object after the effect -/
def Obj.apply (o : Obj) (e : Effect) : Obj := { o with inputs := e.inputs, outputs := e.outputs, subs := o.subs ++ e.newSubs, designVars := e.designVars }

def DState.setObj (st : DState) (m : Nat) (o : Obj) : DState := { st with heap := fun k => if k = m then o else st.heap k }

/-- csdl/lang/define_models_recursively.py:19 `model.define()` -/
def DState.call (st : DState) (m : Nat) (e : Effect) : DState :=
  { heap := fun k => if k = m then (st.heap m).apply e else st.heap k, calls := st.calls ++ [m] }

/-- csdl/lang/define_models_recursively.py:27-52: the checks of a model; a model with inputs only gives a warning -/
def checks (o : Obj) : Option DErr :=
  if o.outputs.isEmpty && o.subs.isEmpty && o.inputs.isEmpty then some .value
  else if o.designVars.any (fun n => ! o.inputs.contains n) then some .key
  else if o.outputs.any (fun p => p.2 == some false) then some .value
  else none

/-- csdl/lang/define_models_recursively.py:22-24: the loop over the submodels; an exception ends it.  The list is that at the start of the loop; `C48_loop_list` shows that a loop that ends without exception does not change it. -/
def runList (f : DState → Nat → DState × Option DErr) : DState → List Nat → DState × Option DErr
  | st, [] => (st, none)
  | st, m :: ms =>
    match f st m with
    | (st', none) => runList f st' ms
    | r => r

/-- csdl/lang/define_models_recursively.py:10-53 `define_models_recursively`; the first argument is what is left of Python's recursion limit. -/
def defineRec (prog : Prog) : Nat → DState → Nat → DState × Option DErr
  | 0, st, _ => (st, some .recursion)
  | fuel + 1, st, m =>
    if (st.heap m).defined then (st, none)
    else
      match prog st m with
      | (e, some err) => (st.call m e, some err)
      | (e, none) =>
        match runList (defineRec prog fuel) (st.call m e) ((st.call m e).heap m).subs with
        | (st2, some err) => (st2, some err)
        | (st2, none) =>
          match checks (st2.heap m) with
          | some err => (st2, some err)
          | none => (st2.setObj m { st2.heap m with defined := true }, none)

/-- What a user does: build a representation of a model (csdl/rep/graph_representation.py:236), or edit a model object in between. -/
inductive UserOp where
  | build (root : Nat)
  | edit (m : Nat) (e : Effect)

/-- One operation; exceptions are caught by the user. -/
def step (prog : Prog) (limit : Nat) (st : DState) : UserOp → DState × Option DErr
  | .build r => defineRec prog limit st r
  | .edit m e => (st.setObj m ((st.heap m).apply e), none)

/-- A history of operations: the final state and the results. -/
def hist (prog : Prog) (limit : Nat) : DState → List UserOp → DState × List (Option DErr)
  | st, [] => (st, [])
  | st, op :: ops => let r := step prog limit st op; let q := hist prog limit r.1 ops; (q.1, r.2 :: q.2)

end Csdl.Define
