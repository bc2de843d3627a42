import Verif.Model.Implicit
/-
Model of implicit operations with brackets, default values and solvers: csdl/lang/implicit_operation_factory.py:18-96, csdl/lang/model.py:38-43, 544-741 (`_bracketed_search`),
743-933 (`_implicit_operation`), csdl/lang/bracketed_search_operation.py:15-66, csdl/lang/implicit_operation.py:20-69, csdl/lang/operation.py:13-40.
-/
namespace Csdl

/-- One end of a bracket: a number, an array, or a csdl variable (its identity and shape).  The values of numbers and arrays are represented by a tag. -/
inductive BVal where
  | number (tag : Nat)
  | array (tag : Nat) (shape : Shape)
  | var (id : Nat) (shape : Shape)
  deriving DecidableEq, Repr

/-- csdl/lang/model.py:38-43 `_to_array` followed by `.shape`: a number becomes an array of shape `()` -/
def BVal.shape : BVal → Shape
  | .number _ => []
  | .array _ s => s
  | .var _ s => s

/-- csdl/lang/model.py:38-43 `_to_array` -/
def toArray : BVal → BVal
  | .number t => .array t []
  | .array t s => .array t s
  | .var i s => .var i s

/-- One call `declare_state(state, bracket=..., val=..., residual=...)`.  A bracket is any Python sequence. -/
structure DeclState where
  state : Name
  residual : Name
  val : StateVal
  bracket : Option (List BVal)

/-- csdl/lang/implicit_operation_factory.py:18-31: the factory, with its brackets -/
structure BFactory where
  residuals : List Name := []
  brackets : Dict Name (List BVal) := []
  states : Dict Name StateVal := []

/-- csdl/lang/implicit_operation_factory.py:46-47 -/
def setBracket (d : Dict Name (List BVal)) (s : Name) : Option (List BVal) → Dict Name (List BVal)
  | some b => d.set s b
  | none => d

/-- csdl/lang/implicit_operation_factory.py:33-52 `declare_state` -/
def BFactory.declareState (f : BFactory) (c : DeclState) : BFactory :=
  ⟨f.residuals ++ [c.residual], setBracket f.brackets c.state c.bracket, f.states.set c.state c.val⟩

/-- a sequence of `declare_state` calls -/
def BFactory.declareAll (cs : List DeclState) : BFactory := cs.foldl BFactory.declareState {}

/-- An argument of the call: identity, name and shape of a variable. -/
abbrev Arg := Nat × Name × Shape

/-- Which check failed.  All are ValueError, except `index`, an IndexError. -/
inductive BrErr where
  | imp (e : ImpErr) | noState | notPair | shapes | missing | defaultType | index | linearSolver
  deriving DecidableEq, Repr

/-- errors of the part shared with `Model/Implicit.lean` -/
def liftImp {α : Type} : Except ImpErr α → Except BrErr α
  | .ok a => .ok a
  | .error e => .error (.imp e)

/-- csdl/lang/model.py:700-711: one bracket of a state -/
def checkBracket : List BVal → Except BrErr (BVal × BVal)
  | [a, b] => if (toArray a).shape ≠ (toArray b).shape then .error .shapes else .ok (toArray a, toArray b)
  | _ => .error .notPair

/-- csdl/lang/model.py:690-712: the loop over `brackets.items()`; `missing` is `states_without_brackets` -/
def checkBrackets (states : List Name) : List (Name × List BVal) → List Name → Dict Name (BVal × BVal) → Except BrErr (List Name × Dict Name (BVal × BVal))
  | [], missing, d => .ok (missing, d)
  | (k, v) :: l, missing, d =>
    if k ∉ states then .error .noState
    else match checkBracket v with
      | .error e => .error e
      | .ok p => checkBrackets states l (missing.erase k) (d.set k p)

/-- csdl/lang/bracketed_search_operation.py:62-66: the variables at the ends of a bracket -/
def endVars : BVal → List Nat
  | .var i _ => [i]
  | _ => []

/-- An operation created by a call: its maps, the variables it depends on in order, its brackets and its default values. -/
structure ImpOp where
  maps : IMaps
  deps : List Nat
  brackets : Dict Name (BVal × BVal) := []
  defaults : Dict Name Nat := []

/-- csdl/lang/model.py:714-717: all states must have a bracket -/
def requireBrackets (r : List Name × Dict Name (BVal × BVal)) : Except BrErr (Dict Name (BVal × BVal)) :=
  if r.1.length > 0 then .error .missing else .ok r.2

/-- csdl/lang/model.py:1137-1193 `_return_implicit_outputs`, as in `implicitCall` -/
def returnOuts (M : IModel) (used : List Name) (states : List (Name × StateVal)) (expose : List Name) : Except ImpErr (List (Name × Shape)) := do
  let outs ← stateOuts M states
  registerNew used (outs ++ exposedOuts M expose)
  pure (outs ++ exposedOuts M expose)

/-- csdl/lang/model.py:544-741 `_bracketed_search` -/
def bracketedSearch (M : IModel) (fuel : Nat) (used : List Name) (f : BFactory) (args : List Arg) (expose : List Name) : Except BrErr (ImpOp × List (Name × Shape)) := do
  let maps ← liftImp (genMaps M fuel (args.map (·.2)) (f.states.map (·.1)) f.residuals expose)
  let r ← checkBrackets (f.states.map (·.1)) f.brackets (f.states.map (·.1)) []
  let brs ← requireBrackets r
  let outs ← liftImp (returnOuts M used f.states expose)
  pure (⟨maps, args.map (·.1) ++ (brs.flatMap fun e => endVars e.2.1 ++ endVars e.2.2), brs, []⟩, outs)

/-- A default value in a call: a number, an array (tag and shape), or something else. -/
inductive DVal where
  | number (tag : Nat)
  | array (tag : Nat) (shape : Shape)
  | other
  deriving DecidableEq, Repr

/-- csdl/lang/model.py:897-907: an array given as the default of state `k`; `f` is the list of registered outputs of that name -/
def arrayDefault (M : IModel) (t : Nat) (s : Shape) : List Nat → Except BrErr Nat
  | [] => .error .index
  | x :: _ => if M.shape x ≠ s then .error .shapes else .ok t

/-- csdl/lang/model.py:886-907: the loop over `defaults.items()` -/
def checkDefaults (M : IModel) (states : List Name) : List (Name × DVal) → Dict Name Nat → Except BrErr (Dict Name Nat)
  | [], d => .ok d
  | (k, v) :: l, d =>
    if k ∉ states then .error .noState
    else match v with
      | .other => .error .defaultType
      | .number _ => checkDefaults M states l d
      | .array t s =>
        match arrayDefault M t s (M.outputs.filter fun x => (M.h x).name = k) with
        | .error e => .error e
        | .ok t => checkDefaults M states l (d.set k t)

/-- Nonlinear solvers: csdl/solvers/nonlinear/ -/
inductive NlSolver where
  | unset | newton | broyden | other
  deriving DecidableEq, Repr

/-- csdl/lang/implicit_operation.py:53-57 -/
def solverCheck (nl : NlSolver) (linear : Bool) : Except BrErr Unit :=
  if linear = false ∧ (nl = .newton ∨ nl = .broyden) then .error .linearSolver else .ok ()

/-- csdl/lang/model.py:743-933 `_implicit_operation` -/
def implicitOperation (M : IModel) (fuel : Nat) (used : List Name) (f : BFactory) (args : List Arg) (expose : List Name) (defaults : List (Name × DVal))
    (nl : NlSolver) (linear : Bool) : Except BrErr (ImpOp × List (Name × Shape)) := do
  let maps ← liftImp (genMaps M fuel (args.map (·.2)) (f.states.map (·.1)) f.residuals expose)
  let ds ← checkDefaults M (f.states.map (·.1)) defaults []
  solverCheck nl linear
  let outs ← liftImp (returnOuts M used f.states expose)
  pure (⟨maps, args.map (·.1), [], ds⟩, outs)

/-- csdl/lang/implicit_operation_factory.py:69-96 `__call__`, `apply` -/
def factoryApply (M : IModel) (fuel : Nat) (used : List Name) (f : BFactory) (args : List Arg) (expose : List Name) (defaults : List (Name × DVal))
    (nl : NlSolver) (linear : Bool) : Except BrErr (ImpOp × List (Name × Shape)) :=
  if f.brackets.length > 0 then bracketedSearch M fuel used f args expose
  else implicitOperation M fuel used f args expose defaults nl linear

end Csdl
