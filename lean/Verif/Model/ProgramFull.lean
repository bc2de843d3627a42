import Verif.Model.Program
import Verif.Model.CustomOp
import Verif.Model.Implicit
/-
Model of csdl programs with custom operations, implicit operations and optimisation declarations: the statements of Verif/Model/Program.lean and
csdl/std/custom.py:8-55, csdl/lang/model.py:207-285 (`add_objective`, `add_design_variable`, `add_constraint`), 743-933 (`_implicit_operation`), 1137-1196.
Simplifications: the results of a custom operation are registered as outputs right after the call, and its operation object is created for the call; the objects of the models that define residuals, and their
representations, are not counted among the objects of the program; no brackets, defaults or solvers (Verif/Model/Bracket.lean, Verif/Model/Solvers.lean); the values given to the optimisation
declarations are stood for by a number, and not checked (Verif/Model/ModelApi.lean); no `print_var`.
-/
namespace Csdl.Prog
open Csdl Csdl.Arith

/-- The functions called in a program: standard operations, custom operations and implicit operations. -/
inductive Fun (F G I : Type) where
  | std (f : F)
  | custom (g : G)
  | implicit (i : I)

/-- A statement; `plain`: one of those of Verif/Model/Program.lean. -/
inductive XStmt (K F G I : Type) where
  | plain (s : Stmt K F)
  /-- `x, y, ... = csdl.custom(*args, op=g)`, where the `define` method of `g` makes the calls `calls`; then `self.register_output(name, x)` for each result, with the names `names` -/
  | custom (g : G) (calls : List (Custom.CCall K Nat)) (args : List Nat) (names : List Name)
  /-- `x, y, ... = op(*args, expose=expose)` for an implicit operation `op` defined by the model `M` and the `declare_state` calls in `fac`; `fuel`: see Verif/Model/Implicit.lean -/
  | implicit (i : I) (M : IModel) (fuel : Nat) (fac : Factory) (expose : List Name) (args : List Nat)
  /-- `self.add_design_variable(name, ...)`; `d` stands for the other arguments -/
  | designVar (name : Name) (d : Nat)
  /-- `self.add_constraint(name, ...)` -/
  | constraint (name : Name) (d : Nat)
  /-- `self.add_objective(name, ...)` -/
  | objective (name : Name) (d : Nat)

/-- The statements of a `define` method; `add`: as in Verif/Model/Program.lean. -/
inductive XBody (K F G I : Type) where
  | done
  | stmt (s : XStmt K F G I) (rest : XBody K F G I)
  | add (inline : Bool) (name : Name) (promotes : Option (List Name)) (sub rest : XBody K F G I)

variable {K F G I : Type}

/-- a statement of Verif/Model/Program.lean, with its function among the functions of the program -/
def Stmt.lift : Stmt K F → Stmt K (Fun F G I)
  | .input name shape val => .input name shape val
  | .declare name shape val => .declare name shape val
  | .expr i => .expr i
  | .call f args outs => .call (.std f) args outs
  | .index x key => .index x key
  | .output name shape val => .output name shape val
  | .assign y key x => .assign y key x
  | .register name x => .register name x
  | .connect a b => .connect a b

/-- The state while a method runs: csdl/lang/model.py:83-91. -/
structure XSt (K F G I : Type) where
  st : St K (Fun F G I)
  designVars : Dict Name Nat := []
  constraints : Dict Name Nat := []
  objective : Option (Name × Nat) := none

/-- csdl/lang/output.py:11-36: the `j`-th result of the operation `op`, with a name of its own -/
def namedResult (op j : Nat) (o : Name × Shape) : PObj K (Fun F G I) :=
  let p := resultObj op j o.2
  { p with obj := { p.obj with name := o.1 } }

/-- an operation with the arguments `deps` and named results: csdl/std/custom.py:35-49, csdl/lang/model.py:915-933, 1150-1183 -/
def newOpNamed (objs : List (PObj K (Fun F G I))) (k : Kind K (Fun F G I)) (deps : List Nat) (outs : List (Name × Shape)) : List (PObj K (Fun F G I)) :=
  objs ++ opObj objs.length k deps outs.length :: outs.mapIdx (namedResult objs.length)

/-- `self.register_output(name, x)` for each pair -/
def registerAll (st : St K (Fun F G I)) : List (Name × Nat) → Except Err (St K (Fun F G I))
  | [] => .ok st
  | (name, o) :: l =>
    match execRegister st name o with
    | .error e => .error e
    | .ok st => registerAll st l

/-- names and shapes of the arguments -/
def argInfo (st : St K (Fun F G I)) (args : List Nat) : List (Name × Shape) := args.map fun x => (nameOf st.objs (st.env.getD x 0), shapeOf st.objs (st.env.getD x 0))

/-- exceptions of Verif/Model/CustomOp.lean; RecursionError counts as ValueError -/
def ofCustom : Custom.CErr → Err
  | .key => .key
  | .type => .type
  | _ => .value

/-- the operation `k` with the arguments `args` and named results `outs`, which are registered under the names `names` -/
def execNamed (st : St K (Fun F G I)) (k : Fun F G I) (args : List Nat) (outs : List (Name × Shape)) (names : List Name) : Except Err (St K (Fun F G I)) :=
  registerAll { st with
    objs := newOpNamed st.objs (.fn k) (args.map (st.env.getD · 0)) outs
    env := st.env ++ List.range' (st.objs.length + 1) outs.length } (names.zip (List.range' (st.objs.length + 1) outs.length))

/-- csdl/std/custom.py:8-55; Python's recursion limit is 1000; unpacking into the wrong number of variables is a ValueError -/
def execCustom [Mul K] [One K] (st : St K (Fun F G I)) (g : G) (calls : List (Custom.CCall K Nat)) (args : List Nat) (names : List Name) : Except Err (St K (Fun F G I)) :=
  match (Custom.custom 1000 ({} : Custom.Op Nat) calls (argInfo st args)).2 with
  | .error e => .error (ofCustom e)
  | .ok outs => if names.length ≠ outs.length then .error .value else execNamed st (.custom g) args outs names

/-- csdl/lang/implicit_operation_factory.py:69-96, csdl/lang/model.py:869-933, 1137-1196; without results there is an IndexError, here ValueError -/
def execImplicit (st : St K (Fun F G I)) (i : I) (M : IModel) (fuel : Nat) (fac : Factory) (expose : List Name) (args : List Nat) : Except Err (St K (Fun F G I)) :=
  match genMaps M fuel (argInfo st args) (fac.states.map (·.1)) fac.residuals expose with
  | .error _ => .error .value
  | .ok _ =>
    match stateOuts M fac.states with
    | .error _ => .error .value
    | .ok so =>
      if so ++ exposedOuts M expose = [] then .error .value
      else execNamed st (.implicit i) args (so ++ exposedOuts M expose) ((so ++ exposedOuts M expose).map (·.1))

/-- the state after a statement that has no optimisation declaration -/
def XSt.after (xs : XSt K F G I) : Except Err (St K (Fun F G I)) → Except Err (XSt K F G I)
  | .error e => .error e
  | .ok st => .ok { xs with st := st }

/-- One statement. -/
def xexec [Field K] [DecidableEq K] (xs : XSt K F G I) : XStmt K F G I → Except Err (XSt K F G I)
  | .plain s => xs.after (exec xs.st s.lift)
  | .custom g calls args names => if args.all (· < xs.st.env.length) then xs.after (execCustom xs.st g calls args names) else .error .scope
  | .implicit i M fuel fac expose args => if args.all (· < xs.st.env.length) then xs.after (execImplicit xs.st i M fuel fac expose args) else .error .scope
  -- csdl/lang/model.py:227-252
  | .designVar name d =>
    if name ∉ xs.st.inputs.map (nameOf xs.st.objs) then .error .key
    else if xs.designVars.has name then .error .key
    else .ok { xs with designVars := xs.designVars.set name d }
  -- csdl/lang/model.py:254-285
  | .constraint name d => if xs.constraints.has name then .error .value else .ok { xs with constraints := xs.constraints.set name d }
  -- csdl/lang/model.py:207-225
  | .objective name d => if xs.objective.isSome then .error .value else .ok { xs with objective := some (name, d) }

/-- The models that were defined in `with` blocks: as `Inl` (Verif/Model/Program.lean) -/
inductive XInl (K F G I : Type) where
  | nil
  | cons (xs : XSt K F G I) (subs rest : XInl K F G I)

/-- A `define` method: the statements one after the other; `with` blocks as in `runOwn` (Verif/Model/Program.lean). -/
def xrunOwn [Field K] [DecidableEq K] : XSt K F G I → XBody K F G I → Except Err (XSt K F G I × XInl K F G I)
  | xs, .done => .ok (xs, .nil)
  | xs, .stmt s rest =>
    match xexec xs s with
    | .error e => .error e
    | .ok xs => xrunOwn xs rest
  | xs, .add false name promotes _ rest =>
    match execAdd xs.st name promotes with
    | .error e => .error e
    | .ok st => xrunOwn { xs with st := st } rest
  | xs, .add true name promotes sub rest =>
    match xrunOwn { st := { objs := xs.st.objs } } sub with
    | .error e => .error e
    | .ok (m, ms) =>
      match execAdd { xs.st with objs := m.st.objs } name promotes with
      | .error e => .error e
      | .ok st =>
        match xrunOwn { xs with st := st } rest with
        | .error e => .error e
        | .ok (xs, r) => .ok (xs, .cons m ms r)

/-- The `Model` object after `define`, with its submodels. -/
def XSt.model (xs : XSt K F G I) (subs : OSubs) : OModel := .mk xs.st.inputs xs.st.outputs xs.st.declared xs.st.connections xs.designVars xs.constraints xs.objective subs

/-- csdl/lang/define_models_recursively.py:22-24: as `runSubs` (Verif/Model/Program.lean) -/
def xrunSubs [Field K] [DecidableEq K] : List (PObj K (Fun F G I)) → List (Nat × Name × Option (List Name)) → XInl K F G I → XBody K F G I → Except Err (List (PObj K (Fun F G I)) × OSubs)
  | objs, _, _, .done => .ok (objs, .nil)
  | objs, ids, inl, .stmt _ rest => xrunSubs objs ids inl rest
  | objs, [], _, .add _ _ _ _ _ => .ok (objs, .nil)
  | objs, i :: ids, inl, .add false _ _ sub rest =>
    match xrunOwn { st := { objs := objs } } sub with
    | .error e => .error e
    | .ok (xs, ms) =>
      match xrunSubs xs.st.objs xs.st.subs ms sub with
      | .error e => .error e
      | .ok (objs, ks) =>
        if xs.st.empty || xs.st.undefined then .error .value
        else match xrunSubs objs ids inl rest with
          | .error e => .error e
          | .ok (objs, r) => .ok (objs, .cons i.1 i.2.2 (xs.model ks) r)
  | objs, _ :: _, .nil, .add true _ _ _ _ => .ok (objs, .nil)
  | objs, i :: ids, .cons xs ms inl, .add true _ _ sub rest =>
    match xrunSubs objs xs.st.subs ms sub with
    | .error e => .error e
    | .ok (objs, ks) =>
      if xs.st.empty || xs.st.undefined then .error .value
      else match xrunSubs objs ids inl rest with
        | .error e => .error e
        | .ok (objs, r) => .ok (objs, .cons i.1 i.2.2 (xs.model ks) r)

/-- csdl/lang/define_models_recursively.py:10-52: the whole program; `pre` are the objects that were created in the session before (csdl/lang/node.py:22-27 `Node._count`) -/
def xrunFrom [Field K] [DecidableEq K] (pre : List (PObj K (Fun F G I))) (b : XBody K F G I) : Except Err (List (PObj K (Fun F G I)) × OModel) :=
  match xrunOwn { st := { objs := pre } } b with
  | .error e => .error e
  | .ok (xs, inl) =>
    match xrunSubs xs.st.objs xs.st.subs inl b with
    | .error e => .error e
    | .ok (objs, ks) => if xs.st.empty || xs.st.undefined then .error .value else .ok (objs, xs.model ks)

/-- csdl/lang/define_models_recursively.py:10-52: the whole program, in a new session -/
def xrunProgram [Field K] [DecidableEq K] (b : XBody K F G I) : Except Err (List (PObj K (Fun F G I)) × OModel) := xrunFrom [] b

/-- `isinstance(op, CustomOperation)` -/
def isCustom : Option (Kind K (Fun F G I)) → Bool
  | some (.fn (.custom _)) => true
  | _ => false

/-- The objects by identity; operations know whether they are custom operations. -/
def xobjects (objs : List (PObj K (Fun F G I))) : Objs := fun i => { objects objs i with custom := isCustom (kindOf objs i) }

end Csdl.Prog
