import Verif.Model.ProgramFull
import Verif.Spec.ValidProgram
import Verif.Spec.Valid
/-
Specification for C80, C81: programs with custom operations, implicit operations and optimisation declarations.  A custom or implicit operation means what a call of a function means, followed by the registration of its results.
-/
namespace Csdl.Prog
open Csdl Csdl.Arith
variable {K F G I : Type} [Field K]

/-- The outputs an operation declares: names (its own) and shapes.  For implicit operations these are the states and the exposed outputs (C35, C36). -/
def XStmt.results : XStmt K F G I → List (Name × Shape)
  | .custom _ calls _ _ => (Custom.run 1000 ({} : Custom.Op Nat) calls).outputs.filterMap fun e => e.2.map fun s => (e.1, s)
  | .implicit _ M _ fac expose _ =>
    match stateOuts M fac.states with
    | .ok so => so ++ exposedOuts M expose
    | .error _ => []
  | _ => []

/-- how many variables a statement creates -/
def XStmt.count : XStmt K F G I → Nat
  | .plain s => s.count
  | s => s.results.length

/-- `self.register_output(name, x)` for the variables from number `n` -/
def registers (n : Nat) (names : List Name) : List (Stmt K (Fun F G I)) := names.mapIdx fun j name => .register name (n + j)

/-- The statement, when `n` variables have been created before, written with calls and registrations; optimisation declarations compute nothing. -/
def XStmt.low (n : Nat) : XStmt K F G I → List (Stmt K (Fun F G I))
  | .plain s => [s.lift]
  | .custom g calls args names => .call (.custom g) args ((XStmt.custom g calls args names : XStmt K F G I).results.map (·.2)) :: registers n names
  | .implicit i M fuel fac expose args =>
    .call (.implicit i) args ((XStmt.implicit i M fuel fac expose args : XStmt K F G I).results.map (·.2)) :: registers n ((XStmt.implicit i M fuel fac expose args : XStmt K F G I).results.map (·.1))
  | _ => []

/-- statements before a method -/
def Body.prefix (b : Body K F) : List (Stmt K F) → Body K F
  | [] => b
  | s :: l => .stmt s (b.prefix l)

/-- The program, written with calls and registrations. -/
def XBody.low : Nat → XBody K F G I → Body K (Fun F G I)
  | _, .done => .done
  | n, .stmt s rest => (rest.low (n + s.count)).prefix (s.low n)
  | n, .add inline name p sub rest => .add inline name p (sub.low 0) (rest.low n)

/-- The statements of a method in order, each with the number of variables created before it. -/
def XBody.stmts : Nat → XBody K F G I → List (Nat × XStmt K F G I)
  | _, .done => []
  | n, .stmt s rest => (n, s) :: rest.stmts (n + s.count)
  | n, .add _ _ _ _ rest => rest.stmts n

/-- the submodels: name, promotes, method -/
def XBody.subs : XBody K F G I → List (Name × Option (List Name) × XBody K F G I)
  | .done => []
  | .stmt _ rest => rest.subs
  | .add _ n p sub rest => (n, p, sub) :: rest.subs

/-- `XAt b path b'`: `b'` is the method of the model reached from the main model through the submodels named in `path`. -/
inductive XAt : XBody K F G I → List Name → XBody K F G I → Prop
  | here (b : XBody K F G I) : XAt b [] b
  | down {b : XBody K F G I} {n : Name} {p : Option (List Name)} {sub : XBody K F G I} {path : List Name} {b' : XBody K F G I} : (n, p, sub) ∈ b.subs → XAt sub path b' → XAt b (n :: path) b'

/-- statements, numbered from `n` -/
def number (n : Nat) : List (Stmt K F) → List (Nat × Stmt K F)
  | [] => []
  | s :: l => (n, s) :: number (n + s.count) l

/-- numbered statements, written with calls and registrations -/
def lowAll (P : List (Nat × XStmt K F G I)) : List (Nat × Stmt K (Fun F G I)) := P.flatMap fun y => number y.1 (y.2.low y.1)

/-- the optimisation declarations -/
def XStmt.designVar? : XStmt K F G I → Option (Name × Nat)
  | .designVar name d => some (name, d)
  | _ => none
def XStmt.constraint? : XStmt K F G I → Option (Name × Nat)
  | .constraint name d => some (name, d)
  | _ => none
def XStmt.objective? : XStmt K F G I → Option (Name × Nat)
  | .objective name d => some (name, d)
  | _ => none

/-- After the statements `P`, the arguments `args` have the names and shapes `ins`. -/
def ArgsAre (P : List (Nat × XStmt K F G I)) (args : List Nat) (ins : List (Name × Shape)) : Prop :=
  List.Forall₂ (fun x a => NamedIn (lowAll P) x a.1 ∧ (shapesOf (lowAll P)).getD x [] = a.2) args ins

/-- What is required, after the statements `P` of the same method, of a statement that is not one of Verif/Model/Program.lean, apart from what is required of calls and registrations. -/
def XStmtOk (P : List (Nat × XStmt K F G I)) : XStmt K F G I → Prop
  | .plain _ => True
  -- the arguments are, in order, the declared inputs, with their names and shapes; there is a name for each declared output
  | .custom _ calls args names => ∃ (o : Custom.Op Nat) (ins outs : List (Name × Shape)), Custom.loopErr (Custom.step 1000) ({} : Custom.Op Nat) calls = (o, none) ∧ o.inputs = ins.map (fun a => (a.1, some a.2)) ∧
      o.outputs = outs.map (fun a => (a.1, some a.2)) ∧ names.length = outs.length ∧ ArgsAre P args ins
  -- the operation is accepted with these arguments (see C34, C35), and has a result
  | .implicit _ M fuel fac expose args => (∃ ins maps so, ArgsAre P args ins ∧ genMaps M fuel ins (fac.states.map (·.1)) fac.residuals expose = .ok maps ∧ stateOuts M fac.states = .ok so ∧
      so ++ exposedOuts M expose ≠ [])
  -- an input of the model that exists and is no design variable yet
  | .designVar name _ => (∃ i s, (i, name, s) ∈ (lowAll P).filterMap inputOf) ∧ ∀ d, (name, d) ∉ P.filterMap fun y => y.2.designVar?
  | .constraint name _ => ∀ d, (name, d) ∉ P.filterMap fun y => y.2.constraint?
  | .objective _ _ => P.filterMap (fun y => y.2.objective?) = []

/-- A method is fine. -/
structure XMethodOk [DecidableEq K] (b : XBody K F G I) : Prop where
  low : MethodOk (b.low 0)
  stmts : ∀ P y P', b.stmts 0 = P ++ y :: P' → XStmtOk P y.2

/-- the names that occur in a statement: those it defines, those of the declared inputs of a custom operation, those declared in the model that defines an implicit operation -/
def XStmt.names (n : Nat) : XStmt K F G I → List Name
  | .custom g calls args names => (XStmt.low n (.custom g calls args names : XStmt K F G I)).filterMap Stmt.defines ++ (Custom.run 1000 ({} : Custom.Op Nat) calls).inputs.map (·.1)
  | .implicit i M fuel fac expose args => (XStmt.low n (.implicit i M fuel fac expose args : XStmt K F G I)).filterMap Stmt.defines ++ M.declared.map fun v => (M.h v).name
  | s => (s.low n).filterMap Stmt.defines

/-- The program is not too large, and no name in it looks like an automatic one. -/
structure XPlain (b : XBody K F G I) : Prop where
  size : (b.low 0).maxObjects ≤ 63 ^ 4
  names : ∀ path b' n s, XAt b path b' → (n, s) ∈ b'.stmts 0 → ∀ name ∈ s.names n, ¬ AutoLike name

/-- as `XPlain`, in a session in which `n` objects were created before -/
structure XPlainAfter (n : Nat) (b : XBody K F G I) : Prop where
  size : n + (b.low 0).maxObjects ≤ 63 ^ 4
  names : ∀ path b' n s, XAt b path b' → (n, s) ∈ b'.stmts 0 → ∀ name ∈ s.names n, ¬ AutoLike name

/-- the names a method defines, with the optimisation declarations -/
def XBody.locals (b : XBody K F G I) : Local := { (b.low 0).locals with
  designVars := (b.stmts 0).filterMap fun y => y.2.designVar?
  constraints := (b.stmts 0).filterMap fun y => y.2.constraint?
  objective := ((b.stmts 0).filterMap fun y => y.2.objective?).head? }

/-- the submodels with their names -/
def XBody.toSubs : XBody K F G I → Subs
  | .done => .nil
  | .stmt _ rest => rest.toSubs
  | .add _ n p sub rest => .cons n p (.mk sub.locals sub.toSubs) rest.toSubs

/-- The names of the whole hierarchy, with the optimisation declarations. -/
def XBody.toModel (b : XBody K F G I) : Model := .mk b.locals b.toSubs

/-- A program is valid: its methods are fine; written with calls and registrations it is; the names of design variables, constraints and of the objective denote variables, different ones. -/
structure XValid [DecidableEq K] (b : XBody K F G I) : Prop where
  methods : ∀ path b', XAt b path b' → ∀ P y P', b'.stmts 0 = P ++ y :: P' → XStmtOk P y.2
  low : ValidProgram (b.low 0)
  designVars : NamesResolve b.toModel Local.designVars ∧ DeclaredOnce b.toModel Local.designVars
  constraints : NamesResolve b.toModel Local.constraints ∧ DeclaredOnce b.toModel Local.constraints
  objective : NamesResolve b.toModel (fun l => l.objective.toList) ∧ (issuedPre (fun l => l.objective.toList) b.toModel).length ≤ 1

end Csdl.Prog
