import Verif.Model.Compile
import Verif.Spec.EndToEnd
import Verif.Spec.BuildGraph
/-
Specification for C70: hierarchies of model objects, and what a solution of them is.
-/
namespace Csdl

/-- `OAt H m path m'`: `m'` is the model object reached from `m` through the submodels named in `path`. -/
inductive OAt (H : Objs) : OModel → List Name → OModel → Prop
  | here (m : OModel) : OAt H m [] m
  | down {m : OModel} {s : OSub} {path : List Name} {m' : OModel} : s ∈ m.subs → OAt H s.model path m' → OAt H m ((H s.id).name :: path) m'

/-- The objects the outputs and declared variables of a model depend on, directly or indirectly. -/
def OModel.Needs (H : Objs) (m : OModel) (c : Nat) : Prop := Needed H.heap (m.outputs ++ m.declared) c

/-- The variables a model defines: inputs, registered outputs, declared variables. -/
def OModel.vars (m : OModel) : List Nat := m.inputs ++ m.outputs ++ m.declared

/-- The object `c` is an object of the model: an input, a submodel, or needed by an output or declared variable. -/
def OModel.Owns (H : Objs) (m : OModel) (c : Nat) : Prop := c ∈ m.inputs ∨ m.Needs H c ∨ c ∈ m.subs.map OSub.id

/-- The object `x` is needed and is linked to another one: it is an argument or result of an operation (or an operation with arguments or results). -/
def OModel.Linked (H : Objs) (m : OModel) (x : Nat) : Prop := m.Needs H x ∧ ∃ u, m.Needs H u ∧ (DependsOn H.heap x u ∨ DependsOn H.heap u x)

/-- The variable `x` of the model is in use: it is an input, or it, or a declaration of the same name, is an argument or result of an operation. -/
def OModel.Uses (H : Objs) (m : OModel) (x : Nat) : Prop := x ∈ m.inputs ∨ (m.Needs H x ∧ ∃ y, m.Linked H y ∧ (H y).name = (H x).name)

/-- One model object is well formed. -/
structure ModelOk (H : Objs) (n : Nat) (m : OModel) : Prop where
  /-- finitely many objects -/
  bounded : Bounded H.heap n (m.outputs ++ m.declared)
  /-- operations have names of their own, no object has the name of a submodel (see C28) -/
  names : NamesOk H.heap (m.subs.map OSub.id) m.inputs (m.outputs ++ m.declared)
  subKinds : ∀ s ∈ m.subs, (H s.id).kind = .model
  /-- inputs, outputs and declared variables are what they are called -/
  inputRole : ∀ c ∈ m.inputs, (H c).role = .input
  outputRole : ∀ c ∈ m.outputs, (H c).kind = .var ∧ (H c).role = .output
  declaredRole : ∀ c ∈ m.declared, (H c).kind = .var ∧ (H c).role = .declared
  /-- only outputs depend on something: on operations, whose outputs they are -/
  varDeps : ∀ c, m.Needs H c → (H c).kind = .var → ∀ u ∈ (H c).deps, (H u).kind = .op ∧ c ∈ (H u).outs
  /-- arguments of operations are variables; results are outputs -/
  opDeps : ∀ c, m.Needs H c → (H c).kind = .op → (∀ u ∈ (H c).deps, (H u).kind = .var) ∧ ∀ v ∈ (H c).outs, (H v).kind = .var ∧ (H v).role = .output
  /-- inputs, registered outputs and declared variables have names given by the user, other variables automatically generated names -/
  userNamed : ∀ c ∈ m.vars, (H c).name ≠ (H c).auto
  autoNamed : ∀ c, m.Needs H c → (H c).kind = .var → c ∉ m.vars → (H c).name = (H c).auto
  /-- no two inputs and registered outputs, and no declared variable and input or registered output, have the same name (see C15) -/
  sources : (m.inputs ++ m.outputs).Nodup
  sourceNames : ∀ c ∈ m.vars, ∀ c' ∈ m.vars, (H c).name = (H c').name → c = c' ∨ (c ∈ m.declared ∧ c' ∈ m.declared)

/-- The objects of a hierarchy are well formed. -/
structure ObjectsOk (H : Objs) (n : Nat) (root : OModel) : Prop where
  models : ∀ path m, OAt H root path m → ModelOk H n m
  /-- names of submodels and variables given by the user: no dots, not empty, and so on -/
  dotFree : DotFree (root.toModel H)
  /-- different models have different objects -/
  separate : ∀ path m path' m', OAt H root path m → OAt H root path' m' → ∀ c, m.Owns H c → m'.Owns H c → path = path'
  /-- automatically generated names have no dots and are used once (see C01), except for results of operations in different uses of one model object (see C89) -/
  auto : ∀ path m, OAt H root path m → ∀ c, m.Needs H c → (H c).kind = .var → c ∉ m.vars →
    '.' ∉ (H c).name ∧ ∀ path' m', OAt H root path' m' → ∀ c', c' ∈ m'.vars ∨ (m'.Needs H c' ∧ (H c').kind = .var) → (H c').name = (H c).name → c' = c ∨ (path' ≠ path ∧ c' ∉ m'.vars ∧ (H c).role ≠ .declared ∧ (H c').role ≠ .declared)

/-- `x` is a variable, in use, that has the promoted name `p`. -/
def NamedVar (H : Objs) (root : OModel) (x : Nat) (p : Name) : Prop :=
  ∃ path m k w, OAt H root path m ∧ x ∈ m.vars ∧ m.Uses H x ∧ PromotedAs (root.toModel H) path k w p ∧ w.name = (H x).name

/-- `x` and `y` have the same promoted name, or are the source and the target of a connection. -/
inductive Joined (H : Objs) (root : OModel) (x y : Nat) : Prop
  | name (p : Name) : NamedVar H root x p → NamedVar H root y p → Joined H root x y
  | connection (path : List Name) (m : OModel) (a b p q : Name) : OAt H root path m → (a, b) ∈ m.connections → Denotes (root.toModel H) (fullName path a) p →
      Denotes (root.toModel H) (fullName path b) q → NamedVar H root x p → NamedVar H root y q → Joined H root x y

/-- Values `σ` of the variables of all models solve the hierarchy for the meaning `fn` of the operations: every result of every operation of every model is what the operation computes from the
values of its arguments, variables with the same promoted name have equal values, and so have the two ends of every connection issued in any model. -/
structure ObjSolution {V : Type} (H : Objs) (root : OModel) (fn : Nat → List V → Nat → V) (σ : Nat → V) : Prop where
  ops : ∀ path m, OAt H root path m → ∀ op, m.Needs H op → (H op).kind = .op → ∀ v ∈ (H op).outs, σ v = fn op ((H op).deps.map σ) v
  shared : ∀ x y p, NamedVar H root x p → NamedVar H root y p → σ x = σ y
  connected : ∀ path m a b p q, OAt H root path m → (a, b) ∈ m.connections → Denotes (root.toModel H) (fullName path a) p → Denotes (root.toModel H) (fullName path b) q →
    ∀ x y, NamedVar H root x p → NamedVar H root y q → σ x = σ y

end Csdl
