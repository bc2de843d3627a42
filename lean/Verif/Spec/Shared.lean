import Verif.Model.Shared
import Verif.Spec.Valid
/-
Specification for C89: hierarchies in which model objects are used several times.  The variables of a hierarchy are pairs of a path (a use of a model) and an object.
-/
namespace Csdl

/-- The objects of a hierarchy are well formed; different submodels may be one and the same model object, and have objects in common. -/
structure SharedOk (H : Objs) (n : Nat) (root : OModel) : Prop where
  models : ∀ path m, OAt H root path m → ModelOk H n m
  bounded : ∀ path m, OAt H root path m → (∀ c ∈ m.inputs, c < n) ∧ ∀ s ∈ m.subs, s.id < n
  dotFree : DotFree (root.toModel H)
  /-- automatically generated names have no dots and are names of one object only (see C01), the result of an operation -/
  auto : ∀ path m, OAt H root path m → ∀ c, m.Needs H c → (H c).kind = .var → c ∉ m.vars →
    '.' ∉ (H c).name ∧ (H c).role ≠ .declared ∧ ∀ path' m', OAt H root path' m' → ∀ c', c' ∈ m'.vars ∨ (m'.Needs H c' ∧ (H c').kind = .var) → (H c').name = (H c).name → c' = c

/-- The variable `x` of the model at `path` is in use and has the promoted name `p`. -/
def NamedAt (H : Objs) (root : OModel) (path : List Name) (x : Nat) (p : Name) : Prop :=
  ∃ m k w, OAt H root path m ∧ x ∈ m.vars ∧ m.Uses H x ∧ PromotedAs (root.toModel H) path k w p ∧ w.name = (H x).name

/-- `x` and `y` have the same promoted name, or are the source and the target of a connection. -/
inductive JoinedAt (H : Objs) (root : OModel) : List Name × Nat → List Name × Nat → Prop
  | name (x y : List Name × Nat) (p : Name) : NamedAt H root x.1 x.2 p → NamedAt H root y.1 y.2 p → JoinedAt H root x y
  | connection (x y : List Name × Nat) (path : List Name) (m : OModel) (a b p q : Name) : OAt H root path m → (a, b) ∈ m.connections → Denotes (root.toModel H) (fullName path a) p →
      Denotes (root.toModel H) (fullName path b) q → NamedAt H root x.1 x.2 p → NamedAt H root y.1 y.2 q → JoinedAt H root x y

/-- Values `σ path x` of the variables of all uses of models solve the hierarchy for the meaning `fn` of the operations: in every use of every model every result of every operation is what the
operation computes from the values that its arguments have in that use; variables with the same promoted name have equal values, and so have the two ends of every connection. -/
structure SharedSolution {V : Type} (H : Objs) (root : OModel) (fn : Nat → List V → Nat → V) (σ : List Name → Nat → V) : Prop where
  ops : ∀ path m, OAt H root path m → ∀ op, m.Needs H op → (H op).kind = .op → ∀ v ∈ (H op).outs, σ path v = fn op ((H op).deps.map (σ path)) v
  shared : ∀ path x path' y p, NamedAt H root path x p → NamedAt H root path' y p → σ path x = σ path' y
  connected : ∀ path m a b p q, OAt H root path m → (a, b) ∈ m.connections → Denotes (root.toModel H) (fullName path a) p → Denotes (root.toModel H) (fullName path b) q →
    ∀ path1 x path2 y, NamedAt H root path1 x p → NamedAt H root path2 y q → σ path1 x = σ path2 y

/-- Some operation of the use of a model computes `b` from `a`. -/
def AffectsAt (H : Objs) (root : OModel) (a b : List Name × Nat) : Prop :=
  a.1 = b.1 ∧ ∃ m op, OAt H root a.1 m ∧ m.Needs H op ∧ (H op).kind = .op ∧ a.2 ∈ (H op).deps ∧ b.2 ∈ (H op).outs

/-- A variable is computed from itself, through operations and variables that are the same by promotion or connection. -/
def CircularUses (H : Objs) (root : OModel) : Prop :=
  ∃ a, Relation.TransGen (fun a b => ∃ a', Relation.EqvGen (JoinedAt H root) a a' ∧ AffectsAt H root a' b) a a

/-- The connection from `src` to `tgt` is valid: both names denote variables in use; the source is, possibly by promotion, an input or an output; no operation computes the target; the numbers of
elements agree. -/
def ValidConnectionAt (H : Objs) (root : OModel) (src tgt : Name) : Prop :=
  ∃ p q, Denotes (root.toModel H) src p ∧ Denotes (root.toModel H) tgt q ∧ (∃ path x, NamedAt H root path x p ∧ (H x).role ≠ .declared) ∧ (∃ path y, NamedAt H root path y q) ∧
    (∀ path y, NamedAt H root path y q → ∀ m op, OAt H root path m → m.Needs H op → (H op).kind = .op → y ∉ (H op).outs) ∧
    ∀ path x path' y, NamedAt H root path x p → NamedAt H root path' y q → (H x).shape.size = (H y).shape.size

/-- A hierarchy in which model objects may be used several times is valid (compare `ValidHierarchy`). -/
structure ValidUses (H : Objs) (n : Nat) (root : OModel) : Prop where
  objects : SharedOk H n root
  oneOperation : ∀ path m op op' v, OAt H root path m → m.Needs H op → m.Needs H op' → (H op).kind = .op → (H op').kind = .op → v ∈ (H op).outs → v ∈ (H op').outs → op = op'
  oneSource : ∀ path m, At (root.toModel H) path m → ∀ p path1 v1 path2 v2, PromotedAs m path1 .source v1 p → PromotedAs m path2 .source v2 p → path1 = path2
  sizes : ∀ path m, At (root.toModel H) path m → ∀ p k1 path1 v1 k2 path2 v2, PromotedAs m path1 k1 v1 p → PromotedAs m path2 k2 v2 p → path1 ≠ path2 → v1.shape.size = v2.shape.size
  promotes : ∀ path l subs, At (root.toModel H) path (.mk l subs) → ∀ s ∈ subs.toList, ∀ q, s.promotes = some q → ∀ x ∈ q, '.' ∉ x ∧ ∃ path' k v, PromotedAs s.model path' k v x
  connections : ∀ path m a b, OAt H root path m → (a, b) ∈ m.connections → ValidConnectionAt H root (fullName path a) (fullName path b)
  oneConnection : (issuedPost Local.connections (root.toModel H)).Pairwise fun i j => ∀ q, Denotes (root.toModel H) (fullName i.1 i.2.2) q → ¬ Denotes (root.toModel H) (fullName j.1 j.2.2) q
  noChain : NoChain (root.toModel H)
  designVars : NamesResolve (root.toModel H) Local.designVars ∧ DeclaredOnce (root.toModel H) Local.designVars
  constraints : NamesResolve (root.toModel H) Local.constraints ∧ DeclaredOnce (root.toModel H) Local.constraints
  objective : NamesResolve (root.toModel H) (fun l => l.objective.toList) ∧ (issuedPre (fun l => l.objective.toList) (root.toModel H)).length ≤ 1
  acyclic : ¬ CircularUses H root

end Csdl
