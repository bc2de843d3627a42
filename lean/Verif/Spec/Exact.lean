import Verif.Spec.Valid
/-
Specification for C104: exactly which hierarchies of model objects are accepted.
-/
namespace Csdl

/-- `y` stands for all variables of the name `q`: it is an input or output, or no variable of this name is. -/
def StandsForName (H : Objs) (root : OModel) (y : Nat) (q : Name) : Prop := NamedVar H root y q ∧ ((H y).role ≠ .declared ∨ ∀ z, NamedVar H root z q → (H z).role = .declared)

/-- The connection from `src` to `tgt` is acceptable: as a valid one, but only the numbers of elements of the variables that stand for the names have to agree. -/
def AcceptableConnection (H : Objs) (root : OModel) (src tgt : Name) : Prop :=
  ∃ p q, Denotes (root.toModel H) src p ∧ Denotes (root.toModel H) tgt q ∧ (∃ x, NamedVar H root x p ∧ (H x).role ≠ .declared) ∧ (∃ y, NamedVar H root y q) ∧
    (∀ y, NamedVar H root y q → ∀ path m op, OAt H root path m → m.Needs H op → (H op).kind = .op → y ∉ (H op).outs) ∧
    ∀ x y, StandsForName H root x p → StandsForName H root y q → (H x).shape.size = (H y).shape.size

/-- A hierarchy of model objects is acceptable.  It differs from a valid one in three points: the numbers of elements of an input or output and a declared variable of the same name are compared only if one
belongs to a model that contains the model of the other; a promoted name only has to be a name of the model that contains the submodel; connections are compared as above. -/
structure Acceptable (H : Objs) (root : OModel) : Prop where
  /-- in no model do inputs or outputs of different models have the same name -/
  oneSource : ∀ path m, At (root.toModel H) path m → ∀ p path1 v1 path2 v2, PromotedAs m path1 .source v1 p → PromotedAs m path2 .source v2 p → path1 = path2
  sizes : ∀ path m, At (root.toModel H) path m → ∀ p k1 path1 v1 k2 path2 v2, PromotedAs m path1 k1 v1 p → PromotedAs m path2 k2 v2 p → path1 ≠ path2 → Compared k1 path1 k2 path2 → v1.shape.size = v2.shape.size
  promotes : ∀ path l subs, At (root.toModel H) path (.mk l subs) → ∀ s ∈ subs.toList, ∀ q, s.promotes = some q → ∀ x ∈ q, '.' ∉ x ∧ ∃ path' k v, PromotedAs (.mk l subs) path' k v x
  connections : ∀ path m a b, OAt H root path m → (a, b) ∈ m.connections → AcceptableConnection H root (fullName path a) (fullName path b)
  /-- a variable is the target of one connection -/
  oneConnection : (issuedPost Local.connections (root.toModel H)).Pairwise fun i j => ∀ q, Denotes (root.toModel H) (fullName i.1 i.2.2) q → ¬ Denotes (root.toModel H) (fullName j.1 j.2.2) q
  designVars : NamesResolve (root.toModel H) Local.designVars ∧ DeclaredOnce (root.toModel H) Local.designVars
  constraints : NamesResolve (root.toModel H) Local.constraints ∧ DeclaredOnce (root.toModel H) Local.constraints
  objective : NamesResolve (root.toModel H) (fun l => l.objective.toList) ∧ (issuedPre (fun l => l.objective.toList) (root.toModel H)).length ≤ 1
  acyclic : ¬ Circular H root

/-- What the `define` methods guarantee (C74): the objects of every hierarchy built by running a program satisfy this. -/
structure WellBuilt (H : Objs) (n : Nat) (root : OModel) : Prop where
  objects : ObjectsOk H n root
  /-- a variable is the result of one operation -/
  oneOperation : ∀ path m path' m' op op' v, OAt H root path m → OAt H root path' m' → m.Needs H op → m'.Needs H op' → (H op).kind = .op → (H op').kind = .op → v ∈ (H op).outs → v ∈ (H op').outs → op = op'

end Csdl
