import Verif.Spec.Cycle
/-
Specification for C72: hierarchies of model objects that have to be accepted.
-/
namespace Csdl

/-- The connection from `src` to `tgt` (full or promoted names) is valid: both names denote variables in use; the source is, possibly by promotion, an input or an output; no operation computes the target; the
numbers of elements agree. -/
def ValidConnection (H : Objs) (root : OModel) (src tgt : Name) : Prop :=
  ∃ p q, Denotes (root.toModel H) src p ∧ Denotes (root.toModel H) tgt q ∧ (∃ x, NamedVar H root x p ∧ (H x).role ≠ .declared) ∧ (∃ y, NamedVar H root y q) ∧
    (∀ y, NamedVar H root y q → ∀ path m op, OAt H root path m → m.Needs H op → (H op).kind = .op → y ∉ (H op).outs) ∧
    ∀ x y, NamedVar H root x p → NamedVar H root y q → (H x).shape.size = (H y).shape.size

/-- The names used in the declarations `sel` of all models denote variables. -/
def NamesResolve (m : Model) (sel : Local → List (Name × Nat)) : Prop :=
  ∀ path l subs k d, At m path (.mk l subs) → (k, d) ∈ sel l → ∃ n p, Denotes (.mk l subs) k n ∧ Denotes m (fullName path n) p

/-- No two declarations `sel` are of the same variable. -/
def DeclaredOnce (m : Model) (sel : Local → List (Name × Nat)) : Prop :=
  (issuedPre sel m).Pairwise fun i j => ∀ n n' p, Denotes i.2.1 i.2.2.1 n → Denotes m (fullName i.1 n) p → Denotes j.2.1 j.2.2.1 n' → ¬ Denotes m (fullName j.1 n') p

/-- A hierarchy of model objects is valid. -/
structure ValidHierarchy (H : Objs) (n : Nat) (root : OModel) : Prop where
  objects : ObjectsOk H n root
  /-- a variable is the result of one operation -/
  oneOperation : ∀ path m path' m' op op' v, OAt H root path m → OAt H root path' m' → m.Needs H op → m'.Needs H op' → (H op).kind = .op → (H op').kind = .op → v ∈ (H op).outs → v ∈ (H op').outs → op = op'
  /-- in no model do inputs or outputs of different models have the same name -/
  oneSource : ∀ path m, At (root.toModel H) path m → ∀ p path1 v1 path2 v2, PromotedAs m path1 .source v1 p → PromotedAs m path2 .source v2 p → path1 = path2
  /-- variables of different models with the same name in some model have equal numbers of elements -/
  sizes : ∀ path m, At (root.toModel H) path m → ∀ p k1 path1 v1 k2 path2 v2, PromotedAs m path1 k1 v1 p → PromotedAs m path2 k2 v2 p → path1 ≠ path2 → v1.shape.size = v2.shape.size
  /-- promoted names are names of the submodel -/
  promotes : ∀ path l subs, At (root.toModel H) path (.mk l subs) → ∀ s ∈ subs.toList, ∀ q, s.promotes = some q → ∀ x ∈ q, '.' ∉ x ∧ ∃ path' k v, PromotedAs s.model path' k v x
  connections : ∀ path m a b, OAt H root path m → (a, b) ∈ m.connections → ValidConnection H root (fullName path a) (fullName path b)
  /-- a variable is the target of one connection -/
  oneConnection : (issuedPost Local.connections (root.toModel H)).Pairwise fun i j => ∀ q, Denotes (root.toModel H) (fullName i.1 i.2.2) q → ¬ Denotes (root.toModel H) (fullName j.1 j.2.2) q
  noChain : NoChain (root.toModel H)
  designVars : NamesResolve (root.toModel H) Local.designVars ∧ DeclaredOnce (root.toModel H) Local.designVars
  constraints : NamesResolve (root.toModel H) Local.constraints ∧ DeclaredOnce (root.toModel H) Local.constraints
  objective : NamesResolve (root.toModel H) (fun l => l.objective.toList) ∧ (issuedPre (fun l => l.objective.toList) (root.toModel H)).length ≤ 1
  acyclic : ¬ Circular H root

end Csdl
