import Verif.Model.Shared
import Verif.Spec.Compile
/-
Specification for C90: hierarchies in which variables of one model may be arguments of operations of another.
-/
namespace Csdl

/-- Finitely many objects; in every model, operations have names of their own and no object has the name of a submodel; the names of variables and submodels given by the user have no dots.
Nothing is said about which model a variable belongs to, about its name, or about how often an object is used. -/
structure MixedOk (H : Objs) (n : Nat) (root : OModel) : Prop where
  bounded : ∀ path m, OAt H root path m → Bounded H.heap n (m.outputs ++ m.declared) ∧ (∀ c ∈ m.inputs, c < n) ∧ ∀ s ∈ m.subs, s.id < n
  names : ∀ path m, OAt H root path m → NamesOk H.heap (m.subs.map OSub.id) m.inputs (m.outputs ++ m.declared)
  dotFree : DotFree (root.toModel H)

/-- `x` is a name given by the user: no dots, not the automatic name of an object, not the name of a result of a custom operation. -/
structure UserName (H : Objs) (n : Nat) (x : Name) : Prop where
  dots : '.' ∉ x
  auto : ∀ i < n, (H i).auto ≠ x
  custom : ∀ op < n, (H op).kind = .op → (H op).custom = true → ∀ v < n, DependsOn H.heap v op → (H v).name ≠ x

/-- Some variable has the promoted name, or the full name, that `x` stands for in the model at `path`. -/
def KnownAt (H : Objs) (root : OModel) (path : List Name) (x : Name) : Prop := ∃ p, Denotes (root.toModel H) (fullName path x) p

end Csdl
