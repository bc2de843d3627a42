import Verif.Spec.Compile
/-
Specification for C71: circular dependencies in a hierarchy of model objects.
-/
namespace Csdl

/-- Some operation of some model computes `y` from `x`. -/
def Affects (H : Objs) (root : OModel) (x y : Nat) : Prop := ∃ path m op, OAt H root path m ∧ m.Needs H op ∧ (H op).kind = .op ∧ x ∈ (H op).deps ∧ y ∈ (H op).outs

/-- A variable is computed from itself, through operations and variables that are the same by promotion or connection. -/
def Circular (H : Objs) (root : OModel) : Prop :=
  ∃ x, Relation.TransGen (fun a b => ∃ a', Relation.EqvGen (Joined H root) a a' ∧ Affects H root a' b) x x

end Csdl
