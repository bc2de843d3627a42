import Verif.Model.Connect
import Verif.Spec.Flatten
import Mathlib.Data.List.Forall2
/-
Specification for C32, C33.
-/
namespace Csdl

/-- `v` is a variable of the graph with a user-given name and `x` is its promoted name or the full name of one of the variables merged under that name. -/
def NodeFor (I : NHeap) (st : FState) (p2u : Dict Name (List Name)) (g : Graph) (x : Name) (v : Nat) : Prop :=
  v ∈ g.nodes ∧ (I v).kind = .var ∧ (I v).name ≠ (I v).auto ∧
    ∃ us, p2u.get? (st.pname I v) = some us ∧ (x = st.pname I v ∨ x ∈ us)

/-- The pairs (source node, target node) of a list of connections. -/
def ConnPairs (I : NHeap) (st : FState) (p2u : Dict Name (List Name)) (g : Graph) (cs : List (Name × Name × Name)) (L : List (Nat × Nat)) : Prop :=
  List.Forall₂ (fun c e => NodeFor I st p2u g (prependNamespace c.2.2 c.1) e.1 ∧ NodeFor I st p2u g (prependNamespace c.2.2 c.2.1) e.2) cs L

/-- No variable is used as a source after it was (or while it is) a target. -/
def NoReuse (L : List (Nat × Nat)) : Prop := (∀ e ∈ L, e.1 ≠ e.2) ∧ L.Pairwise (fun e e' => e'.1 ≠ e.2)

end Csdl
