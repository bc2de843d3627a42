import Verif.Model.Connect
/-
Specification for C87: finding variables by name in a representation.
-/
namespace Csdl

/-- Following the map from targets of connections to their sources from the node `t` ends at the node `v`: `v` has no entry, and is `t`, or is reached from the source of `t`. -/
inductive Leads (done : Dict Nat Nat) : Nat → Nat → Prop
  | stop {v : Nat} : done.get? v = none → Leads done v v
  | step {t s v : Nat} : done.get? t = some s → Leads done s v → Leads done t v

/-- The value of the variable with name `n` (promoted name, or full name) among the values `σ` of the nodes of a representation is `v`: find the node of the name in the maps from names to nodes, and follow the map from targets to sources. -/
def ValueByName {V : Type} (maps : NodeMaps) (done : Dict Nat Nat) (σ : Nat → V) (n : Name) (v : V) : Prop := ∃ t u, findNode maps n = .ok t ∧ Leads done t u ∧ v = σ u

end Csdl
