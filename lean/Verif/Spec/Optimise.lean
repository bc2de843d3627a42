import Verif.Spec.ProgramFull
import Verif.Spec.Given
import Verif.Spec.Lookup
/-
Specification for C110: what an optimiser optimises.
-/
namespace Csdl
open Csdl

/-- The node found by the name `n` (promoted name, or full name): find the node of the name in the maps from names to nodes, and follow the map from targets of connections to sources. -/
def NodeByName (maps : NodeMaps) (done : Dict Nat Nat) (n : Name) (u : Nat) : Prop := ∃ t, findNode maps n = .ok t ∧ Leads done t u

namespace Prog
open Csdl.Arith
variable {K F G I : Type} [Field K]

/-- The model at `path` has an input, numbered `y`, that it declares a design variable; its promoted name is `p`. -/
def DesignInput (b : XBody K F G I) (path : List Name) (y : Nat) (p : Name) : Prop :=
  ∃ b' n name d shape v, XAt b path b' ∧ (n, .designVar name d) ∈ b'.stmts 0 ∧ (b'.low 0).Has y (.input name shape v) ∧ PromotedAs (b.low 0).toModel path .source ⟨name, shape⟩ p

/-- The values `σ0` of the nodes before execution are those an optimiser sets: for each design variable, the node found by its name has the value `x` of that name; the other nodes have their initial values. -/
structure SetBy {V : Type} (rep : Csdl.Rep) (x : Name → V) (initial σ0 : Nat → V) : Prop where
  set : ∀ p ∈ rep.designVars.keys, ∀ i, NodeByName rep.maps rep.done p i → σ0 i = x p
  other : ∀ i, (∀ p ∈ rep.designVars.keys, ¬ NodeByName rep.maps rep.done p i) → σ0 i = initial i

end Prog
end Csdl
