import Verif.Model.Graph
import Mathlib.Logic.Relation
/-
Specification for C24, C25: graphs, cycles, orders that respect dependencies, evaluation.
-/
namespace Csdl

/-- The edge relation. -/
def Graph.Edge (g : Graph) (u v : Nat) : Prop := (u, v) ∈ g.edges

/-- What every `DiGraph` satisfies: no repeated nodes or edges, and edges are between nodes. -/
structure Graph.WF (g : Graph) : Prop where
  nodup : g.nodes.Nodup
  edges_nodup : g.edges.Nodup
  left : ∀ u v, g.Edge u v → u ∈ g.nodes
  right : ∀ u v, g.Edge u v → v ∈ g.nodes

/-- The graph has a cycle: a node that can be reached from itself by one or more edges. -/
def Graph.Cyclic (g : Graph) : Prop := ∃ v, Relation.TransGen g.Edge v v

/-- `l` contains every node exactly once, and every node comes after all nodes it depends on. -/
structure Graph.Order (g : Graph) (l : List Nat) : Prop where
  nodup : l.Nodup
  all : ∀ v, v ∈ l ↔ v ∈ g.nodes
  before : ∀ (i j : Nat) (u v : Nat), l[i]? = some u → l[j]? = some v → g.Edge u v → i < j

end Csdl

namespace Csdl

/-! ### evaluation

Evaluation is done by a back end, from the list of sorted nodes (csdl/examples/back_end/simulator.py); it is not in /repo.  This is its specification:
variable nodes hold values, an operation node reads its arguments and writes all its outputs. -/

/-- An interpretation of the operations of a graph over values `V`. -/
structure Interp (V : Type) where
  /-- which nodes are operations -/
  isOp : Nat → Bool
  /-- arguments of each operation, in order -/
  args : Nat → List Nat
  /-- value of each output, from the values of the arguments -/
  fn : Nat → List V → Nat → V

/-- Values of the variables. -/
abbrev Env (V : Type) := Nat → V

/-- Executing one node. -/
def execNode {V : Type} (g : Graph) (I : Interp V) (σ : Env V) (n : Nat) : Env V := fun v =>
  if I.isOp n = true ∧ (n, v) ∈ g.edges then I.fn n ((I.args n).map σ) v else σ v

/-- Executing nodes in the given order. -/
def execAll {V : Type} (g : Graph) (I : Interp V) (σ : Env V) (order : List Nat) : Env V := order.foldl (execNode g I) σ

/-- The graph is a graph of variables and operations in which every variable is computed by at most one operation, and the arguments of
an operation are dependencies of it. -/
structure Computes {V : Type} (g : Graph) (I : Interp V) : Prop where
  bipartite : ∀ u v, g.Edge u v → I.isOp u ≠ I.isOp v
  args : ∀ n, I.isOp n = true → ∀ u ∈ I.args n, g.Edge u n
  one : ∀ u u' v, g.Edge u v → g.Edge u' v → I.isOp v = false → u = u'

end Csdl
