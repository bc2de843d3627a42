import Verif.Model.Analysis
import Verif.Spec.Graph
/-
Specification for C63-C66.
-/
namespace Csdl.Analysis
open Csdl

/-- The value of `u` can influence the value of `v`: there is a path of one or more edges. -/
def Influences (g : Graph) (u v : Nat) : Prop := Relation.TransGen g.Edge u v

/-- `x` is a registered output: a variable which is an output with a name given by the user. -/
def AGraph.IsRegisteredOutput (a : AGraph) (x : Nat) : Prop := x ∈ a.g.nodes ∧ (a.info x).isVar = true ∧ (a.info x).isOutput = true ∧ (a.info x).named = true

/-- The name of a node in the main model: its own name, after the namespace and a dot if there is a namespace. -/
def AGraph.qualifiedName (a : AGraph) (x : Nat) : Name := match (a.info x).ns with | [] => (a.info x).name | c :: cs => (c :: cs) ++ ".".toList ++ (a.info x).name

/-- Edges join variables and operations. -/
def AGraph.Bipartite (a : AGraph) : Prop := ∀ u v, a.g.Edge u v → (a.info u).isVar ≠ (a.info v).isVar

/-- A path with `n` edges. -/
inductive PathLen (g : Graph) : Nat → Nat → Nat → Prop where
  | nil (u : Nat) : PathLen g u u 0
  | snoc {u v w n : Nat} : PathLen g u v n → g.Edge v w → PathLen g u w (n + 1)

/-- A path, with the number of operations on it. -/
inductive PathOps (a : AGraph) : Nat → Nat → Nat → Prop where
  | nil (u : Nat) : PathOps a u u (if (a.info u).isVar then 0 else 1)
  | snoc {u v w n : Nat} : PathOps a u v n → a.g.Edge v w → PathOps a u w (n + if (a.info w).isVar then 0 else 1)

end Csdl.Analysis
