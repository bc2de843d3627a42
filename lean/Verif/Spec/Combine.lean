import Verif.Model.Combine
import Verif.Spec.Graph
/-
Specification for C49 and C60: what a flat graph computes.
-/
namespace Csdl.Opt
open Csdl

/-- Run the lines of a compute string: `fn o args v` is the value that operation `o` gives to its output `v`. -/
def exec {V : Type} (fn : Nat → List V → Nat → V) : List Line → (Nat → V) → Nat → V
  | [], env => env
  | l :: ls, env => exec fn ls (fun n => if n = l.out then fn l.op (l.args.map env) l.out else env n)

/-- The values `val` of the variables satisfy all operations of the graph. -/
def Sat {V : Type} (fn : Nat → List V → Nat → V) (cg : CGraph) (val : Nat → V) : Prop :=
  ∀ o ∈ cg.g.nodes, (∃ b, cg.kind o = .op b) → ∀ v, cg.g.Edge o v → val v = exec fn (cg.prog o) val v

/-- The flat graph of a representation: edges join variables and operations of the graph, there is no cycle, every variable is computed by at most one operation, and every operation assigns to its outputs the results for its arguments. -/
structure FlatGraph (cg : CGraph) : Prop where
  wf : cg.g.WF
  bipartite : ∀ u v, cg.g.Edge u v → (∃ b c, cg.kind u = .var b ∧ cg.kind v = .op c) ∨ (∃ b c, cg.kind u = .op b ∧ cg.kind v = .var c)
  acyclic : ¬cg.g.Cyclic
  oneSource : ∀ v b, cg.kind v = .var b → ∀ o o', cg.g.Edge o v → cg.g.Edge o' v → o = o'
  fresh : ∀ n ∈ cg.g.nodes, n < cg.next
  lines : ∀ o b, cg.kind o = .op b → cg.prog o = (cg.g.succs o).map fun v => ⟨v, o, cg.g.preds o⟩

/-- An elementwise operation with one argument and one output. -/
def Unary (cg : CGraph) (o a v : Nat) : Prop := cg.kind o = .op true ∧ cg.g.preds o = [a] ∧ cg.g.succs o = [v]

/-- What is computed between two unary elementwise operations is used by the second of them only. -/
def SingleUse (cg : CGraph) : Prop :=
  ∀ o1 a v o2 w, Unary cg o1 a v → Unary cg o2 v w → ∀ o, cg.g.Edge v o → o = o2

/-- `n` leads to a registered output. -/
inductive Live (g : Graph) (regs : List Nat) : Nat → Prop where
  | reg {n : Nat} : n ∈ regs → Live g regs n
  | step {n m : Nat} : g.Edge n m → Live g regs m → Live g regs n

end Csdl.Opt
