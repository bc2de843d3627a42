import Verif.Spec.ValidProgram
/-
Specification for C84: programs of one model.
-/
namespace Csdl.Prog
open Csdl Csdl.Arith
variable {K F : Type}

/-- An output that is assembled from parts is used (in an expression, as an argument, to take a part of it, or to assign it to a part of another output) only after all assignments to its parts. -/
def UsedWhenComplete (b : Body K F) : Prop :=
  ∀ (i j n m : Nat) (s : Stmt K F) (z v a : Nat) (key : Key), (b.stmts 0)[i]? = some (n, s) → (a ∈ s.operands ∨ ∃ w k, s = .assign w k a) → (b.stmts 0)[j]? = some (m, .assign z key v) → Alias (b.stmts 0) z a → j < i

/-- A program of one model: no submodels, no connections; outputs are used when they are complete. -/
structure OneModel (b : Body K F) : Prop where
  subs : b.subs = []
  connections : b.locals.connections = []
  complete : UsedWhenComplete b

end Csdl.Prog
