import Verif.Spec.Print
/-
Specification for C102: computations whose results are not used.
-/
namespace Csdl.Prog
open Csdl
variable {K F : Type}

/-- the statement `s` as the last statement of the method `c` -/
def Body.addStmt (s : Stmt K F) (c : Body K F) : Body K F := c.append (.stmt s .done)

/-- an operator expression, a call of a function, or a part of a variable -/
def Stmt.IsComputation : Stmt K F → Prop
  | .expr _ | .call _ _ _ | .index _ _ => True
  | _ => False

/-- The statement `s` as the last statement of the method `c` is a computation that is fine (see `StmtOk`) and whose results do not matter.  (Results of operators and functions never do; a part of a variable does not unless there is another
part of this variable that matters: `C102_last_statement`.) -/
structure DeadLast [Zero K] (c : Body K F) (s : Stmt K F) : Prop where
  computation : s.IsComputation
  ok : StmtOk (c.stmts 0) s
  unused : ∀ j < s.count, ¬ (c.addStmt s).Live (numVars (c.stmts 0) + j)

end Csdl.Prog
