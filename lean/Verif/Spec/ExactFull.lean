import Verif.Spec.ExactProgram
import Verif.Spec.ProgramFull
/-
Specification for C104: exactly which programs with custom operations, implicit operations and optimisation declarations are accepted.
-/
namespace Csdl.Prog
open Csdl Csdl.Arith
variable {K F G I : Type} [Field K]

/-- A program with custom operations, implicit operations and optimisation declarations is acceptable: its methods are fine (C80); written with calls and registrations it is acceptable; the names of design variables, constraints and of the
objective denote variables, different ones; there is at most one objective. -/
structure XAcceptable [DecidableEq K] (b : XBody K F G I) : Prop where
  methods : ∀ path b', XAt b path b' → ∀ P y P', b'.stmts 0 = P ++ y :: P' → XStmtOk P y.2
  low : AcceptableProgram (b.low 0)
  designVars : NamesResolve b.toModel Local.designVars ∧ DeclaredOnce b.toModel Local.designVars
  constraints : NamesResolve b.toModel Local.constraints ∧ DeclaredOnce b.toModel Local.constraints
  objective : NamesResolve b.toModel (fun l => l.objective.toList) ∧ (issuedPre (fun l => l.objective.toList) b.toModel).length ≤ 1

end Csdl.Prog
