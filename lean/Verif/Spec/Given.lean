import Verif.Spec.Defaults
/-
Specification for C109: which values must be given.
-/
namespace Csdl.Prog
open Csdl
variable {K F : Type}

/-- The variable numbered `y` of the model at `path` is an input that is not the target of a connection. -/
def FreeInput (b : Body K F) (path : List Name) (y : Nat) : Prop :=
  ∃ c name shape v, BAt b path c ∧ c.Has y (.input name shape v) ∧ ∀ p, HasName b path y p → ¬ TargetName b.toModel p

/-- The variable numbered `y` of the model at `path` is declared. -/
def DeclaredVar (b : Body K F) (path : List Name) (y : Nat) : Prop := ∃ c name shape v, BAt b path c ∧ c.Has y (.declare name shape v)

/-- The variable numbered `y` of the model at `path` is an input or a registered output. -/
def SourceVar (b : Body K F) (path : List Name) (y : Nat) : Prop :=
  ∃ c name, BAt b path c ∧ ((∃ shape v, c.Has y (.input name shape v)) ∨ (y, name) ∈ (c.stmts 0).filterMap outputOf)

end Csdl.Prog
