import Verif.Spec.Lookup
import Verif.Spec.Program
/-
Specification for C88: implicit operations whose residuals are defined by a program.
-/
namespace Csdl.Prog
open Csdl Csdl.Arith
variable {K F : Type} [Field K]

/-- What a back end does for an implicit operation, reading and writing values by name in the representation of the model that defines the residuals (`maps`, `done`: its maps): it finds values `states` of the states such that, when the
model is executed (`exec`) from initial values with these values of the arguments and of the states, the values of the residuals are accepted (`conv`; for example: all elements are smaller than a tolerance), and
the values of the exposed variables are `exposed`.  Names that the representation does not have are ignored. -/
def SolvedBy {V : Type} (maps : NodeMaps) (done : Dict Nat Nat) (exec : Env V → Env V) (conv : Name → V → Prop) (args states : List (Name × V)) (residuals : List Name) (exposed : List (Name × V)) : Prop :=
  ∃ σ0, (∀ a ∈ args ++ states, ∀ v, ValueByName maps done σ0 a.1 v → v = a.2) ∧ (∀ r ∈ residuals, ∀ v, ValueByName maps done (exec σ0) r v → conv r v) ∧
    ∀ e ∈ exposed, ∀ v, ValueByName maps done (exec σ0) e.1 v → v = e.2

/-- The same in terms of the statements of the model `b` that defines the residuals: all its statements hold as equations, with these values of the arguments, states and exposed variables, and with residuals that are accepted. -/
structure ResidualSolution (P : Power K) (den : F → List (Val K) → Nat → Val K) (b : Body K F) (conv : Name → Val K → Prop) (args states : List (Name × Val K)) (residuals : List Name) (exposed : List (Name × Val K))
    (ρ : List Name → Nat → Val K) : Prop where
  equations : Solution P den b ρ
  given : ∀ a ∈ args ++ states, ∀ path x, HasName b path x a.1 → ρ path x = a.2
  residuals : ∀ r ∈ residuals, ∀ path x, HasName b path x r → conv r (ρ path x)
  exposed : ∀ e ∈ exposed, ∀ path x, HasName b path x e.1 → ρ path x = e.2

/-- names, with the values `g` of their positions from `n` -/
def named {V : Type} (n : Nat) (names : List Name) (g : Nat → V) : List (Name × V) := names.mapIdx fun j s => (s, g (n + j))

/-- What csdl has checked when the call of an implicit operation succeeds, in terms of the statements of the model `b` that defines the residuals: it has no inputs; each argument is declared, with its shape; the states are declared, used, and have as
many residuals, which are registered outputs of the same shape; the exposed names are registered outputs. -/
structure ResidualModelOk (b : Body K F) (args : List (Name × Shape)) (states residuals expose : List Name) : Prop where
  inputs : ∀ n name shape val, ¬ b.Has n (.input name shape val)
  args : ∀ a ∈ args, ∃ x val, b.Has x (.declare a.1 a.2 val)
  count : states.length = residuals.length
  states : ∀ e ∈ states.zip residuals, ∃ x y shape val, b.Has x (.declare e.1 shape val) ∧ HasName b [] x e.1 ∧ (y, e.2) ∈ (b.stmts 0).filterMap outputOf ∧ HasName b [] y e.2 ∧ b.shapes.getD y [] = shape
  expose : ∀ e ∈ expose, ∃ y, (y, e) ∈ (b.stmts 0).filterMap outputOf ∧ HasName b [] y e

end Csdl.Prog
