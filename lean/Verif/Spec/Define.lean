import Verif.Model.Define
/-
Specification for C48.
-/
namespace Csdl.Define
open Csdl

/-- `m` occurs in the hierarchy below `root`. -/
inductive Below (h : Nat → Obj) (root : Nat) : Nat → Prop where
  | root : Below h root root
  | sub {p m : Nat} : Below h root p → m ∈ (h p).subs → Below h root m

/-- What the representation promises of a model: it does something, its design variables are inputs, and its concatenations have been assigned to. -/
structure WellDefined (o : Obj) : Prop where
  nonempty : o.outputs ≠ [] ∨ o.subs ≠ [] ∨ o.inputs ≠ []
  designVars : ∀ n ∈ o.designVars, n ∈ o.inputs
  concats : ∀ p ∈ o.outputs, p.2 ≠ some false

/-- All models as the user created them: no `define` has been run by the library. -/
def Fresh (st : DState) : Prop := st.calls = [] ∧ ∀ m, (st.heap m).defined = false

/-- In the list `calls`, every model comes after a model that contains it, except `roots`. -/
def TopDown (h : Nat → Obj) (roots : List Nat) (calls : List Nat) : Prop :=
  ∀ pre m post, calls = pre ++ m :: post → m ∈ roots ∨ ∃ p ∈ pre, m ∈ (h p).subs

end Csdl.Define
