import Verif.Spec.ValidProgram
/-
Specification for C100: which values the value of a variable depends on.
-/
namespace Csdl.Prog
open Csdl
variable {K F : Type}

/-- The variable `z` is `g`, or the same as `g`, or computed from `g`, in any number of steps. -/
def DependsOn (b : Body K F) (z g : List Name × Nat) : Prop := Relation.ReflTransGen (fun a c => Relation.EqvGen (Same b) a c ∨ Feeds b a c) g z

/-- The variable `z` depends on a result of a call of the function `f`. -/
def DependsOnCall (b : Body K F) (z : List Name × Nat) (f : F) : Prop := ∃ path c n args outs j, BAt b path c ∧ c.Has n (.call f args outs) ∧ j < outs.length ∧ c.Live (n + j) ∧ DependsOn b z (path, n + j)

end Csdl.Prog
