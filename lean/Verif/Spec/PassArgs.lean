import Verif.Spec.Defaults
/-
Specification for C107: values passed to a residual model.
-/
namespace Csdl.Prog
open Csdl Csdl.Arith
variable {K F : Type}

/-- the value of the last argument of that name -/
def passedTo (args : List (Name × Shape × Val K)) (name : Name) : Option (Val K) := (args.reverse.find? fun a => a.1 = name).map fun a => a.2.2

/-- `InitialAt b args path' y v w`: the declaration or input `(path', y)` of the program has the value `v` in the program (`none`: no value), and `w` when the values of the arguments have been passed: the value of the argument if it is the last declaration of
an argument in the main model; otherwise `v`, or 1. -/
inductive InitialAt (b : Body K F) [One K] (args : List (Name × Shape × Val K)) (path' : List Name) (y : Nat) (v : Option (Val K)) : Val K → Prop
  | passed {name : Name} {shape : Shape} {a : Val K} : path' = [] → b.Has y (.declare name shape v) → b.LastDeclared name y → passedTo args name = some a → InitialAt b args path' y v a
  | own : (path' = [] → ∀ name shape v', b.Has y (.declare name shape v') → b.LastDeclared name y → passedTo args name = none) → InitialAt b args path' y v (v.getD fun _ => 1)

end Csdl.Prog
