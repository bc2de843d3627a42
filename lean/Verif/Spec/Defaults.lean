import Verif.Spec.Program
/-
Specification for C86: which of the values given in a program a variable has that no statement computes.
-/
namespace Csdl.Prog
open Csdl Csdl.Arith
variable {K F : Type}

/-- the declaration of `name` numbered `y` is the last one of that name in the method -/
def Body.LastDeclared (b : Body K F) (name : Name) (y : Nat) : Prop := ∀ y' shape val, b.Has y' (.declare name shape val) → y' ≤ y

/-- The variables `(path, x)` and `(path', y)` are the same, directly or indirectly. -/
abbrev SameVar (b : Body K F) (path : List Name) (x : Nat) (path' : List Name) (y : Nat) : Prop := Relation.EqvGen (Same b) (path, x) (path', y)

/-- `DefaultOf b path x v`: `v` is the value given in the program for the variable `(path, x)`, where `none` means that no value is given.  It is the value of an input that is the same variable and is not the target of a
connection; or, if no input is the same variable, that of a declared variable that is the same: of the last declaration of its name in its model, of a model of least depth, where the main model and its direct submodels
count as equally deep, and of a declaration with a value if there is one among these, otherwise in main if there is one there. -/
inductive DefaultOf (b : Body K F) (path : List Name) (x : Nat) : Option (Val K) → Prop
  | input {path' : List Name} {b' : Body K F} {y : Nat} {name : Name} {shape : Shape} {v : Val K} : BAt b path' b' → b'.Has y (.input name shape v) → SameVar b path x path' y →
      (∀ p, HasName b path' y p → ¬ TargetName b.toModel p) → DefaultOf b path x (some v)
  | declare {path' : List Name} {b' : Body K F} {y : Nat} {name : Name} {shape : Shape} {v : Option (Val K)} : BAt b path' b' → b'.Has y (.declare name shape v) → SameVar b path x path' y → b'.LastDeclared name y →
      (∀ path2 b2 z nm s w, BAt b path2 b2 → b2.Has z (.input nm s w) → ¬ SameVar b path x path2 z) →
      (∀ path2 b2 z nm s w, BAt b path2 b2 → b2.Has z (.declare nm s w) → SameVar b path x path2 z →
        max path'.length 1 ≤ max path2.length 1 ∧ (max path2.length 1 = max path'.length 1 → b2.LastDeclared nm z → w.isSome = true → v.isSome = true) ∧
        (path2 = [] → path' = [] ∨ v.isSome = true)) →
      DefaultOf b path x v

/-- `GivenAt b path x path' y v`: as `DefaultOf b path x v`; the input or declaration is the variable `(path', y)`. -/
inductive GivenAt (b : Body K F) (path : List Name) (x : Nat) (path' : List Name) (y : Nat) : Option (Val K) → Prop
  | input {b' : Body K F} {name : Name} {shape : Shape} {v : Val K} : BAt b path' b' → b'.Has y (.input name shape v) → SameVar b path x path' y →
      (∀ p, HasName b path' y p → ¬ TargetName b.toModel p) → GivenAt b path x path' y (some v)
  | declare {b' : Body K F} {name : Name} {shape : Shape} {v : Option (Val K)} : BAt b path' b' → b'.Has y (.declare name shape v) → SameVar b path x path' y → b'.LastDeclared name y →
      (∀ path2 b2 z nm s w, BAt b path2 b2 → b2.Has z (.input nm s w) → ¬ SameVar b path x path2 z) →
      (∀ path2 b2 z nm s w, BAt b path2 b2 → b2.Has z (.declare nm s w) → SameVar b path x path2 z →
        max path'.length 1 ≤ max path2.length 1 ∧ (max path2.length 1 = max path'.length 1 → b2.LastDeclared nm z → w.isSome = true → v.isSome = true) ∧
        (path2 = [] → path' = [] ∨ v.isSome = true)) →
      GivenAt b path x path' y v

/-- The values of the variable objects: those given to `create_input` and `declare_variable` (csdl/lang/variable.py:47 `val`), 1.0 otherwise (csdl/lang/model.py:329-340). -/
def initial [One K] (objs : List (PObj K F)) : Env (Val K) := fun i => (objs[i]?.bind PObj.val).getD fun _ => 1

end Csdl.Prog
