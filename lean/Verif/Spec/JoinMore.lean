import Verif.Spec.Join
/-
Specification for C112: a program in which more variables are joined.
-/
namespace Csdl.Prog
open Csdl
variable {K F : Type}

/-- Variables that are the same in `b` (by promotion, by connections or as aliases) are the same in `b'`. -/
def JoinsAtLeast (b b' : Body K F) : Prop := ∀ u v, Relation.EqvGen (Same b) u v → Relation.EqvGen (Same b') u v

/-- `ConnectedAt path s t b b'`: `b'` is `b` with `self.connect(s, t)` added at the end of the method of (one of) the model(s) at `path`. -/
inductive ConnectedAt (s t : Name) : List Name → Body K F → Body K F → Prop
  | here (b : Body K F) : ConnectedAt s t [] b (b.thenConnect s t)
  | sub (i : Bool) (n : Name) (p : Option (List Name)) {path : List Name} {sub sub' : Body K F} (r : Body K F) : ConnectedAt s t path sub sub' → ConnectedAt s t (n :: path) (.add i n p sub r) (.add i n p sub' r)
  | stmt (u : Stmt K F) {n : Name} {path : List Name} {r r' : Body K F} : ConnectedAt s t (n :: path) r r' → ConnectedAt s t (n :: path) (.stmt u r) (.stmt u r')
  | add (i : Bool) (m : Name) (p : Option (List Name)) (sub : Body K F) {n : Name} {path : List Name} {r r' : Body K F} : ConnectedAt s t (n :: path) r r' → ConnectedAt s t (n :: path) (.add i m p sub r) (.add i m p sub r')

/-- In the values `value`, variables named `s` have the values that variables named `t` have: what a connection demands, whose ends have, from the main model, the full names `s` and `t`. -/
def EndsAgree {V : Type} (b : Body K F) (s t : Name) (value : List Name → Nat → V) : Prop :=
  ∀ p q, Denotes b.toModel s p → Denotes b.toModel t q → ∀ path x path' y, HasName b path x p → HasName b path' y q → value path x = value path' y

end Csdl.Prog
