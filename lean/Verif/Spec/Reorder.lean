import Verif.Spec.ValidProgram
/-
Specification for C91: programs that differ in the order of submodels and connections only.
-/
namespace Csdl.Prog
open Csdl Csdl.Arith
variable {K F : Type}

/-- `b'` is `b` with submodels and connections at other places: it is obtained by exchanging, in any of the methods, neighbouring statements of which one is `self.add(...)`, `self.create_submodel(...)` or
`self.connect(...)`, and by writing submodels with `create_submodel` instead of `add`, or vice versa. -/
inductive Reordered : Body K F → Body K F → Prop
  | refl (b : Body K F) : Reordered b b
  | trans {a b c : Body K F} : Reordered a b → Reordered b c → Reordered a c
  /-- in the rest of the method -/
  | stmt (s : Stmt K F) {r r' : Body K F} : Reordered r r' → Reordered (.stmt s r) (.stmt s r')
  /-- in a submodel and in the rest of the method; `add` or `create_submodel` -/
  | add (i j : Bool) (n : Name) (p : Option (List Name)) {sub sub' r r' : Body K F} : Reordered sub sub' → Reordered r r' → Reordered (.add i n p sub r) (.add j n p sub' r')
  /-- two submodels -/
  | swapAdds (i j : Bool) (n m : Name) (p q : Option (List Name)) (sub sub' r : Body K F) : Reordered (.add i n p sub (.add j m q sub' r)) (.add j m q sub' (.add i n p sub r))
  /-- a submodel and another statement -/
  | addLater (i : Bool) (n : Name) (p : Option (List Name)) (sub : Body K F) (s : Stmt K F) (r : Body K F) : Reordered (.add i n p sub (.stmt s r)) (.stmt s (.add i n p sub r))
  | addEarlier (i : Bool) (n : Name) (p : Option (List Name)) (sub : Body K F) (s : Stmt K F) (r : Body K F) : Reordered (.stmt s (.add i n p sub r)) (.add i n p sub (.stmt s r))
  /-- a connection and another statement -/
  | connectLater (a c : Name) (s : Stmt K F) (r : Body K F) : Reordered (.stmt (.connect a c) (.stmt s r)) (.stmt s (.stmt (.connect a c) r))
  | connectEarlier (a c : Name) (s : Stmt K F) (r : Body K F) : Reordered (.stmt s (.stmt (.connect a c) r)) (.stmt (.connect a c) (.stmt s r))

end Csdl.Prog
