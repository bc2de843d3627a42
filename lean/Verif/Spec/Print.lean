import Verif.Model.Print
/-
Specification for C96: adding an output; printing a variable.
-/
namespace Csdl.Prog
open Csdl
variable {K F : Type}

/-- `Replaced c c' b path b'`: `b'` is `b` with the method `c'` instead of the method `c` of the model at `path`. -/
inductive Replaced (c c' : Body K F) : Body K F → List Name → Body K F → Prop
  | here : Replaced c c' c [] c'
  | stmt (s : Stmt K F) {r r' : Body K F} {n : Name} {path : List Name} : Replaced c c' r (n :: path) r' → Replaced c c' (.stmt s r) (n :: path) (.stmt s r')
  | sub (i : Bool) (n : Name) (p : Option (List Name)) {s s' : Body K F} (r : Body K F) {path : List Name} : Replaced c c' s path s' → Replaced c c' (.add i n p s r) (n :: path) (.add i n p s' r)
  | rest (i : Bool) (n : Name) (p : Option (List Name)) (s : Body K F) {r r' : Body K F} {m : Name} {path : List Name} : Replaced c c' r (m :: path) r' → Replaced c c' (.add i n p s r) (m :: path) (.add i n p s r')

/-- `y = f(args); self.register_output(nm, y)` as the last statements of the method `c`; `y` has the shape `sh`. -/
def Body.addOutput (f : F) (args : List Nat) (sh : Shape) (nm : Name) (c : Body K F) : Body K F := c.append (.stmt (.call f args [sh]) (.stmt (.register nm (numVars (c.stmts 0))) .done))

/-- The name `nm` can be used for a new output of the model at `path` (its method is `c`): it is allowed, does not look like an automatic name, is not the name of a variable or a submodel of the model, and in no model that
contains the model at `path` is the promoted name of the new output the promoted name of another variable. -/
structure NewOutput (b b' : Body K F) (path : List Name) (c : Body K F) (nm : Name) : Prop where
  allowed : Allowed nm
  notAuto : ¬ AutoLike nm
  fresh : (∀ n s, c.Has n s → s.defines ≠ some nm) ∧ nm ∉ c.subs.map (·.1)
  promoted : ∀ path1 path2 d d', path = path1 ++ path2 → BAt b path1 d → BAt b' path1 d' → ∀ w p, w.name = nm → PromotedAs d'.toModel path2 .source w p → ∀ path3 k v, ¬ PromotedAs d.toModel path3 k v p

end Csdl.Prog
