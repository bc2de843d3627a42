import Verif.Spec.ValidProgram
/-
Model of `Model.print_var`: csdl/lang/model.py:176-205, csdl/operations/print_var.py:5-18.
-/
namespace Csdl.Prog
open Csdl
variable {K F : Type}

/-- (not in csdl) the statements of `b` followed by those of `e` -/
def Body.append : Body K F → Body K F → Body K F
  | .done, e => e
  | .stmt s r, e => .stmt s (r.append e)
  | .add i n p sub r, e => .add i n p sub (r.append e)

/-- csdl/lang/model.py:192-205: `self.print_var(x)` as the last statement of the method.  It creates an operation with the argument `x` (`f` is the operation `print_var`, csdl/operations/print_var.py:5-18) and a result with the
shape of `x`, which is registered as an output; `nm` is the name of `x` followed by `_print`.  Simplifications: `nm` is arbitrary; the call is at the end of the method (the name of `x` is read when `print_var` is called). -/
def Body.print (f : F) (x : Nat) (nm : Name) (b : Body K F) : Body K F :=
  b.append (.stmt (.call f [x] [b.shapes.getD x []]) (.stmt (.register nm (numVars (b.stmts 0))) .done))

end Csdl.Prog
