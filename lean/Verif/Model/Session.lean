import Verif.Model.ProgramFull
/-
Model of a session: several programs run one after the other in the same Python process.  Objects are counted on from one program to the next: csdl/lang/node.py:22-27 (`Node._count` is an attribute of the class).
-/
namespace Csdl.Prog
open Csdl Csdl.Arith
variable {K F G I : Type}

/-- csdl/lang/node.py:22-27, csdl/lang/define_models_recursively.py:10-52: programs run one after the other; all objects of the session, and the main models -/
def runSession [Field K] [DecidableEq K] : List (PObj K (Fun F G I)) → List (XBody K F G I) → Except Err (List (PObj K (Fun F G I)) × List OModel)
  | pre, [] => .ok (pre, [])
  | pre, b :: bs =>
    match xrunFrom pre b with
    | .error e => .error e
    | .ok (objs, root) =>
      match runSession objs bs with
      | .error e => .error e
      | .ok (all, roots) => .ok (all, root :: roots)

end Csdl.Prog
