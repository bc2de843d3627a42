import Verif.Spec.ProgramFull
import Verif.Spec.Library
/-
Specification for C85: two programs whose texts differ only in how submodels are given: as methods of their own (`self.add(M(), name)`) or in `with` blocks (`with self.create_submodel(name) as m:`).
-/
namespace Csdl.Prog
open Csdl Csdl.Arith
variable {K F G I : Type}

/-- The same statements and the same submodels in the same order, at each of which `i` and `j` say whether it is defined in a `with` block. -/
inductive XSameText : XBody K F G I → XBody K F G I → Prop
  | done : XSameText .done .done
  | stmt (s : XStmt K F G I) {b c : XBody K F G I} : XSameText b c → XSameText (.stmt s b) (.stmt s c)
  | add (i j : Bool) (name : Name) (promotes : Option (List Name)) {sub sub' b c : XBody K F G I} : XSameText sub sub' → XSameText b c → XSameText (.add i name promotes sub b) (.add j name promotes sub' c)

/-- as `XSameText`, for programs with calls of functions of the library -/
inductive LSameText : LBody K G I → LBody K G I → Prop
  | done : LSameText .done .done
  | stmt (s : LStmt K G I) {b c : LBody K G I} : LSameText b c → LSameText (.stmt s b) (.stmt s c)
  | add (i j : Bool) (name : Name) (promotes : Option (List Name)) {sub sub' b c : LBody K G I} : LSameText sub sub' → LSameText b c → LSameText (.add i name promotes sub b) (.add j name promotes sub' c)

end Csdl.Prog
