import Verif.Spec.ValidProgram
/-
Specification for C101: consistently renaming the variables and submodels of a program.
-/
namespace Csdl.Prog
open Csdl
variable {K F : Type}

/-- A renaming of names: different names get different new names; names that are not given are not affected (the map is one to one and onto); dotted names are renamed part by part; allowed names stay allowed and names that do not
look like automatic names do not get to look like them. -/
structure Renaming (r : Name ≃ Name) : Prop where
  empty : r [] = []
  dotted : ∀ a b, r (a ++ '.' :: b) = r a ++ '.' :: r b
  undotted : ∀ n, '.' ∉ n ↔ '.' ∉ r n
  allowed : ∀ n, Allowed n ↔ Allowed (r n)
  auto : ∀ n, '.' ∉ n → (AutoLike n ↔ AutoLike (r n))

/-- a statement with other names -/
def Stmt.rename (r : Name → Name) : Stmt K F → Stmt K F
  | .input name s v => .input (r name) s v
  | .declare name s v => .declare (r name) s v
  | .output name s v => .output (r name) s v
  | .register name x => .register (r name) x
  | .connect a b => .connect (r a) (r b)
  | s => s

/-- a program with other names -/
def Body.rename (r : Name → Name) : Body K F → Body K F
  | .done => .done
  | .stmt s rest => .stmt (s.rename r) (rest.rename r)
  | .add i n p sub rest => .add i (r n) (p.map (·.map r)) (sub.rename r) (rest.rename r)

end Csdl.Prog
