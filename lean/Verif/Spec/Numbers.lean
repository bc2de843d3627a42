import Verif.Model.ProgramFull
/-
Specification for C116: programs that differ only in numbers and functions.
-/
namespace Csdl.Prog
open Csdl Csdl.Arith
variable {K F L G : Type}

/-- Neither constant is the number zero, or both are. -/
def BothZero [Field K] [Field L] : Const K → Const L → Prop
  | .num c, .num d => c = 0 ↔ d = 0
  | .num c, .arr _ _ => c ≠ 0
  | .arr _ _, .num d => d ≠ 0
  | .arr _ _, .arr _ _ => True

/-- The same operator applied to the same variables and other constants; a constant that is divided by is the number zero in both or in neither. -/
inductive SameOperator [Field K] [Field L] : Instr K → Instr L → Prop
  | pos (x : Nat) : SameOperator (.pos x) (.pos x)
  | neg (x : Nat) : SameOperator (.neg x) (.neg x)
  | add (x y : Nat) : SameOperator (.add x y) (.add x y)
  | addc (x : Nat) (c : Const K) (d : Const L) : SameOperator (.addc x c) (.addc x d)
  | sub (x y : Nat) : SameOperator (.sub x y) (.sub x y)
  | subc (x : Nat) (c : Const K) (d : Const L) : SameOperator (.subc x c) (.subc x d)
  | rsubc (c : Const K) (d : Const L) (x : Nat) : SameOperator (.rsubc c x) (.rsubc d x)
  | mul (x y : Nat) : SameOperator (.mul x y) (.mul x y)
  | mulc (x : Nat) (c : Const K) (d : Const L) : SameOperator (.mulc x c) (.mulc x d)
  | div (x y : Nat) : SameOperator (.div x y) (.div x y)
  | divc (x : Nat) (c : Const K) (d : Const L) : BothZero c d → SameOperator (.divc x c) (.divc x d)
  | rdivc (c : Const K) (d : Const L) (x : Nat) : SameOperator (.rdivc c x) (.rdivc d x)
  | powc (x : Nat) (c : Const K) (d : Const L) : SameOperator (.powc x c) (.powc x d)

/-- The same statement with other numbers, and functions that are related by `R`. -/
inductive SameStmt [Field K] [Field L] (R : F → G → Prop) : Stmt K F → Stmt L G → Prop
  | input (name : Name) (shape : Shape) (v : Val K) (w : Val L) : SameStmt R (.input name shape v) (.input name shape w)
  | declare (name : Name) (shape : Shape) : SameStmt R (.declare name shape none) (.declare name shape none)
  | declareVal (name : Name) (shape : Shape) (v : Val K) (w : Val L) : SameStmt R (.declare name shape (some v)) (.declare name shape (some w))
  | expr {i : Instr K} {j : Instr L} : SameOperator i j → SameStmt R (.expr i) (.expr j)
  | call (f : F) (g : G) (args : List Nat) (outs : List Shape) : R f g → SameStmt R (.call f args outs) (.call g args outs)
  | index (x : Nat) (key : Key) : SameStmt R (.index x key) (.index x key)
  | output (name : Name) (shape : Shape) (v : Val K) (w : Val L) : SameStmt R (.output name shape v) (.output name shape w)
  | assign (y : Nat) (key : Key) (x : Nat) : SameStmt R (.assign y key x) (.assign y key x)
  | register (name : Name) (x : Nat) : SameStmt R (.register name x) (.register name x)
  | connect (a b : Name) : SameStmt R (.connect a b) (.connect a b)

/-- The same program with other numbers (values of inputs and declared variables, constants) and functions (related by `R`): the statements of all methods are the same. -/
inductive SameButNumbers [Field K] [Field L] (R : F → G → Prop) : Body K F → Body L G → Prop
  | done : SameButNumbers R .done .done
  | stmt {s : Stmt K F} {s' : Stmt L G} {rest : Body K F} {rest' : Body L G} : SameStmt R s s' → SameButNumbers R rest rest' → SameButNumbers R (.stmt s rest) (.stmt s' rest')
  | add (inline : Bool) (name : Name) (promotes : Option (List Name)) {sub rest : Body K F} {sub' rest' : Body L G} : SameButNumbers R sub sub' → SameButNumbers R rest rest' →
      SameButNumbers R (.add inline name promotes sub rest) (.add inline name promotes sub' rest')

/-- The same operation with other numbers or another function; the operations that take parts of variables and assemble outputs have the same shapes and indices. -/
def SameKind : Kind K F → Kind L G → Prop
  | .arith (.lin _ _), .arith (.lin _ _) => True
  | .arith (.pow _ _), .arith (.pow _ _) => True
  | .fn _, .fn _ => True
  | .part s es, .part s' es' => s = s' ∧ es = es'
  | .assemble s _ es, .assemble s' _ es' => s = s' ∧ es = es'
  | _, _ => False

/-- two standard functions, two custom operations, or two implicit operations -/
def SameSort {F' G' I' : Type} {I : Type} : Fun F G I → Fun F' G' I' → Prop
  | .std _, .std _ => True
  | .custom _, .custom _ => True
  | .implicit _, .implicit _ => True
  | _, _ => False

/-- The same statement with other numbers and functions, with custom and implicit operations (declared by the same calls, defined by the same model) and optimisation declarations (whose numbers are numbered, see `XStmt`). -/
inductive SameXStmt [Field K] {F' G' I I' : Type} : XStmt K F G I → XStmt K F' G' I' → Prop
  | plain {s : Stmt K F} {s' : Stmt K F'} : SameStmt (fun _ _ => True) s s' → SameXStmt (.plain s) (.plain s')
  | custom (g : G) (g' : G') (calls : List (Custom.CCall K Nat)) (args : List Nat) (names : List Name) : SameXStmt (.custom g calls args names) (.custom g' calls args names)
  | implicit (i : I) (i' : I') (M : IModel) (fuel : Nat) (fac : Factory) (expose : List Name) (args : List Nat) : SameXStmt (.implicit i M fuel fac expose args) (.implicit i' M fuel fac expose args)
  | designVar (name : Name) (d : Nat) : SameXStmt (.designVar name d) (.designVar name d)
  | constraint (name : Name) (d : Nat) : SameXStmt (.constraint name d) (.constraint name d)
  | objective (name : Name) (d : Nat) : SameXStmt (.objective name d) (.objective name d)

/-- The same program with other numbers and functions, with custom and implicit operations and optimisation declarations. -/
inductive XSameButNumbers [Field K] {F' G' I I' : Type} : XBody K F G I → XBody K F' G' I' → Prop
  | done : XSameButNumbers .done .done
  | stmt {s : XStmt K F G I} {s' : XStmt K F' G' I'} {rest : XBody K F G I} {rest' : XBody K F' G' I'} : SameXStmt s s' → XSameButNumbers rest rest' → XSameButNumbers (.stmt s rest) (.stmt s' rest')
  | add (inline : Bool) (name : Name) (promotes : Option (List Name)) {sub rest : XBody K F G I} {sub' rest' : XBody K F' G' I'} : XSameButNumbers sub sub' → XSameButNumbers rest rest' →
      XSameButNumbers (.add inline name promotes sub rest) (.add inline name promotes sub' rest')

end Csdl.Prog
