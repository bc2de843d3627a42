import Verif.Spec.ValidProgram
/-
Specification for C97: programs that join the same variables in different ways.
-/
namespace Csdl.Prog
open Csdl Csdl.Arith
variable {K F : Type}

/-- not `self.connect(...)` -/
def Stmt.notConnect : Stmt K F → Bool
  | .connect _ _ => false
  | _ => true

/-- The two methods have the same statements in the same order, apart from connections (and submodels). -/
def SameStatements (c c' : Body K F) : Prop := (c.stmts 0).filter (fun s => s.2.notConnect) = (c'.stmts 0).filter fun s => s.2.notConnect

/-- The two programs have models at the same paths, with the same statements.  Which names are promoted, which connections there are, and the order of the submodels may differ. -/
def SameMethods (b b' : Body K F) : Prop := (∀ path c, BAt b path c → ∃ c', BAt b' path c' ∧ SameStatements c c') ∧ ∀ path c', BAt b' path c' → ∃ c, BAt b path c ∧ SameStatements c c'

/-- In both programs the same variables are the same, directly or indirectly: because they have the same promoted name, because of connections, or because they are aliases. -/
def SameJoins (b b' : Body K F) : Prop := ∀ u v, Relation.EqvGen (Same b) u v ↔ Relation.EqvGen (Same b') u v

/-- `Unpromoted n a b b'`: `b'` is `b` with `a` removed from the names that are promoted from the submodel `n` of the main model. -/
inductive Unpromoted (n a : Name) : Body K F → Body K F → Prop
  | here (i : Bool) {l : List Name} (sub r : Body K F) : a ∈ l → Unpromoted n a (.add i n (some l) sub r) (.add i n (some (l.filter (· ≠ a))) sub r)
  | stmt (s : Stmt K F) {r r' : Body K F} : Unpromoted n a r r' → Unpromoted n a (.stmt s r) (.stmt s r')
  | add (i : Bool) (m : Name) (p : Option (List Name)) (sub : Body K F) {r r' : Body K F} : Unpromoted n a r r' → Unpromoted n a (.add i m p sub r) (.add i m p sub r')

/-- the method with the connection at its end -/
def Body.thenConnect (s t : Name) : Body K F → Body K F
  | .done => .stmt (.connect s t) .done
  | .stmt u r => .stmt u (r.thenConnect s t)
  | .add i n p sub r => .add i n p sub (r.thenConnect s t)

/-- `b'` is `b`, except that in the main model `a` is not promoted from the submodel `n` but connected: to `a` of the submodel, or from it. -/
def ConnectedInstead (n a : Name) (b b' : Body K F) : Prop :=
  ∃ b1, Unpromoted n a b b1 ∧ (b' = b1.thenConnect a (prependNamespace n a) ∨ b' = b1.thenConnect (prependNamespace n a) a)

end Csdl.Prog
