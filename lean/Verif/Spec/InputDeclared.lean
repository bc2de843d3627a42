import Verif.Spec.Join
/-
Specification for C113: declaring a variable that was an input.
-/
namespace Csdl.Prog
open Csdl
variable {K F : Type}

/-- `s'` is `s`; or `s` creates an input, and `s'` declares a variable with the same name and shape (with or without a default value) instead. -/
def Stmt.MayDeclare (s s' : Stmt K F) : Prop := s' = s ∨ ∃ name shape val dflt, s = .input name shape val ∧ s' = .declare name shape dflt

/-- The two methods have the same statements in the same order, apart from connections (and submodels) and apart from inputs of the first that the second declares. -/
def DeclaresInputs (c c' : Body K F) : Prop :=
  List.Forall₂ (fun s s' => s.1 = s'.1 ∧ Stmt.MayDeclare s.2 s'.2) ((c.stmts 0).filter fun s => s.2.notConnect) ((c'.stmts 0).filter fun s => s.2.notConnect)

/-- The two programs have models at the same paths, with the same statements, except that the second declares some variables that are inputs in the first. -/
def DeclaringMethods (b b' : Body K F) : Prop := (∀ path c, BAt b path c → ∃ c', BAt b' path c' ∧ DeclaresInputs c c') ∧ ∀ path c', BAt b' path c' → ∃ c, BAt b path c ∧ DeclaresInputs c c'

/-- `b'` is `b` in which some variables that were inputs are declared instead, in any of the models; everything else, submodels, promotions and connections included, is the same. -/
inductive InputsDeclared : Body K F → Body K F → Prop
  | done : InputsDeclared .done .done
  | stmt {s s' : Stmt K F} {r r' : Body K F} : s.MayDeclare s' → InputsDeclared r r' → InputsDeclared (.stmt s r) (.stmt s' r')
  | add (i : Bool) (n : Name) (p : Option (List Name)) {sub sub' r r' : Body K F} : InputsDeclared sub sub' → InputsDeclared r r' → InputsDeclared (.add i n p sub r) (.add i n p sub' r')

/-- Variables that matter in `b'` are the same variables in `b'` exactly if they are in `b`. -/
def SameJoinsOfLive (b b' : Body K F) : Prop :=
  ∀ u v, (∃ c, BAt b' u.1 c ∧ c.Live u.2) → (∃ c, BAt b' v.1 c ∧ c.Live v.2) → (Relation.EqvGen (Same b) u v ↔ Relation.EqvGen (Same b') u v)

end Csdl.Prog
