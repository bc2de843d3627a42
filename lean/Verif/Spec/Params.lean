import Verif.Model.Params
/-
Specification for C39, C40.
-/
namespace Csdl.Params
open Csdl
variable {V T : Type}

/-- The value `v` is of one of the types. -/
def OfTypes (py : Py V T) (v : V) : Types T → Prop
  | .one t => if py.isBool t = true then py.eq v (py.ofBool true) = true ∨ py.eq v (py.ofBool false) = true else py.isInst v t = true
  | .tuple l => ∃ t ∈ l, py.isInst v t = true
  | .list _ => False

/-- The value `v` satisfies the declaration: it is None and None is allowed, or it is one of the values, of one of the types, not above `upper` and not below `lower`; and the user's check accepts it.
(`types=bool` means equal to True or False; a list of types is not supported by `isinstance`.) -/
def Valid (py : Py V T) (d : Decl V T) (v : V) : Prop :=
  ((py.isNone v = true ∧ (d.allowNone = true ∨ ∃ w, d.default = some w ∧ py.isNone w = true)) ∨
    ((∀ l, d.values = some l → ∃ w ∈ l, py.eq v w = true) ∧ (∀ t, d.types = some t → OfTypes py v t) ∧
      (∀ u, d.upper = some u → py.gt v u = some false) ∧ (∀ l, d.lower = some l → py.lt v l = some false))) ∧
  ∀ c, d.check = some c → c v = true

/-- The value an option should have, given the calls made and whether they succeeded, newest first: `none`: not declared; `some none`: declared, no value. -/
def current (name : Name) : List (PCall V T × Bool) → Option (Option V)
  | [] => none
  | (.set n v, true) :: h => if n = name then some (some v) else current name h
  | (.declare n d, true) :: h => if n = name then some d.default else current name h
  | (.undeclare n, true) :: h => if n = name then none else current name h
  | (_, false) :: h => current name h

/-- The declaration in force, in the same way. -/
def inForce (name : Name) : List (PCall V T × Bool) → Option (Decl V T)
  | [] => none
  | (.declare n d, true) :: h => if n = name then some d else inForce name h
  | (.undeclare n, true) :: h => if n = name then none else inForce name h
  | _ :: h => inForce name h

/-- Every declaration in the history succeeded. -/
def DeclsOk (h : List (PCall V T × Bool)) : Prop := ∀ n d, (.declare n d, false) ∉ h

/-- The declared options, in the order of their declarations (an option declared again keeps its place, unless it was removed). -/
def order : List (PCall V T × Bool) → List Name
  | [] => []
  | (.declare n _, true) :: h => if n ∈ order h then order h else order h ++ [n]
  | (.undeclare n, true) :: h => (order h).filter (· ≠ n)
  | _ :: h => order h

/-- The option is declared, and its declaration in force allows it to be saved. -/
def mayBeSaved (h : List (PCall V T × Bool)) (name : Name) : Bool := (inForce name h).any (·.recordable)

end Csdl.Params
