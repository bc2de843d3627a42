import Verif.Model.Bracket
/-
Specification for C67-C69.
-/
namespace Csdl

/-- The end `a` of a bracket is stored as `x`: variables and arrays as they are, numbers as arrays of shape `()`. -/
def StoredAs (a x : BVal) : Prop := (∃ t, a = .number t ∧ x = .array t []) ∨ ((∀ t, a ≠ .number t) ∧ x = a)

/-- Shape of an end of a bracket: numbers have shape `()`. -/
inductive HasShape : BVal → Shape → Prop where
  | number (t : Nat) : HasShape (.number t) []
  | array (t : Nat) (s : Shape) : HasShape (.array t s) s
  | var (i : Nat) (s : Shape) : HasShape (.var i s) s

/-- The call of `declare_state` gave a proper bracket `(a, b)`: two ends of equal shape. -/
def GivenBracket (c : DeclState) (a b : BVal) : Prop := c.bracket = some [a, b] ∧ ∃ s, HasShape a s ∧ HasShape b s

/-- The same call of `declare_state`, without the bracket -/
def DeclState.plain (c : DeclState) : Name × Name × StateVal := (c.state, c.residual, c.val)

end Csdl
