import Mathlib.Data.Rat.Defs
import Mathlib.Algebra.Field.Rat
import Mathlib.Algebra.Order.Ring.Unbundled.Rat
/-
Specification for C106: which number a decimal text stands for.
-/
namespace Csdl.FormatNumber

/-- a nonempty sequence of decimal digits -/
def IsDigits (s : List Char) : Prop := s ≠ [] ∧ ∀ c ∈ s, c.isDigit = true

/-- the number that a sequence of decimal digits stands for -/
def digitsValue (s : List Char) : Nat := s.foldl (fun n c => 10 * n + (c.toNat - '0'.toNat)) 0

/-- `12.5`: a number without a sign and without an exponent -/
inductive Plain : List Char → ℚ → Prop
  | intro {i f : List Char} : IsDigits i → IsDigits f → Plain (i ++ '.' :: f) (digitsValue i + digitsValue f / 10 ^ f.length)

/-- `12.5`, `1.25e1`, `1.25e-1`: a number without a sign -/
inductive Unsigned : List Char → ℚ → Prop
  | plain {s q} : Plain s q → Unsigned s q
  | exp {s q e} : Plain s q → IsDigits e → Unsigned (s ++ 'e' :: e) (q * 10 ^ digitsValue e)
  | negExp {s q e} : Plain s q → IsDigits e → Unsigned (s ++ 'e' :: '-' :: e) (q / 10 ^ digitsValue e)

/-- the text `s` stands for the number `q` -/
inductive Stands : List Char → ℚ → Prop
  | pos {s q} : Unsigned s q → Stands s q
  | neg {s q} : Unsigned s q → Stands ('-' :: s) (-q)

end Csdl.FormatNumber
