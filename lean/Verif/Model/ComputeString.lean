import Verif.Model.Names
import Mathlib.Algebra.Order.Field.Basic
/-
Model of the generated text of elementwise operations: csdl/operations/linear_combination.py:26-70, csdl/operations/power_combination.py:26-41.
Texts are lists of tokens; a token is what one `format` field or literal piece of the format string prints.
-/
namespace Csdl.CString
open Csdl

/-- Pieces of a text.  `num c` is the decimal text of a number (it begins with a minus sign if the number is negative). -/
inductive Tok (K : Type) where
  | name (n : Name)
  | num (c : K)
  | eq | star | plus | minus | pow
  deriving DecidableEq, Repr

/-- A literal `coeffs` or `powers`: a number or a list of numbers.  Simplification: NumPy arrays (whose text is not an expression) are left out. -/
inductive Lit (K : Type) where
  | one (c : K)
  | list (l : List K)

/-- csdl/operations/linear_combination.py:34-35, csdl/operations/power_combination.py:34-35 -/
def Lit.expand {K : Type} (n : Nat) : Lit K → List K
  | .one c => List.replicate n c
  | .list l => l

section
variable {K : Type} [Field K] [LinearOrder K]

/-- csdl/operations/linear_combination.py:41-61: the loop over `zip(coeffs, args)`; `z` is `np.all(constant == 0)` -/
def linLoop (z : Bool) : Bool → List (K × Name) → List (Tok K)
  | _, [] => []
  | first, (c, x) :: r =>
    if c > 1 then
      if first && z then .num c :: .star :: .name x :: linLoop z false r
      else .plus :: .num c :: .star :: .name x :: linLoop z first r
    else if c > 0 then
      if first && z then .name x :: linLoop z false r
      else .plus :: .name x :: linLoop z first r
    else if c < -1 then .num c :: .star :: .name x :: linLoop z first r
    else if c < 0 then .minus :: .name x :: linLoop z first r
    else linLoop z first r

/-- csdl/operations/linear_combination.py:26-61: `define_compute_strings` -/
def linString (out : Name) (constant : K) (coeffs : Lit K) (args : List Name) : List (Tok K) :=
  .name out :: .eq :: ((if constant = 0 then [] else [.num constant]) ++ linLoop (decide (constant = 0)) true ((coeffs.expand args.length).zip args))

/-- csdl/operations/power_combination.py:37-41: the loop over `zip(args, powers)` -/
def powLoop (coeff : K) : List (Tok K) → List (Name × K) → List (Tok K)
  | s, [] => s
  | s, (x, p) :: r => if ¬(coeff = 0) then powLoop coeff (s ++ [.star, .name x, .pow, .num p]) r else powLoop coeff [.num 0] r

/-- csdl/operations/power_combination.py:26-41: `define_compute_strings` -/
def powString (out : Name) (coeff : K) (powers : Lit K) (args : List Name) : List (Tok K) :=
  powLoop coeff [.name out, .eq, .num coeff] (args.zip (powers.expand args.length))

end
end Csdl.CString
