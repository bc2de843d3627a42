import Verif.Model.Axes
/-
Specification for C43, C44, C45, C56, C57, C58.
-/
namespace Csdl.Axes
open Csdl

/-- Labels: no spaces and none of the characters of the arrow or the comma. -/
def Labels (s : List Char) : Prop := ∀ c ∈ s, c ≠ ' ' ∧ c ≠ '-' ∧ c ≠ '>' ∧ c ≠ ','

/-- `ins -> outs` -/
def arrow (ins outs : List Char) : List Char := ins ++ ['-', '>'] ++ outs

/-- The axes that remain when those whose label does not occur among the input labels are deleted. -/
def keep (ins : List Char) : List Char → Shape → Shape
  | c :: o, n :: s => if c ∈ ins then n :: keep ins o s else keep ins o s
  | [], s => s
  | _, [] => []

/-- The letter of axis `i`: `a`, `b`, … -/
def letter (i : Nat) : Char := alphabet10.getD i ' '

/-- `a,b,c` -/
def commas : List (List Char) → List Char
  | [] => []
  | [r] => r
  | r :: rs => r ++ ',' :: commas rs

/-- The operands agree on the size of every label. -/
def Consistent (size : Char → Nat) (reps : List (List Char)) (shapes : List Shape) : Prop := shapes = reps.map (·.map size)

/-- The different elements of a list, in order. -/
def distinct {α : Type} [DecidableEq α] (l : List α) : List α := l.foldl (fun ks a => if a ∈ ks then ks else ks ++ [a]) []

end Csdl.Axes
