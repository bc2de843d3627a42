import Verif.Model.CustomOp
/-
Specification for C37, C38, C54.
-/
namespace Csdl.Custom
open Csdl

/-- The names an argument of `declare_derivatives` stands for: '*', alone or in a list, stands for all outputs (or inputs). -/
def denotes (all : List Name) : Names → List Name
  | .str s => if s = "*".toList then all else [s]
  | .list l => if "*".toList ∈ l then all else l

/-- all pairs, in order -/
def pairs (as bs : List Name) : List (Name × Name) := as.flatMap fun a => bs.map fun b => (a, b)

end Csdl.Custom
