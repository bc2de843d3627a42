import Verif.Spec.ValidProgram
import Verif.Spec.Indexing
/-
Specification for C114: which elements of arrays are read.
-/
namespace Csdl.Prog
open Csdl Csdl.Arith
variable {K F : Type}

/-- Two arrays of this shape have the same elements (nothing is said about indices outside of the shape). -/
def AgreeInside (shape : Shape) (v w : Val K) : Prop := ∀ i, ValidIdx shape i → v i = w i

/-- Variables that are joined by names and connections have the same shape, not only the same number of elements. -/
def JoinedShapesEqual (b : Body K F) : Prop := ∀ q r, Same b q r → ∀ c c', BAt b q.1 c → BAt b r.1 c' → c.shapes.getD q.2 [] = c'.shapes.getD r.2 []

/-- With the meanings `den` and `den'` of the functions, the calls in the program have results with the same elements whenever their arguments have: no function reads outside of its arguments, and on the elements of arrays the meanings
agree. -/
def CallsInside (b : Body K F) (den den' : F → List (Val K) → Nat → Val K) : Prop :=
  ∀ path c n f args outs, BAt b path c → c.Has n (.call f args outs) → ∀ v w : Nat → Val K, (∀ a ∈ args, AgreeInside (c.shapes.getD a []) (v a) (w a)) → ∀ j < outs.length, AgreeInside (outs.getD j []) (den f (args.map v) j) (den' f (args.map w) j)

end Csdl.Prog
