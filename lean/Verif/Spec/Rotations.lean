import Verif.Spec.Elementwise
import Mathlib.LinearAlgebra.UnitaryGroup
/-
Specification for C79: rotations by a body 3-1-3 sequence.
-/
namespace Csdl.Elem
open Csdl Csdl.Arith Csdl.Prog

/-- The coordinates, in a frame that is rotated by the angle `t` about its axis 3, of a vector given in the original frame. -/
noncomputable def axis3 (t : ℝ) : Matrix (Fin 3) (Fin 3) ℝ := !![Real.cos t, Real.sin t, 0; -Real.sin t, Real.cos t, 0; 0, 0, 1]

/-- The same for a rotation about axis 1. -/
noncomputable def axis1 (t : ℝ) : Matrix (Fin 3) (Fin 3) ℝ := !![1, 0, 0; 0, Real.cos t, Real.sin t; 0, -Real.sin t, Real.cos t]

/-- The statements, numbered by the variables created before each, if the next variable has number `n`. -/
def numbered {K : Type} : Nat → List (Stmt K Fn) → List (Nat × Stmt K Fn)
  | _, [] => []
  | n, s :: l => (n, s) :: numbered (n + s.count) l

/-- The statements are, one after the other, statements of the method, and the first one is preceded by statements that create `n` variables. -/
def Executes {K : Type} (b : Body K Fn) (n : Nat) (l : List (Stmt K Fn)) : Prop := ∃ pre post, b.stmts 0 = pre ++ numbered n l ++ post

end Csdl.Elem
