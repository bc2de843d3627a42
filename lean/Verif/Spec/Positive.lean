import Verif.Spec.Smooth
/-
Specification for C121: programs whose operators keep numbers positive.
-/
namespace Csdl.Prog
open Csdl Csdl.Arith
variable {F : Type}

/-- sums, products and quotients, of variables and with positive constants, and powers -/
def PositiveOperator : Instr ℝ → Prop
  | .pos _ | .add _ _ | .mul _ _ | .div _ _ | .powc _ _ => True
  | .addc _ c | .mulc _ c | .divc _ c | .rdivc c _ => ∀ i, 0 < c.val i
  | _ => False

/-- all elements are positive -/
def Positive (v : Val ℝ) : Prop := ∀ i, 0 < v i

/-- a program whose operators that matter keep numbers positive, and so do its functions; the elements of outputs that are not assigned are positive -/
structure PositiveProgram (den : F → List (Val ℝ) → Nat → Val ℝ) (b : Body ℝ F) : Prop where
  operators : ∀ path c, BAt b path c → ∀ n i, c.Has n (.expr i) → c.Live n → PositiveOperator i
  functions : ∀ path c, BAt b path c → ∀ n f args outs, c.Has n (.call f args outs) → ∀ l : List (Val ℝ), (∀ v ∈ l, Positive v) → ∀ j, Positive (den f l j)
  outputs : ∀ path c, BAt b path c → ∀ y name shape val, c.Has y (.output name shape val) → ∀ i, (∀ key x idx shp, c.Assigned y key x → tgtIndices shape key = .ok (idx, shp) → (ravel shape i : Int) ∉ idx) → 0 < val i

end Csdl.Prog
