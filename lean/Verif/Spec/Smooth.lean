import Verif.Spec.ValidProgram
import Mathlib.Data.Real.Basic
import Mathlib.Algebra.Module.LinearMap.Defs
/-
Specification for C118, C119: where the operators of a program are differentiable, and linear programs.
-/
namespace Csdl.Prog
open Csdl Csdl.Arith
variable {K F : Type}

/-- The operator `i`, applied to the values `ρ` of the variables of its method, is differentiable there: nothing is divided by zero, and where an operand is zero, it is raised to a power of at least 1. -/
def SmoothAt (ρ : Nat → Val ℝ) : Instr ℝ → Prop
  | .div _ y => ∀ i, ρ y i ≠ 0
  | .rdivc _ x => ∀ i, ρ x i ≠ 0
  | .powc x c => ∀ i, ρ x i ≠ 0 ∨ 1 ≤ c.val i
  | _ => True

/-- The operator `i`, applied to the values `ρ`, is continuous there: nothing is divided by zero, and where an operand is zero, it is not raised to a negative power. -/
def ContinuousThere (ρ : Nat → Val ℝ) : Instr ℝ → Prop
  | .div _ y => ∀ i, ρ y i ≠ 0
  | .rdivc _ x => ∀ i, ρ x i ≠ 0
  | .powc x c => ∀ i, ρ x i ≠ 0 ∨ 0 ≤ c.val i
  | _ => True

/-- sums, differences, and products with and quotients by constants -/
def LinearOperator : Instr K → Prop
  | .pos _ | .neg _ | .add _ _ | .sub _ _ | .mulc _ _ | .divc _ _ => True
  | _ => False

/-- the same, and sums with and differences to constants -/
def AffineOperator : Instr K → Prop
  | .addc _ _ | .subc _ _ | .rsubc _ _ => True
  | i => LinearOperator i

/-- the results of the function are linear functions of its arguments -/
def LinearFunction [Field K] (d : List (Val K) → Nat → Val K) : Prop :=
  ∀ j, (∀ l l', l.length = l'.length → d (List.zipWith (fun v w i => v i + w i) l l') j = fun i => d l j i + d l' j i) ∧ ∀ a l, d (l.map fun v i => a * v i) j = fun i => a * d l j i

/-- the results of the function are affine functions of its arguments -/
def AffineFunction [Field K] (d : List (Val K) → Nat → Val K) : Prop :=
  ∀ j a l l', l.length = l'.length → d (List.zipWith (fun v w i => a * v i + (1 - a) * w i) l l') j = fun i => a * d l j i + (1 - a) * d l' j i

/-- `f` is an affine function of `t` -/
def IsAffine {T : Type} [Field K] [AddCommGroup T] [Module K T] (f : T → K) : Prop := ∀ (a : K) t t', f (a • t + (1 - a) • t') = a * f t + (1 - a) * f t'

/-- a program whose statements are linear: the operators that matter are, the functions are, and the elements of outputs that are not assigned are zero -/
structure LinearProgram [Field K] (den : F → List (Val K) → Nat → Val K) (b : Body K F) : Prop where
  operators : ∀ path c, BAt b path c → ∀ n i, c.Has n (.expr i) → c.Live n → LinearOperator i
  functions : ∀ path c, BAt b path c → ∀ n f args outs, c.Has n (.call f args outs) → LinearFunction (den f)
  outputs : ∀ path c, BAt b path c → ∀ y name shape val, c.Has y (.output name shape val) → ∀ i, (∀ key x idx shp, c.Assigned y key x → tgtIndices shape key = .ok (idx, shp) → (ravel shape i : Int) ∉ idx) → val i = 0

/-- a program whose statements are affine -/
structure AffineProgram [Field K] (den : F → List (Val K) → Nat → Val K) (b : Body K F) : Prop where
  operators : ∀ path c, BAt b path c → ∀ n i, c.Has n (.expr i) → c.Live n → AffineOperator i
  functions : ∀ path c, BAt b path c → ∀ n f args outs, c.Has n (.call f args outs) → AffineFunction (den f)

end Csdl.Prog
