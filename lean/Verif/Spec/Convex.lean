import Verif.Spec.ValidProgram
import Mathlib.Analysis.Convex.Function
import Mathlib.Data.Real.Basic
/-
Specification for C123: programs built by the rules of convex programming.
-/
namespace Csdl.Prog
open Csdl Csdl.Arith
variable {F T : Type} [AddCommGroup T] [Module ℝ T]

inductive Curvature
  | affine
  | convex
  | concave
deriving DecidableEq

/-- the curvature of `-f` -/
def Curvature.neg : Curvature → Curvature
  | .affine => .affine
  | .convex => .concave
  | .concave => .convex

/-- `f` has the curvature on the set `S` -/
def HasCurvature (S : Set T) (f : T → ℝ) : Curvature → Prop
  | .affine => ConvexOn ℝ S f ∧ ConcaveOn ℝ S f
  | .convex => ConvexOn ℝ S f
  | .concave => ConcaveOn ℝ S f

/-- everything of curvature `a` has the curvature `r` -/
def Curvature.Fits (a r : Curvature) : Prop := a = .affine ∨ a = r

/-- the result of the operator has the curvature `r` if the variables of the method have the curvatures `κ`, by the rules of convex programming -/
def CurvatureOk (κ : Nat → Curvature) (r : Curvature) : Instr ℝ → Prop
  | .pos x | .addc x _ | .subc x _ => r = κ x
  | .neg x | .rsubc _ x => r = (κ x).neg
  | .add x y => (κ x).Fits r ∧ (κ y).Fits r
  | .sub x y => (κ x).Fits r ∧ (κ y).neg.Fits r
  | .mulc x c | .divc x c => (∀ i, 0 ≤ c.val i) ∧ r = κ x ∨ (∀ i, c.val i ≤ 0) ∧ r = (κ x).neg ∨ κ x = .affine ∧ r = .affine
  | .powc x c => κ x = .affine ∧ r = .convex ∧ ∀ i, c.val i = 2
  | _ => False

/-- a program that follows the rules of convex programming on the set `S` of parameters; `κ` are the curvatures of its variables -/
structure ConvexProgram (S : Set T) (den : F → List (Val ℝ) → Nat → Val ℝ) (b : Body ℝ F) (κ : List Name → Nat → Curvature) : Prop where
  same : ∀ path x path' x', Same b (path, x) (path', x') → κ path x = κ path' x'
  operators : ∀ path c, BAt b path c → ∀ n i, c.Has n (.expr i) → c.Live n → CurvatureOk (κ path) (κ path n) i
  functions : ∀ path c, BAt b path c → ∀ n f args outs, c.Has n (.call f args outs) → ∀ j < outs.length, ∀ v : T → Nat → Val ℝ, (∀ x ∈ args, ∀ k, HasCurvature S (fun t => v t x k) (κ path x)) →
    ∀ k, HasCurvature S (fun t => den f (args.map (v t)) j k) (κ path (n + j))
  parts : ∀ path c, BAt b path c → ∀ n x key, c.Has n (.index x key) → c.Live n → κ path n = κ path x
  assigned : ∀ path c, BAt b path c → ∀ y key x, c.Assigned y key x → κ path y = κ path x

end Csdl.Prog
