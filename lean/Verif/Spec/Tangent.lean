import Verif.Spec.Smooth
import Mathlib.Analysis.Calculus.Deriv.Basic
import Mathlib.Analysis.SpecialFunctions.Pow.Real
/-
Specification for C120: the derivatives of the values of a program, by the rules of calculus, statement by statement.
-/
namespace Csdl.Prog
open Csdl Csdl.Arith
variable {F : Type}

/-- the derivative of the result of an operator, from the values `v` and the derivatives `d` of the variables of its method -/
noncomputable def tangent (v d : Nat → Val ℝ) : Instr ℝ → Val ℝ
  | .pos x => d x
  | .neg x => fun i => -d x i
  | .add x y => fun i => d x i + d y i
  | .addc x _ => d x
  | .sub x y => fun i => d x i - d y i
  | .subc x _ => d x
  | .rsubc _ x => fun i => -d x i
  | .mul x y => fun i => d x i * v y i + v x i * d y i
  | .mulc x c => fun i => d x i * c.val i
  | .div x y => fun i => (d x i * v y i - v x i * d y i) / v y i ^ 2
  | .divc x c => fun i => d x i / c.val i
  | .rdivc c x => fun i => -(c.val i * d x i) / v x i ^ 2
  | .powc x c => fun i => d x i * c.val i * v x i ^ (c.val i - 1)

/-- `dd l l' j` is the derivative of the result `j` of the function `d` along every curve of arguments that passes through `l` with the derivative `l'` -/
def TangentAt (d : List (Val ℝ) → Nat → Val ℝ) (dd : List (Val ℝ) → List (Val ℝ) → Nat → Val ℝ) (l : List (Val ℝ)) : Prop :=
  ∀ (γ : ℝ → List (Val ℝ)) (t0 : ℝ) (l' : List (Val ℝ)), γ t0 = l → l'.length = l.length → (∀ t, (γ t).length = l.length) →
    (∀ m k, HasDerivAt (fun t => (γ t).getD m (fun _ => 0) k) (l'.getD m (fun _ => 0) k) t0) → ∀ j k, HasDerivAt (fun t => d (γ t) j k) (dd l l' j k) t0

/-- `d` are derivatives of the values `v` of the variables of a program by the rules of calculus: of sums, products, quotients and powers, of functions, whose derivatives are `dd`; the derivative of a part is the part of the derivative; an output is assembled from the derivatives
of its parts, and is zero where nothing is assigned; variables that are the same (by names, connections or as aliases) have the same derivative. -/
structure Tangents (dd : F → List (Val ℝ) → List (Val ℝ) → Nat → Val ℝ) (b : Body ℝ F) (v d : List Name → Nat → Val ℝ) : Prop where
  expr : ∀ path c, BAt b path c → ∀ n i, c.Has n (.expr i) → c.Live n → d path n = tangent (v path) (d path) i
  call : ∀ path c, BAt b path c → ∀ n f args outs, c.Has n (.call f args outs) → ∀ j < outs.length, c.Live (n + j) → d path (n + j) = dd f (args.map (v path)) (args.map (d path)) j
  index : ∀ path c, BAt b path c → ∀ n x key, c.Has n (.index x key) → c.Live n → d path n = part (c.shapes.getD x []) key (d path x)
  output : ∀ path c, BAt b path c → ∀ y name shape val, c.Has y (.output name shape val) → c.Live y →
    (∀ key x idx shp, c.Assigned y key x → tgtIndices shape key = .ok (idx, shp) → ∀ i j : _, idx[j]? = some (ravel shape i : Int) → d path y i = d path x (unravel shp j)) ∧
    ∀ i, (∀ key x idx shp, c.Assigned y key x → tgtIndices shape key = .ok (idx, shp) → (ravel shape i : Int) ∉ idx) → d path y i = 0
  same : ∀ path c x path' c' x', BAt b path c → c.Live x → BAt b path' c' → c'.Live x' → Relation.EqvGen (Same b) (path, x) (path', x') → d path x = d path' x'

end Csdl.Prog
