import Verif.Spec.ValidProgram
import Mathlib.Analysis.SpecialFunctions.Pow.Real
/-
Specification for C122: consistent units.
-/
namespace Csdl.Prog
open Csdl Csdl.Arith
variable {F : Type}

/-- `s x` is the conversion factor of the unit of the variable `x` of a method (e.g. 1000 for a length in millimetres instead of metres, 1000² for an area), `r` that of the result of the operator: only variables of the same unit are added, constants that are added are without units, units are multiplied and
divided as the variables are. -/
def UnitsOk (s : Nat → ℝ) (r : ℝ) : Instr ℝ → Prop
  | .pos x | .neg x => r = s x
  | .add x y | .sub x y => r = s x ∧ r = s y
  | .addc x _ | .subc x _ | .rsubc _ x => r = 1 ∧ s x = 1
  | .mul x y => r = s x * s y
  | .mulc x _ | .divc x _ => r = s x
  | .div x y => r = s x / s y
  | .rdivc _ x => r = (s x)⁻¹
  | .powc x c => ∀ i, r = s x ^ c.val i

/-- the factors `s` (of the units of the variables of all models) are consistent with the program: variables that are the same have the same unit, operators respect units, and so do functions; parts have the unit of the variable, and what is assigned to a part of an output has the unit of the output; elements
to which nothing is assigned are zero or the output is without unit -/
structure ConsistentUnits (den : F → List (Val ℝ) → Nat → Val ℝ) (b : Body ℝ F) (s : List Name → Nat → ℝ) : Prop where
  positive : ∀ path x, 0 < s path x
  same : ∀ path x path' x', Same b (path, x) (path', x') → s path x = s path' x'
  operators : ∀ path c, BAt b path c → ∀ n i, c.Has n (.expr i) → c.Live n → UnitsOk (s path) (s path n) i
  functions : ∀ path c, BAt b path c → ∀ n f args outs, c.Has n (.call f args outs) → ∀ l : List (Val ℝ), l.length = args.length → ∀ j < outs.length,
    den f (List.zipWith (fun x v i => s path x * v i) args l) j = fun i => s path (n + j) * den f l j i
  parts : ∀ path c, BAt b path c → ∀ n x key, c.Has n (.index x key) → c.Live n → s path n = s path x
  assigned : ∀ path c, BAt b path c → ∀ y key x, c.Assigned y key x → s path y = s path x
  outputs : ∀ path c, BAt b path c → ∀ y name shape val, c.Has y (.output name shape val) → ∀ i, (∀ key x idx shp, c.Assigned y key x → tgtIndices shape key = .ok (idx, shp) → (ravel shape i : Int) ∉ idx) → val i = 0 ∨ s path y = 1

end Csdl.Prog
