import Verif.Model.Elementwise
/-
Model of csdl/std/rotations/body/body_313.py.
-/
namespace Csdl.Elem
open Csdl Csdl.Arith Csdl.Prog

/-- The expressions that occur in csdl/std/rotations/body/body_313.py:26-34; variables are numbers. -/
inductive Ex where
  | sin (x : Nat) | cos (x : Nat) | neg (a : Ex) | add (a b : Ex) | sub (a b : Ex) | mul (a b : Ex)

/-- The statements that evaluating an expression executes, operands from left to right, if the next variable has number `n`; each creates one variable, the last one is the value.  `sh x` is the shape of the
variable `x`, which is that of `sin(x)`, `cos(x)` (csdl/std/sin.py:6-17). -/
def Ex.stmts {K : Type} (sh : Nat → Shape) (n : Nat) : Ex → List (Stmt K Fn)
  | .sin x => [apply .sin (sh x) x]
  | .cos x => [apply .cos (sh x) x]
  | .neg a => a.stmts sh n ++ [.expr (.neg (n + (a.stmts (K := K) sh n).length - 1))]
  | .add a b => a.stmts sh n ++ b.stmts sh (n + (a.stmts (K := K) sh n).length) ++
      [.expr (.add (n + (a.stmts (K := K) sh n).length - 1) (n + (a.stmts (K := K) sh n).length + (b.stmts (K := K) sh (n + (a.stmts (K := K) sh n).length)).length - 1))]
  | .sub a b => a.stmts sh n ++ b.stmts sh (n + (a.stmts (K := K) sh n).length) ++
      [.expr (.sub (n + (a.stmts (K := K) sh n).length - 1) (n + (a.stmts (K := K) sh n).length + (b.stmts (K := K) sh (n + (a.stmts (K := K) sh n).length)).length - 1))]
  | .mul a b => a.stmts sh n ++ b.stmts sh (n + (a.stmts (K := K) sh n).length) ++
      [.expr (.mul (n + (a.stmts (K := K) sh n).length - 1) (n + (a.stmts (K := K) sh n).length + (b.stmts (K := K) sh (n + (a.stmts (K := K) sh n).length)).length - 1))]

/-- csdl/std/rotations/body/body_313.py:26-34: the nine assignments `R[i, j] = …` in order.  (`check_axes`, lines 8-9, is not called and has no effect; `axes` is not used.) -/
def entries313 (p q r : Nat) : List ((Nat × Nat) × Ex) :=
  [((0, 0), .sub (.mul (.cos p) (.cos r)) (.mul (.mul (.sin p) (.cos q)) (.sin r))),
   ((0, 1), .add (.mul (.cos p) (.sin r)) (.mul (.mul (.sin p) (.cos q)) (.cos r))),
   ((0, 2), .mul (.sin p) (.sin q)),
   ((1, 0), .sub (.mul (.neg (.sin p)) (.cos r)) (.mul (.mul (.cos p) (.cos q)) (.sin r))),
   ((1, 1), .add (.mul (.neg (.sin p)) (.sin r)) (.mul (.mul (.cos p) (.cos q)) (.cos r))),
   ((1, 2), .mul (.cos p) (.sin q)),
   ((2, 0), .mul (.sin q) (.sin r)),
   ((2, 1), .mul (.neg (.sin q)) (.cos r)),
   ((2, 2), .cos q)]

/-- Assignments `R[i, j] = …`, each after evaluating its right-hand side. -/
def fill {K : Type} (sh : Nat → Shape) (R : Nat) : Nat → List ((Nat × Nat) × Ex) → List (Stmt K Fn)
  | _, [] => []
  | n, (ij, e) :: rest => e.stmts sh n ++ .assign R (.tuple [.int ij.1, .int ij.2]) (n + (e.stmts (K := K) sh n).length - 1) :: fill sh R (n + (e.stmts (K := K) sh n).length) rest

/-- csdl/std/rotations/body/body_313.py:12-34: what `body_313(R, p, q, r)` executes. -/
def body313 {K : Type} (sh : Nat → Shape) (n R p q r : Nat) : List (Stmt K Fn) := fill sh R n (entries313 p q r)

end Csdl.Elem
