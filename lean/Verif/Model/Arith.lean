import Verif.Model.Tree
import Mathlib.Algebra.Field.Defs
import Mathlib.Algebra.BigOperators.Group.List.Basic
/-
Model of arithmetic on variables: csdl/lang/variable.py:83-304, csdl/lang/standard_operation.py:9-28, csdl/operations/linear_combination.py:10-25,
csdl/operations/power_combination.py:11-25.
-/
namespace Csdl.Arith
open Csdl

/-- The value of an array: its elements. -/
abbrev Val (K : Type) := List Nat → K

/-- A number or a NumPy array in an expression. -/
inductive Const (K : Type) where
  | num (c : K)
  | arr (shape : Shape) (a : Val K)

/-- the elements (a number is the same for all) -/
def Const.val {K : Type} : Const K → Val K
  | .num c => fun _ => c
  | .arr _ a => a

/-- A literal `coeffs` or `powers`: one number (or array) for all arguments, or a list. -/
inductive Lit (K : Type) where
  | one (c : Val K)
  | list (l : List (Val K))

/-- csdl/operations/linear_combination.py:36-37, csdl/operations/power_combination.py:38-39: one literal for each of `n` arguments -/
def Lit.expand {K : Type} (n : Nat) : Lit K → List (Val K)
  | .one c => List.replicate n c
  | .list l => l

/-- The operations `linear_combination` and `power_combination`. -/
inductive OpKind (K : Type) where
  | lin (constant : Val K) (coeffs : Lit K)
  | pow (coeff : Val K) (powers : Lit K)

/-- A variable: its shape and, unless it is given (an input or declared variable), the operation that computes it with the dependencies of the operation.  Simplification: an
operation and its only output are one entry. -/
structure Entry (K : Type) where
  shape : Shape
  op : Option (OpKind K × List Nat) := none

/-- All variables created so far, in the order of creation; a variable is its position. -/
abbrev Heap (K : Type) := List (Entry K)

/-- shape of a variable -/
def shapeOf {K : Type} (h : Heap K) (v : Nat) : Shape := match h[v]? with | some e => e.shape | none => []

/-- csdl/lang/variable.py:90-96 (and the end of each operator): the variable-making part of the operators: `op.outs = [Output(None, op=op, shape=op.dependencies[0].shape)]` -/
def newVar {K : Type} (h : Heap K) (k : OpKind K) (deps : List Nat) : Heap K × Nat := (h ++ [⟨shapeOf h (deps.headD 0), some (k, deps)⟩], h.length)

/-- csdl/lang/standard_operation.py:9-25: repeated arguments are replaced by copies `arg * 1`; `seen` is `unique_args` -/
def dedupArgs {K : Type} [One K] : Heap K → List Nat → List Nat → Heap K × List Nat
  | h, _, [] => (h, [])
  | h, seen, a :: as =>
    if a ∈ seen then
      let r := newVar h (.pow (fun _ => 1) (.one fun _ => 1)) [a]
      let q := dedupArgs r.1 (r.2 :: seen) as
      (q.1, r.2 :: q.2)
    else
      let q := dedupArgs h (a :: seen) as
      (q.1, a :: q.2)

/-- Exceptions: `shape` is ValueError, `zeroDiv` is ZeroDivisionError. -/
inductive AErr where
  | shape | zeroDiv
  deriving DecidableEq, Repr

/-- csdl/operations/linear_combination.py:10-20, csdl/operations/power_combination.py:11-21 and the end of each operator: create the operation and its output.  On ValueError the copies remain in csdl
(they are not reachable from anything); this is not modelled. -/
def newOp {K : Type} [One K] (h : Heap K) (k : OpKind K) (args : List Nat) : Except AErr (Heap K × Nat) :=
  let q := dedupArgs h [] args
  if q.2.all (fun d => shapeOf q.1 d = shapeOf q.1 (q.2.headD 0)) then .ok (newVar q.1 k q.2) else .error .shape

/-- One operator applied to variables (given by their positions in the list of results so far) and constants. -/
inductive Instr (K : Type) where
  | pos (x : Nat) | neg (x : Nat)
  | add (x y : Nat) | addc (x : Nat) (c : Const K)
  | sub (x y : Nat) | subc (x : Nat) (c : Const K) | rsubc (c : Const K) (x : Nat)
  | mul (x y : Nat) | mulc (x : Nat) (c : Const K)
  | div (x y : Nat) | divc (x : Nat) (c : Const K) | rdivc (c : Const K) (x : Nat)
  | powc (x : Nat) (c : Const K)

/-- csdl/lang/variable.py:188: `1 / other`; ZeroDivisionError for the number zero -/
def recip {K : Type} [Field K] [DecidableEq K] : Const K → Except AErr (Val K)
  | .num c => if c = 0 then .error .zeroDiv else .ok fun _ => 1 / c
  | .arr _ a => .ok fun i => 1 / a i

/-- csdl/lang/variable.py:83-304: the operators.  `env` gives the variables.  Simplification: `__rsub__` with a number that is neither int nor float (TypeError in csdl) is not
modelled; the coefficient of `1 / array` is that of the field also where the array is zero (infinity in NumPy). -/
def exec {K : Type} [Field K] [DecidableEq K] (h : Heap K) (env : List Nat) : Instr K → Except AErr (Heap K × Nat)
  | .pos x => .ok (h, env.getD x 0)                                                                -- 83-84
  | .neg x => newOp h (.lin (fun _ => 0) (.one fun _ => -1)) [env.getD x 0]                          -- 86-97
  | .add x y => newOp h (.lin (fun _ => 0) (.one fun _ => 1)) [env.getD x 0, env.getD y 0]            -- 99-103
  | .addc x c => newOp h (.lin c.val (.one fun _ => 1)) [env.getD x 0]                               -- 104-105, 224-225
  | .sub x y => newOp h (.lin (fun _ => 0) (.list [fun _ => 1, fun _ => -1])) [env.getD x 0, env.getD y 0]   -- 119-127
  | .subc x c => newOp h (.lin (fun i => -c.val i) (.one fun _ => 1)) [env.getD x 0]                  -- 128-129
  | .rsubc c x => newOp h (.lin c.val (.one fun _ => -1)) [env.getD x 0]                             -- 243-250
  | .mul x y => newOp h (.pow (fun _ => 1) (.one fun _ => 1)) [env.getD x 0, env.getD y 0]            -- 142-146
  | .mulc x c => newOp h (.pow c.val (.one fun _ => 1)) [env.getD x 0]                               -- 147-157, 267-268
  | .div x y => newOp h (.pow (fun _ => 1) (.list [fun _ => 1, fun _ => -1])) [env.getD x 0, env.getD y 0]   -- 171-180
  | .divc x c => do let r ← recip c; newOp h (.pow r (.one fun _ => 1)) [env.getD x 0]               -- 181-188
  | .rdivc c x => newOp h (.pow c.val (.one fun _ => -1)) [env.getD x 0]                             -- 271-293
  | .powc x c => newOp h (.pow (fun _ => 1) (.one c.val)) [env.getD x 0]                             -- 202-210

/-- a program: every result is a new variable of the environment -/
def build {K : Type} [Field K] [DecidableEq K] : Heap K → List Nat → List (Instr K) → Except AErr (Heap K × List Nat)
  | h, env, [] => .ok (h, env)
  | h, env, i :: is =>
    match exec h env i with
    | .error e => .error e
    | .ok (h, v) => build h (env ++ [v]) is

end Csdl.Arith
