import Verif.Model.Arith
/-
Specification for C41, C42: the meaning of the operations, the evaluation of the graph, and the meaning of arithmetic programs.
-/
namespace Csdl.Arith
open Csdl
variable {K : Type} [Field K]

/-- The power function of the numbers.  Only two laws are used; at `x = 0` the second is the convention of the field, where
floating point gives infinity. -/
structure Power (K : Type) [Field K] where
  pow : K → K → K
  one : ∀ x, pow x 1 = x
  neg_one : ∀ x, pow x (-1) = x⁻¹

/-- `linear_combination`: the constant plus the sum of coefficient times argument.  `power_combination`: the coefficient times the product of the powers of the arguments.  Element by element. -/
def OpKind.eval (P : Power K) (args : List (Val K)) : OpKind K → Val K
  | .lin c cs => fun i => c i + (List.zipWith (fun a x => a i * x i) (cs.expand args.length) args).sum
  | .pow c ps => fun i => c i * (List.zipWith (fun p x => P.pow (x i) (p i)) (ps.expand args.length) args).prod

/-- The value of one variable, given the values of the variables created before and of the given variables. -/
def Entry.eval (P : Power K) (given : Nat → Val K) (vals : List (Val K)) (e : Entry K) : Val K :=
  match e.op with
  | none => given vals.length
  | some (k, deps) => k.eval P (deps.map fun d => vals.getD d fun _ => 0)

/-- The values of all variables, operation by operation in the order of creation. -/
def evalHeap (P : Power K) (given : Nat → Val K) (h : Heap K) : List (Val K) := h.foldl (fun vals e => vals ++ [e.eval P given vals]) []

/-- The value of variable `v`. -/
def value (P : Power K) (given : Nat → Val K) (h : Heap K) (v : Nat) : Val K := (evalHeap P given h).getD v fun _ => 0

/-- The meaning of one operator: arithmetic on the elements. -/
def Instr.meaning (P : Power K) (vals : List (Val K)) : Instr K → Val K
  | .pos x => fun i => vals.getD x (fun _ => 0) i
  | .neg x => fun i => -vals.getD x (fun _ => 0) i
  | .add x y => fun i => vals.getD x (fun _ => 0) i + vals.getD y (fun _ => 0) i
  | .addc x c => fun i => vals.getD x (fun _ => 0) i + c.val i
  | .sub x y => fun i => vals.getD x (fun _ => 0) i - vals.getD y (fun _ => 0) i
  | .subc x c => fun i => vals.getD x (fun _ => 0) i - c.val i
  | .rsubc c x => fun i => c.val i - vals.getD x (fun _ => 0) i
  | .mul x y => fun i => vals.getD x (fun _ => 0) i * vals.getD y (fun _ => 0) i
  | .mulc x c => fun i => vals.getD x (fun _ => 0) i * c.val i
  | .div x y => fun i => vals.getD x (fun _ => 0) i / vals.getD y (fun _ => 0) i
  | .divc x c => fun i => vals.getD x (fun _ => 0) i / c.val i
  | .rdivc c x => fun i => c.val i / vals.getD x (fun _ => 0) i
  | .powc x c => fun i => P.pow (vals.getD x (fun _ => 0) i) (c.val i)

/-- The meaning of a program. -/
def meaning (P : Power K) (vals : List (Val K)) (is : List (Instr K)) : List (Val K) := is.foldl (fun vals i => vals ++ [i.meaning P vals]) vals

/-- The first variable operand of an operator. -/
def Instr.first : Instr K → Nat
  | .pos x | .neg x | .add x _ | .addc x _ | .sub x _ | .subc x _ | .rsubc _ x | .mul x _ | .mulc x _ | .div x _ | .divc x _ | .rdivc _ x | .powc x _ => x

/-- The other variable operands. -/
def Instr.others : Instr K → List Nat
  | .add _ y | .sub _ y | .mul _ y | .div _ y => [y]
  | _ => []

/-- Every operand is one of the first `n` variables; each result is one more. -/
def Scoped : Nat → List (Instr K) → Prop
  | _, [] => True
  | n, i :: is => i.first < n ∧ (∀ y ∈ i.others, y < n) ∧ Scoped (n + 1) is

/-- The shape of every result: that of the first variable operand. -/
def shapes (ss : List Shape) (is : List (Instr K)) : List Shape := is.foldl (fun ss i => ss ++ [ss.getD i.first []]) ss

/-- Division by the number zero. -/
def Instr.DivZero : Instr K → Prop
  | .divc _ (.num c) => c = 0
  | _ => False

/-- All variable operands of every operator have the same shape, and no operator divides by the number zero. -/
def Accepts : List Shape → List (Instr K) → Prop
  | _, [] => True
  | ss, i :: is => (∀ y ∈ i.others, ss.getD y [] = ss.getD i.first []) ∧ ¬i.DivZero ∧ Accepts (ss ++ [ss.getD i.first []]) is

/-- NumPy's broadcast of two axis sizes. -/
def bcastAxis (m n : Nat) : Option Nat := if m = n then some m else if m = 1 then some n else if n = 1 then some m else none

/-- NumPy's broadcast of two shapes given from the last axis to the first. -/
def bcastRev : Shape → Shape → Option Shape
  | [], t => some t
  | s, [] => some s
  | m :: s, n :: t => (bcastAxis m n).bind fun k => (bcastRev s t).map (k :: ·)

/-- NumPy's broadcast of two shapes; `none` if they cannot be combined. -/
def bcast (s t : Shape) : Option Shape := (bcastRev s.reverse t.reverse).map List.reverse

/-- The constant operand of an operator. -/
def Instr.const : Instr K → Option (Const K)
  | .addc _ c | .subc _ c | .rsubc c _ | .mulc _ c | .divc _ c | .rdivc c _ | .powc _ c => some c
  | _ => none

end Csdl.Arith
