import Verif.Spec.Program
import Mathlib.Algebra.Field.Basic
import Mathlib.Algebra.Ring.Hom.Defs
/-
Specification for C117: the same program with the numbers of another field.
-/
namespace Csdl.Prog
open Csdl Csdl.Arith
variable {K L F : Type} [Field K] [Field L]

/-- an array, every element mapped -/
def alongVal (φ : K →+* L) (v : Val K) : Val L := fun i => φ (v i)

/-- a constant, mapped -/
def alongConst (φ : K →+* L) : Const K → Const L
  | .num c => .num (φ c)
  | .arr s a => .arr s (alongVal φ a)

/-- an operator, its constant mapped -/
def alongInstr (φ : K →+* L) : Instr K → Instr L
  | .pos x => .pos x
  | .neg x => .neg x
  | .add x y => .add x y
  | .addc x c => .addc x (alongConst φ c)
  | .sub x y => .sub x y
  | .subc x c => .subc x (alongConst φ c)
  | .rsubc c x => .rsubc (alongConst φ c) x
  | .mul x y => .mul x y
  | .mulc x c => .mulc x (alongConst φ c)
  | .div x y => .div x y
  | .divc x c => .divc x (alongConst φ c)
  | .rdivc c x => .rdivc (alongConst φ c) x
  | .powc x c => .powc x (alongConst φ c)

/-- a statement, all its numbers mapped -/
def alongStmt (φ : K →+* L) : Stmt K F → Stmt L F
  | .input name shape val => .input name shape (alongVal φ val)
  | .declare name shape val => .declare name shape (val.map (alongVal φ))
  | .expr i => .expr (alongInstr φ i)
  | .call f args outs => .call f args outs
  | .index x key => .index x key
  | .output name shape val => .output name shape (alongVal φ val)
  | .assign y key x => .assign y key x
  | .register name x => .register name x
  | .connect a b => .connect a b

/-- the same program, all numbers mapped: e.g. the program with complex numbers, for a program with real numbers -/
def along (φ : K →+* L) : Body K F → Body L F
  | .done => .done
  | .stmt s rest => .stmt (alongStmt φ s) (along φ rest)
  | .add inline name promotes sub rest => .add inline name promotes (along φ sub) (along φ rest)

/-- `c` is an element of the constant `k` of a statement `x ** k` -/
def exponentOf (c : K) : Stmt K F → Prop
  | .expr (.powc _ k) => ∃ i, k.val i = c
  | _ => False

/-- `c` is an exponent in the program -/
def Exponent (c : K) : Body K F → Prop
  | .done => False
  | .stmt s rest => exponentOf c s ∨ Exponent c rest
  | .add _ _ _ sub rest => Exponent c sub ∨ Exponent c rest

/-- The powers with the exponents of the program and the functions of the field `L` extend those of the field `K`: on mapped arguments they have the mapped results. -/
def Extends (φ : K →+* L) (b : Body K F) (P : Power K) (Q : Power L) (den : F → List (Val K) → Nat → Val K) (den' : F → List (Val L) → Nat → Val L) : Prop :=
  (∀ a c, Exponent c b → Q.pow (φ a) (φ c) = φ (P.pow a c)) ∧ ∀ f args j, den' f (args.map (alongVal φ)) j = alongVal φ (den f args j)

end Csdl.Prog
