import Verif.Model.Program
/-
Model of the elementwise functions: csdl/std/{sin,cos,…}.py with csdl/operations/{sin,cos,…}.py, the inverse hyperbolic functions csdl/std/{arsinh,arcosh,artanh,arcoth,arsech,arcsch}.py, which are
written with operators and `log`, and csdl/std/exp_a.py, csdl/std/bessel.py.
-/
namespace Csdl.Elem
open Csdl Csdl.Arith Csdl.Prog

/-- The elementwise operations with one argument (csdl/operations/…). -/
inductive Fn where
  | sin | cos | tan | sec | cosec | cotan | sinh | cosh | tanh | sech | cosech | cotanh | arcsin | arccos | arctan | arcsinh | arccosh | arctanh | exp | log | log10
  deriving DecidableEq, Repr

/-- csdl/std/sin.py:6-17 (and the same lines of the other files): the function applied to the variable number `x`, of shape `s`: one operation, with one result of the same shape -/
def apply {K : Type} (f : Fn) (s : Shape) (x : Nat) : Stmt K Fn := .call f [x] [s]

/-- The inverse hyperbolic functions of csdl/std. -/
inductive Inv where
  | arsinh | arcosh | artanh | arcoth | arsech | arcsch
  deriving DecidableEq, Repr

/-- The statements that a call executes, on the variable number `x` of shape `s`, if the next variable has number `n`.  Each creates one variable.  The numbers `1 / 2` and `0.5` are one half. -/
def Inv.stmts {K : Type} [Field K] (s : Shape) (n x : Nat) : Inv → List (Stmt K Fn)
  -- csdl/std/arsinh.py:5: log(x + (x**2 + 1)**0.5)
  | .arsinh => [.expr (.powc x (.num 2)), .expr (.addc n (.num 1)), .expr (.powc (n + 1) (.num (1 / 2))), .expr (.add x (n + 2)), apply .log s (n + 3)]
  -- csdl/std/arcosh.py:5: log(x + (x**2 - 1)**0.5)
  | .arcosh => [.expr (.powc x (.num 2)), .expr (.subc n (.num 1)), .expr (.powc (n + 1) (.num (1 / 2))), .expr (.add x (n + 2)), apply .log s (n + 3)]
  -- csdl/std/artanh.py:5: 1 / 2 * log((1 + x) / (1 - x))
  | .artanh => [.expr (.addc x (.num 1)), .expr (.rsubc (.num 1) x), .expr (.div n (n + 1)), apply .log s (n + 2), .expr (.mulc (n + 3) (.num (1 / 2)))]
  -- csdl/std/arcoth.py:5: 1 / 2 * log((x + 1) / (x - 1))
  | .arcoth => [.expr (.addc x (.num 1)), .expr (.subc x (.num 1)), .expr (.div n (n + 1)), apply .log s (n + 2), .expr (.mulc (n + 3) (.num (1 / 2)))]
  -- csdl/std/arsech.py:5: log(1 + (1 - x**2)**0.5 / x)
  | .arsech => [.expr (.powc x (.num 2)), .expr (.rsubc (.num 1) n), .expr (.powc (n + 1) (.num (1 / 2))), .expr (.div (n + 2) x), .expr (.addc (n + 3) (.num 1)), apply .log s (n + 4)]
  -- csdl/std/arcsch.py:5: log(1 / x + (1 / x**2 + 1)**0.5)
  | .arcsch => [.expr (.rdivc (.num 1) x), .expr (.powc x (.num 2)), .expr (.rdivc (.num 1) (n + 1)), .expr (.addc (n + 2) (.num 1)), .expr (.powc (n + 3) (.num (1 / 2))), .expr (.add n (n + 4)), apply .log s (n + 5)]

/-- The number of the variable that the call returns; `none`: it returns None (csdl/std/arcsch.py:5 has no `return`). -/
def Inv.result (n : Nat) : Inv → Option Nat
  | .arsinh | .arcosh | .artanh | .arcoth => some (n + 4)
  | .arsech => some (n + 5)
  | .arcsch => none

/-! ### texts -/

/-- Pieces of the text of an operation: `np f` is `np.f`; `num c` the text of a number that is not negative; `obj` the text of an object that is not a number (an array or a variable). -/
inductive Tok (K : Type) where
  | name (n : Name) | eq | one | div | np (f : String) | lpar | rpar | num (c : K) | minus | pow | obj

/-- `'{}=np.f({})'` -/
def plain {K : Type} (f : String) (out inp : Name) : List (Tok K) := [.name out, .eq, .np f, .lpar, .name inp, .rpar]
/-- `'{}=1/np.f({})'` -/
def recipr {K : Type} (f : String) (out inp : Name) : List (Tok K) := [.name out, .eq, .one, .div, .np f, .lpar, .name inp, .rpar]

/-- `define_compute_strings` (lines 12-16 of csdl/operations/{sin,cos,tan,sec,cosec,cotan,sinh,cosh,tanh,sech,cosech,cotanh,arcsin,arccos,arctan,arcsinh,arccosh,arctanh,exp,log,log10}.py) -/
def text {K : Type} (out inp : Name) : Fn → List (Tok K)
  | .sin => plain "sin" out inp
  | .cos => plain "cos" out inp
  | .tan => plain "tan" out inp
  | .sec => recipr "cos" out inp
  | .cosec => recipr "sin" out inp
  | .cotan => recipr "tan" out inp
  | .sinh => plain "sinh" out inp
  | .cosh => plain "cosh" out inp
  | .tanh => plain "tanh" out inp
  | .sech => recipr "cosh" out inp
  | .cosech => recipr "sinh" out inp
  | .cotanh => recipr "tanh" out inp
  | .arcsin => plain "arcsin" out inp
  | .arccos => plain "arccos" out inp
  | .arctan => plain "arctan" out inp
  | .arcsinh => plain "arcsinh" out inp
  | .arccosh => plain "arccosh" out inp
  | .arctanh => plain "arctanh" out inp
  | .exp => plain "exp" out inp
  | .log => plain "log" out inp
  | .log10 => plain "log10" out inp

/-! ### `exp_a` and `bessel` -/

/-- The first argument of `exp_a`: a number, an array, a variable, or something else. -/
inductive Base (K : Type) where
  | num (c : K) | arr (shape : Shape) | var (shape : Shape) | other

/-- Exceptions -/
inductive EErr where
  | type | value
  deriving DecidableEq, Repr

/-- csdl/std/exp_a.py:8-48: the shape of the result; `x` is the shape of the second argument if it is a variable -/
def expA {K : Type} (a : Base K) (x : Option Shape) : Except EErr Shape :=
  match x, a with
  | none, _ => .error .type
  | some s, .arr t => if t ≠ [1] ∧ t ≠ s then .error .value else .ok s
  | some s, .var t => if t ≠ [1] ∧ t ≠ s then .error .value else .ok s
  | some s, .num _ => .ok s
  | some _, .other => .error .type

/-- csdl/operations/exp_a.py:20-24: `'{}=({}**{})'.format(out_name, literals['a'], in_name)` -/
def expAText {K : Type} [Zero K] [LT K] [Neg K] [DecidableLT K] (out inp : Name) : Base K → List (Tok K)
  | .num c => [.name out, .eq, .lpar] ++ (if c < 0 then [.minus, .num (-c)] else [.num c]) ++ [.pow, .name inp, .rpar]
  | _ => [.name out, .eq, .lpar, .obj, .pow, .name inp, .rpar]

/-- The argument `order` of `bessel`. -/
inductive Order where
  | num | arr (shape : Shape) | other

/-- csdl/std/bessel.py:7-45: the shape of the result; `x` is the shape of the argument if it is a variable; `kind` is `kind` if it equals an integer -/
def bessel (x : Option Shape) (kind : Option Int) (order : Order) : Except EErr Shape :=
  match x with
  | none => .error .type
  | some s =>
    if kind = some 1 ∨ kind = some 2 then
      match order with
      | .other => .error .type
      | .arr t => if s ≠ t then .error .type else .ok s
      | .num => .ok s
    else .error .type

end Csdl.Elem
