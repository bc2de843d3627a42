import Verif.Model.Elementwise
import Verif.Spec.Program
import Mathlib.Analysis.SpecialFunctions.Trigonometric.Inverse
import Mathlib.Analysis.SpecialFunctions.Trigonometric.Arctan
import Mathlib.Analysis.SpecialFunctions.Arsinh
import Mathlib.Analysis.SpecialFunctions.Arcosh
import Mathlib.Analysis.SpecialFunctions.Artanh
import Mathlib.Analysis.SpecialFunctions.Log.Base
import Mathlib.Analysis.SpecialFunctions.Pow.Real
/-
Specification for C76, C77: the functions of real numbers.
-/
namespace Csdl.Elem
open Csdl Csdl.Arith Csdl.Prog

/-- The power function of the real numbers. -/
noncomputable def realPower : Power ℝ := ⟨fun x y => x ^ y, Real.rpow_one, Real.rpow_neg_one⟩

/-- What each operation means. -/
noncomputable def Fn.meaning : Fn → ℝ → ℝ
  | .sin => Real.sin
  | .cos => Real.cos
  | .tan => fun x => Real.sin x / Real.cos x
  | .sec => fun x => 1 / Real.cos x
  | .cosec => fun x => 1 / Real.sin x
  | .cotan => fun x => Real.cos x / Real.sin x
  | .sinh => Real.sinh
  | .cosh => Real.cosh
  | .tanh => fun x => Real.sinh x / Real.cosh x
  | .sech => fun x => 1 / Real.cosh x
  | .cosech => fun x => 1 / Real.sinh x
  | .cotanh => fun x => Real.cosh x / Real.sinh x
  | .arcsin => Real.arcsin
  | .arccos => Real.arccos
  | .arctan => Real.arctan
  | .arcsinh => Real.arsinh
  | .arccosh => Real.arcosh
  | .arctanh => Real.artanh
  | .exp => Real.exp
  | .log => Real.log
  | .log10 => Real.logb 10

/-- element by element -/
noncomputable def meaning (f : Fn) (args : List (Val ℝ)) (_ : Nat) : Val ℝ := fun i => f.meaning (args.getD 0 (fun _ => 0) i)

/-- The statements, one variable each, are statements of the method, from variable number `n`; `name`: the names of the elementwise functions in the program. -/
def Contains {F : Type} (name : Fn → F) (b : Body ℝ F) (n : Nat) (l : List (Stmt ℝ Fn)) : Prop := ∀ j s, l[j]? = some s → b.Has (n + j) (s.mapFn name)

/-- The elementwise functions have their meaning. -/
def Means {F : Type} (name : Fn → F) (den : F → List (Val ℝ) → Nat → Val ℝ) : Prop := ∀ f args, den (name f) args 0 = meaning f args 0

/-- NumPy's functions, by name. -/
noncomputable def numpy : String → Option (ℝ → ℝ)
  | "sin" => some Real.sin
  | "cos" => some Real.cos
  | "tan" => some Real.tan
  | "sinh" => some Real.sinh
  | "cosh" => some Real.cosh
  | "tanh" => some Real.tanh
  | "arcsin" => some Real.arcsin
  | "arccos" => some Real.arccos
  | "arctan" => some Real.arctan
  | "arcsinh" => some Real.arsinh
  | "arccosh" => some Real.arcosh
  | "arctanh" => some Real.artanh
  | "exp" => some Real.exp
  | "log" => some Real.log
  | "log10" => some fun x => Real.log x / Real.log 10
  | _ => none

/-- How Python reads an expression of these forms; the power operator binds more tightly than a minus sign before it. -/
noncomputable def evalText (env : Name → ℝ) : List (Tok ℝ) → Option ℝ
  | [.np f, .lpar, .name x, .rpar] => (numpy f).map fun g => g (env x)
  | [.one, .div, .np f, .lpar, .name x, .rpar] => (numpy f).map fun g => 1 / g (env x)
  | [.lpar, .num c, .pow, .name x, .rpar] => some (c ^ env x)
  | [.lpar, .minus, .num c, .pow, .name x, .rpar] => some (-c ^ env x)
  | _ => none

/-- The text is an assignment to `out` of an expression with value `v`. -/
def Assigns (env : Name → ℝ) (out : Name) (t : List (Tok ℝ)) (v : ℝ) : Prop := ∃ r, t = .name out :: .eq :: r ∧ evalText env r = some v

end Csdl.Elem
