import Verif.Model.ComputeString
import Mathlib.Algebra.BigOperators.Group.List.Basic
/-
Specification for C50: how Python reads the text.
-/
namespace Csdl.CString
open Csdl
variable {K : Type} [Field K] [LinearOrder K]

/-- The value of the rest of a sum, after a value `acc`.  Two names or a name and a number in a row are a different name or no expression: `none`. -/
def evalRest (env : Name → K) : K → List (Tok K) → Option K
  | acc, [] => some acc
  | acc, .plus :: .num c :: .star :: .name x :: r => evalRest env (acc + c * env x) r
  | acc, .plus :: .name x :: r => evalRest env (acc + env x) r
  | acc, .minus :: .name x :: r => evalRest env (acc - env x) r
  | acc, .num c :: .star :: .name x :: r => if c < 0 then evalRest env (acc + c * env x) r else none
  | _, _ => none

/-- The value of a sum.  The empty text is no expression. -/
def evalSum (env : Name → K) : List (Tok K) → Option K
  | .num c :: .star :: .name x :: r => evalRest env (c * env x) r
  | .num c :: r => evalRest env c r
  | .name x :: r => evalRest env (env x) r
  | .minus :: .name x :: r => evalRest env (-env x) r
  | _ => none

/-- The value of the rest of a product of powers. -/
def evalProd (pow : K → K → K) (env : Name → K) : K → List (Tok K) → Option K
  | acc, [] => some acc
  | acc, .star :: .name x :: .pow :: .num p :: r => evalProd pow env (acc * pow (env x) p) r
  | _, _ => none

/-- The text is an assignment to `out` of an expression with value `v`. -/
def AssignsSum (env : Name → K) (out : Name) (s : List (Tok K)) (v : K) : Prop := ∃ r, s = .name out :: .eq :: r ∧ evalSum env r = some v

/-- The text is an assignment to `out` of a number times powers, with value `v`. -/
def AssignsProd (pow : K → K → K) (env : Name → K) (out : Name) (s : List (Tok K)) (v : K) : Prop :=
  ∃ c r, s = .name out :: .eq :: .num c :: r ∧ evalProd pow env c r = some v

/-- The meaning of a linear combination. -/
def linMeaning (env : Name → K) (constant : K) (coeffs : Lit K) (args : List Name) : K :=
  constant + (List.zipWith (fun c x => c * env x) (coeffs.expand args.length) args).sum

/-- The meaning of a power combination. -/
def powMeaning (pow : K → K → K) (env : Name → K) (coeff : K) (powers : Lit K) (args : List Name) : K :=
  coeff * (List.zipWith (fun x p => pow (env x) p) args (powers.expand args.length)).prod

/-- The coefficient is 0, 1, -1 or has absolute value greater than one. -/
def Simple (c : K) : Prop := c = 0 ∨ c = 1 ∨ c = -1 ∨ 1 < c ∨ c < -1

/-- There is a coefficient other than zero, and the first such is positive or no positive one follows. -/
def SignsOk (l : List K) : Prop := ∃ a c b, l = a ++ c :: b ∧ (∀ z ∈ a, z = 0) ∧ c ≠ 0 ∧ (0 < c ∨ ∀ d ∈ b, d ≤ 0)

end Csdl.CString
