import Verif.Model.StdShapes
import Verif.Spec.Indexing
/-
Specification for C46, C47, C52, C59: the shapes of NumPy's operations.
-/
namespace Csdl.StdShapes
open Csdl

/-- `i` denotes axis `k` of an array with `n` axes: from the front or, negative, from the back. -/
def AxisIs (n : Nat) (i : Int) (k : Nat) : Prop := k < n ∧ (i = k ∨ i = (k : Int) - n)

/-- `i` denotes no axis. -/
def NoAxis (n : Nat) (i : Int) : Prop := i < -(n : Int) ∨ (n : Int) ≤ i

/-- The axes `l` are the positions `ks`. -/
def AxesAre (n : Nat) (l : List Int) (ks : List Nat) : Prop := List.Forall₂ (AxisIs n) l ks

/-- The shape without the axes `ks`. -/
def reduced (s : Shape) (ks : List Nat) : Shape := ((List.range s.length).filter (· ∉ ks)).map (s.getD · 0)

/-- csdl's convention: a scalar has shape `(1,)`. -/
def orOne (s : Shape) : Shape := if s = [] then [1] else s

/-- Matrix product of NumPy (two axes each). -/
def npMatmul : Shape → Shape → Option Shape
  | [n, k], [k', m] => if k = k' then some [n, m] else none
  | _, _ => none

/-- Matrix times vector. -/
def npMatvec : Shape → Shape → Option Shape
  | [n, k], [k'] => if k = k' then some [n] else none
  | _, _ => none

/-- `np.tensordot(a, b, axes)`: the contracted axes are equally many and have pairwise equal sizes. -/
def Contractible (a b : Shape) (ks ls : List Nat) : Prop := List.Forall₂ (fun k l => a[k]? = b[l]? ∧ k < a.length) ks ls

end Csdl.StdShapes
