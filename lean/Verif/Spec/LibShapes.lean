import Verif.Model.Library
import Verif.Spec.StdShapes
/-
Specification for C83: the shapes of the results of the library's functions, function by function.
-/
namespace Csdl.Prog
open Csdl Csdl.Axes Csdl.StdShapes

/-- `f.Gives ins outs`: the function `f` accepts arguments of the shapes `ins`, and its results have the shapes `outs`. -/
inductive Lib.Gives {K : Type} : Lib K → List Shape → List Shape → Prop
  | elem (f : Elem.Fn) (s : Shape) : Gives (.elem f) [s] [s]
  /-- `(n, k)` times `(l, m)` is `(n, m)`; `k = l` is not checked -/
  | matmat (n k l m : Nat) : Gives .matmat [[n, k], [l, m]] [[n, m]]
  /-- the matrix may have further axes -/
  | matvec (n k : Nat) (r : Shape) : Gives .matvec [n :: k :: r, [k]] [[n]]
  | matvecSparse (sp : Nat × Nat) (m : Nat) : Gives (.matvecSparse sp m) [[sp.2]] [[sp.1]]
  | sparsematmat (sp : Nat × Nat) (m k : Nat) (r : Shape) : Gives (.sparsematmat sp m) [sp.2 :: k :: r] [[sp.1, k]]
  | dotVec (axis : Option Int) (n : Nat) : Gives (.dot axis) [[n], [n]] [[1]]
  | dot (i : Int) (k : Nat) (s : Shape) : s.length ≠ 1 → AxisIs s.length i k → s[k]? = some 3 → Gives (.dot (some i)) [s, s] [reduced s [k]]
  | cross (i : Int) (k : Nat) (s : Shape) : AxisIs s.length i k → s[k]? = some 3 → Gives (.cross i) [s, s] [s]
  | outer (s t : Shape) : Gives .outer [s, t] [s ++ t]
  | innerVec (n m : Nat) : Gives (.inner none) [[n], [m]] [[1]]
  | inner (s t : Shape) (l l' : List Int) (ks ks' : List Nat) : ¬(s.length = 1 ∧ t.length = 1) → AxesAre s.length l ks → AxesAre t.length l' ks' → Gives (.inner (some [l, l'])) [s, t] [reduced s ks ++ reduced t ks']
  /-- a sum without axes, of one argument or of several arguments of the same shape (not `()`) -/
  | sumAll (axes : AxesArg) (s : Shape) : s ≠ [] → (∀ l, axes ≠ .tuple l) → Gives (.sum axes) [s] [[1]]
  | sumArgs (axes : AxesArg) (s : Shape) (n : Nat) : s ≠ [] → (∀ l, axes ≠ .tuple l) → Gives (.sum axes) (List.replicate (n + 2) s) [s]
  /-- a sum along axes, fewer than the argument has -/
  | sumAxes (s : Shape) (n : Nat) (l : List Int) (ks : List Nat) : s ≠ [] → ks.length < s.length → ¬(n = 0 ∧ s.length = 1) → AxesAre s.length l ks → Gives (.sum (.tuple l)) (List.replicate (n + 1) s) [reduced s ks]
  /-- a sum along as many axes as the argument has (they are not checked otherwise), or of the elements of one vector -/
  | sumScalar (s : Shape) (n : Nat) (l : List Int) : s ≠ [] → (∀ i ∈ l, i ≤ s.length) → l.length = s.length ∨ (n = 0 ∧ s.length = 1 ∧ l = []) → Gives (.sum (.tuple l)) (List.replicate (n + 1) s) [[1]]
  | maxAll (s : Shape) : Gives (.max none) [s] [[1]]
  | maxArgs (s : Shape) (n : Nat) : Gives (.max none) (List.replicate (n + 2) s) [s]
  | maxAxis (s : Shape) (n : Nat) (i : Int) (k : Nat) : 1 < s.length → AxisIs s.length i k → Gives (.max (some i)) (List.replicate (n + 1) s) [reduced s [k]]
  | maxVec (s : Shape) (n : Nat) (i : Int) : s.length ≤ 1 → i ≤ s.length → Gives (.max (some i)) (List.replicate (n + 1) s) [[1]]
  | minAll (s : Shape) : Gives (.min none) [s] [[1]]
  | minArgs (s : Shape) (n : Nat) : Gives (.min none) (List.replicate (n + 2) s) [s]
  | minAxis (s : Shape) (n : Nat) (i : Int) (k : Nat) : 1 < s.length → AxisIs s.length i k → Gives (.min (some i)) (List.replicate (n + 1) s) [reduced s [k]]
  | minVec (s : Shape) (n : Nat) (i : Int) : s.length ≤ 1 → i ≤ s.length → Gives (.min (some i)) (List.replicate (n + 1) s) [[1]]
  /-- the shapes of further arguments of `average` are not compared -/
  | averageAll (s : Shape) : Gives (.average .none) [s] [[1]]
  | averageArgs (s t : Shape) (l : List Shape) : Gives (.average .none) (s :: t :: l) [s]
  | averageAxis (s : Shape) (l : List Shape) (i : Int) (k : Nat) : AxisIs s.length i k → Gives (.average (.int i)) (s :: l) [reduced s [k]]
  | averageAxes (s : Shape) (l : List Shape) (axes : List Int) (ks : List Nat) : AxesAre s.length axes ks → Gives (.average (.tuple axes)) (s :: l) [reduced s ks]
  /-- an even positive norm -/
  | pnormAll (p : Nat) (s : Shape) : 0 < p → Gives (.pnorm (2 * p : Nat) .none) [s] [[1]]
  | pnormAxis (p : Nat) (s : Shape) (i : Int) (k : Nat) : 0 < p → AxisIs s.length i k → Gives (.pnorm (2 * p : Nat) (.int i)) [s] [reduced s [k]]
  | pnormAxes (p : Nat) (s : Shape) (l : List Int) (ks : List Nat) : 0 < p → AxesAre s.length l ks → Gives (.pnorm (2 * p : Nat) (.tuple l)) [s] [reduced s ks]
  /-- all axes but the last are the same -/
  | quatrotvec (s : Shape) (m n : Nat) : Gives .quatrotvec [s ++ [m], s ++ [n]] [s ++ [n]]
  | quatrotvecQuat (m : Nat) : Gives .quatrotvec [[m], []] [[]]
  | quatrotvecVec (n : Nat) : Gives .quatrotvec [[], [n]] [[n]]
  | quatrotvecNone : Gives .quatrotvec [[], []] [[]]
  | rotmatOne (axis : Name) : Gives (.rotmat axis) [[1]] [[3, 3]]
  | rotmat (axis : Name) (s : Shape) : s ≠ [1] → Gives (.rotmat axis) [s] [s ++ [3, 3]]
  /-- the real parts and the imaginary parts -/
  | eigenvalues (n : Nat) : Gives .eigenvalues [[n, n]] [[n], [n]]
  | reshape (s new : Shape) : s.size = new.size → Gives (.reshape new) [s] [new]
  | transpose (s : Shape) : Gives .transpose [s] [s.reverse]
  /-- the functions of C43, C44, C45 -/
  | reorderAxes (op : List Char) (s t : Shape) : Axes.reorderAxes s op = .ok t → Gives (.reorderAxes op) [s] [t]
  | expand (s t : Shape) (indices : Option (List Char)) : Axes.expand s t indices = .ok t → Gives (.expand t indices) [s] [t]
  | einsum (l : List Shape) (subscripts : List Char) (t : Shape) : Axes.einsum l subscripts = .ok t → Gives (.einsum subscripts) l [t]
  | einsumNewApi (l : List Shape) (operation : List (List Nat)) (t : Shape) : Axes.einsumNewApi l operation = .ok t → Gives (.einsumNewApi operation) l [t]
  | expA (c : K) (elems : Nat) (s : Shape) : Gives (.expA (.num c) elems) [s] [s]
  /-- the base may have one element or the shape of the exponent -/
  | expAArr (b : Elem.Base K) (t : Shape) (elems : Nat) (s : Shape) : b = .arr t ∨ b = .var t → t = [1] ∨ t = s → Gives (.expA b elems) [s] [s]
  | bessel (kind : Int) (elems : Nat) (s : Shape) : kind = 1 ∨ kind = 2 → Gives (.bessel kind .num elems) [s] [s]
  | besselArr (kind : Int) (elems : Nat) (s : Shape) : kind = 1 ∨ kind = 2 → Gives (.bessel kind (.arr s) elems) [s] [s]

end Csdl.Prog
