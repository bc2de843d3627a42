import Mathlib.Algebra.Order.Field.Basic
/-
Model of csdl/utils/get_bspline_mtx.py:9-73.  Simplification: numbers are elements of a linearly ordered field (no rounding).
-/
namespace Csdl.BSpline

/-- Python indexing of a sequence: a negative index counts from the end, and an index out of range is an IndexError (`none`). -/
def pyGet {K : Type} (l : List K) (i : Int) : Option K :=
  if 0 ≤ i then l[i.toNat]? else if 0 ≤ i + l.length then l[(i + l.length).toNat]? else none

/-- Python assignment to an element of a sequence -/
def pySet {K : Type} (l : List K) (i : Int) (v : K) : Option (List K) :=
  if 0 ≤ i then (if i.toNat < l.length then some (l.set i.toNat v) else none)
  else if 0 ≤ i + l.length then some (l.set (i + l.length).toNat v) else none

section
variable {K : Type} [Field K] [LinearOrder K]

/-- `np.linspace(0, 1, n)` (NumPy): `n` equally spaced numbers, the first 0 and (if there are two or more) the last 1 -/
def linspace01 (n : Nat) : List K := (List.range n).map fun (i : Nat) => (i : K) / ((n - 1 : Nat) : K)

/-- csdl/utils/get_bspline_mtx.py:12-14: `knots` is zero, then the slice from `order - 1` to `num_cp + 1` (excluded) is set from `linspace`, then the rest is set to one -/
def knots (num_cp order : Nat) : List K :=
  (List.range (num_cp + order)).map fun k =>
    if k < order - 1 then 0
    else if k < num_cp + 1 then (linspace01 (num_cp - order + 2) : List K).getD (k - (order - 1)) 0
    else 1

/-- csdl/utils/get_bspline_mtx.py:28-30: one step of the search for the interval -/
def searchStep (kn : List K) (t : K) (order : Nat) (i0 : Int) (ind : Nat) : Option Int := do
  let a ← pyGet kn ((ind : Int) - 1)
  let b ← pyGet kn ind
  some (if a ≤ t ∧ t < b then (ind : Int) - order else i0)

/-- csdl/utils/get_bspline_mtx.py:27-32: the interval of `t` -/
def findInterval (kn : List K) (t : K) (num_cp order : Nat) : Option Int := do
  let i0 ← (List.range' order (num_cp + 1 - order)).foldlM (searchStep kn t order) (-1)
  let last ← pyGet kn (-1)
  some (if t = last then (num_cp : Int) - order else i0)

/-- csdl/utils/get_bspline_mtx.py:42-46: the first entry of a level -/
def firstEntry (kn : List K) (t : K) (i0 : Int) (l j1 : Nat) (basis : List K) : Option (List K) := do
  let n := i0 + (j1 : Int)
  let a ← pyGet kn (n + (l : Int))
  let b ← pyGet kn n
  let bj ← pyGet basis (j1 : Int)
  if a ≠ b then pySet basis ((j1 : Int) - 1) ((a - t) / (a - b) * bj) else pySet basis ((j1 : Int) - 1) 0

/-- csdl/utils/get_bspline_mtx.py:49-53: the first term of an entry in the middle of a level; `a` and `b` are `knots[n + l - 1]` and `knots[n - 1]` -/
def leftTerm (a b t old : K) (basis : List K) (j : Nat) : Option (List K) :=
  if a ≠ b then pySet basis ((j : Int) - 1) ((t - b) / (a - b) * old) else pySet basis ((j : Int) - 1) 0

/-- csdl/utils/get_bspline_mtx.py:47-56: an entry in the middle of a level -/
def middleEntry (kn : List K) (t : K) (i0 : Int) (l : Nat) (basis : List K) (j : Nat) : Option (List K) := do
  let n := i0 + (j : Int)
  let a ← pyGet kn (n + (l : Int) - 1)
  let b ← pyGet kn (n - 1)
  let old ← pyGet basis ((j : Int) - 1)
  let basis ← leftTerm a b t old basis j
  let c ← pyGet kn (n + (l : Int))
  let d ← pyGet kn n
  let cur ← pyGet basis ((j : Int) - 1)
  let next ← pyGet basis (j : Int)
  if c ≠ d then pySet basis ((j : Int) - 1) (cur + (c - t) / (c - d) * next) else some basis

/-- csdl/utils/get_bspline_mtx.py:57-62: the last entry of a level -/
def lastEntry (kn : List K) (t : K) (i0 : Int) (l j2 : Nat) (basis : List K) : Option (List K) := do
  let n := i0 + (j2 : Int)
  let a ← pyGet kn (n + (l : Int) - 1)
  let b ← pyGet kn (n - 1)
  let old ← pyGet basis ((j2 : Int) - 1)
  if a ≠ b then pySet basis ((j2 : Int) - 1) ((t - b) / (a - b) * old) else pySet basis ((j2 : Int) - 1) 0

/-- csdl/utils/get_bspline_mtx.py:37-62: the body of the loop over the levels -/
def level (kn : List K) (t : K) (order : Nat) (i0 : Int) (basis : List K) (i : Nat) : Option (List K) := do
  let b ← firstEntry kn t i0 (i - 1) (order - (i - 1)) basis
  let b ← (List.range' (order - (i - 1) + 1) (i - 2)).foldlM (middleEntry kn t i0 (i - 1)) b
  lastEntry kn t i0 (i - 1) order b

/-- csdl/utils/get_bspline_mtx.py:25-62: the interval and the basis functions at `t` -/
def basisAt (kn : List K) (t : K) (num_cp order : Nat) : Option (Int × List K) := do
  let i0 ← findInterval kn t num_cp order
  let b ← pySet (List.replicate order 0) (-1) 1
  let b ← (List.range' 2 (order - 1)).foldlM (level kn t order i0) b
  some (i0, b)

/-- csdl/utils/get_bspline_mtx.py:24-66: the entries (value, row, column) of one row -/
def rowAt (kn : List K) (tvec : List K) (num_cp order ipt : Nat) : Option (List (K × Nat × Int)) := do
  let t ← pyGet tvec ipt
  let ib ← basisAt kn t num_cp order
  some ((List.range order).map fun j => (ib.2.getD j 0, ipt, ib.1 + (j : Int)))

/-- csdl/utils/get_bspline_mtx.py:9-73: the entries given to `csr_matrix` (SciPy), which adds up entries at the same position -/
def getBsplineMtx (num_cp num_pt order : Nat) : Option (List (K × Nat × Int)) := do
  let order := min order num_cp
  let rows ← (List.range num_pt).mapM (rowAt (knots num_cp order) (linspace01 num_pt : List K) num_cp order)
  some rows.flatten

end
end Csdl.BSpline
