import Verif.Model.Axes
import Verif.Model.Indexing
/-
Model of the checks and output shapes of csdl/std/matmat.py, matvec.py, dot.py, cross.py, inner.py, outer.py, sum.py, max.py, min.py, average.py, pnorm.py, sparsematmat.py, quatrotvec.py, rotmat.py,
eigenvalues.py, solve_linear.py, and of csdl/std/diff.py.  Variables are given by their shapes; each function returns the shape of the output.  The checks that the arguments are `Variable` objects are left out.
-/
namespace Csdl.StdShapes
open Csdl Csdl.Axes

/-- The position meant by a Python index `i` of a sequence of length `n`; `none` if out of range. -/
def pyPos (n : Nat) (i : Int) : Option Nat := if 0 ≤ i then (if i < n then some i.toNat else none) else if 0 ≤ i + n then some (i + n).toNat else none

/-- `shape[axis]`; IndexError -/
def pyGet (s : Shape) (i : Int) : Except XErr Nat := match pyPos s.length i with | some k => tupleGet s k | none => .error .index

/-- An axis argument as a position; IndexError -/
def axisPos (n : Nat) (i : Int) : Except XErr Nat := match pyPos n i with | some k => .ok k | none => .error .index

/-- `np.delete(shape, axes)`: IndexError if an axis is out of range; an axis given twice is deleted once -/
def npDelete (s : Shape) (axes : List Int) : Except XErr Shape := do
  let ks ← axes.mapM (axisPos s.length)
  pure (((s.zipIdx).filter fun p => p.2 ∉ ks).map (·.1))

/-- csdl/std/matmat.py:25-40 -/
def matmat (a b : Shape) : Except XErr Shape :=
  match a, b with
  | [n, _], [_, m] => .ok [n, m]
  | _, _ => .error .value

/-- csdl/std/matvec.py:30-54; `mat.shape[1]` or `vec.shape[0]` may raise IndexError -/
def matvec (mat vec : Shape) : Except XErr Shape := do
  let m ← tupleGet mat 1
  let v ← tupleGet vec 0
  if m = v ∧ vec.length = 1 then do
    let n ← tupleGet mat 0
    pure [n]
  else .error .value

/-- csdl/std/dot.py:26-47 -/
def dot (a b : Shape) (axis : Option Int) : Except XErr Shape :=
  if a ≠ b then .error .value
  else if a.length = 1 then .ok [1]
  else match axis with
    | none => .error .value
    | some i => do
      let n ← pyGet a i
      if n ≠ 3 then .error .value else npDelete a [i]

/-- csdl/std/cross.py:25-37 -/
def cross (a b : Shape) (axis : Int) : Except XErr Shape :=
  if a ≠ b then .error .value else do
    let n ← pyGet a axis
    if n ≠ 3 then .error .value else pure a

/-- csdl/std/outer.py:26-32 -/
def outer (a b : Shape) : Shape := a ++ b

/-- csdl/std/inner.py:29-53; `axes` is a tuple of lists of axes -/
def inner (a b : Shape) (axes : Option (List (List Int))) : Except XErr Shape :=
  if a.length = 1 ∧ b.length = 1 then (match axes with | none => .ok [1] | some _ => .error .value)
  else match axes with
    | some [x, y] => do
      let p ← npDelete a x
      let q ← npDelete b y
      pure (p ++ q)
    | _ => .error .value

/-- The argument `axes`: None, an int, or a tuple of ints. -/
inductive AxesArg where
  | none
  | int (i : Int)
  | tuple (l : List Int)

/-- csdl/std/sum.py:22-28: all arguments have the same shape; without arguments `summands[0]` (or `l`) fails; `max(())` fails for shape `()` -/
def sumCheck : List Shape → Except XErr Shape
  | [] => .error .index
  | s :: r => if (s :: r).any (· ≠ s) then .error .value else if s = [] then .error .value else .ok s

/-- csdl/std/sum.py:29-73: `n` summands of shape `s` -/
def sumShape (s : Shape) (n : Nat) : AxesArg → Except XErr Shape
  | .tuple l =>
    if l.length > s.length then .error .value
    else if l.any (fun ax => decide (ax > s.length)) then .error .value
    else if n = 1 ∧ s.length = 1 then .ok [1]
    else if s.length > l.length then npDelete s l
    else .ok [1]
  | _ => if n = 1 then .ok [1] else .ok s

/-- csdl/std/sum.py:8-73 `sum`: an argument `axes` that is not a tuple is treated like None -/
def sum (args : List Shape) (axes : AxesArg) : Except XErr Shape := do
  let s ← sumCheck args
  sumShape s args.length axes

/-- csdl/std/max.py:26-31, csdl/std/min.py:26-31 -/
def maxCheck : List Shape → Except XErr Shape
  | [] => .error .index
  | s :: r => if (s :: r).any (· ≠ s) then .error .value else .ok s

/-- csdl/std/max.py:33-72, csdl/std/min.py:33-72: `n` arguments of shape `s` -/
def maxShape (s : Shape) (n : Nat) : Option Int → Except XErr Shape
  | some ax => if ax > s.length then .error .value else if s.length > 1 then npDelete s [ax] else .ok [1]
  | none => if n = 1 then .ok [1] else .ok s

/-- csdl/std/max.py:8-72 `max` and csdl/std/min.py:8-72 `min` (the same code) -/
def maxMin (args : List Shape) (axis : Option Int) : Except XErr Shape := do
  let s ← maxCheck args
  maxShape s args.length axis

/-- csdl/std/average.py:27-40: `n` operands, the first of shape `s` -/
def averageShape (s : Shape) (n : Nat) : AxesArg → Except XErr Shape
  | .none => if n > 1 then .ok s else .ok [1]
  | .int i => npDelete s [i]
  | .tuple l => npDelete s l

/-- csdl/std/average.py:27-40 `average`: the shapes of the operands are not compared -/
def average (args : List Shape) (axes : AxesArg) : Except XErr Shape := do
  let s ← tupleGet args 0
  averageShape s args.length axes

/-- csdl/std/pnorm.py:26-46 `pnorm`: only an axis given as int is compared with the rank -/
def pnorm (s : Shape) (pnormType : Int) (axis : AxesArg) : Except XErr Shape :=
  if pnormType % 2 ≠ 0 ∨ pnormType ≤ 0 then .error .value
  else match axis with
    | .none => .ok [1]
    | .int i => if i > s.length then .error .index else npDelete s [i]
    | .tuple l => npDelete s l

/-- csdl/std/sparsematmat.py:30-46; `sp` is the shape of the sparse matrix (two axes) -/
def sparsematmat (mat : Shape) (sp : Nat × Nat) : Except XErr Shape := do
  let m ← tupleGet mat 0
  if m ≠ sp.2 then .error .value else do
    let k ← tupleGet mat 1
    pure [sp.1, k]

/-- csdl/std/quatrotvec.py:25-43 -/
def quatrotvec (quat vec : Shape) : Except XErr Shape := if quat.dropLast ≠ vec.dropLast then .error .value else .ok vec

/-- csdl/std/rotmat.py:24-33 -/
def rotmat (s : Shape) : Shape := if s = [1] then [3, 3] else s ++ [3, 3]

/-- csdl/std/eigenvalues.py:27-53: two outputs -/
def eigenvalues (s : Shape) : Except XErr (Shape × Shape) :=
  match s with
  | [n, m] => if n ≠ m then .error .value else .ok ([n], [n])
  | _ => .error .value

/-- csdl/std/solve_linear.py:29-70 `solve`: shapes of `A` and `b`; the solution is reshaped to the shape of `b` (csdl/std/reshape.py:28-31) -/
def solve (a b : Shape) : Except XErr Shape :=
  match a with
  | [n, k] =>
    if n ≠ k then .error .value
    else match b with
      | [] => .error .index
      | n' :: r =>
        if n' ≠ n then .error .value
        else match r with
          | [] => .ok b
          | [m] => if m ≠ 1 then .error .value else .ok b
          | _ => .error .value
  | _ => .error .value

/-! ### `diff` -/

/-- `l[axis] = x` -/
def setAxis {α : Type} (l : List α) (k : Nat) (x : α) : List α := l.set k x

/-- csdl/std/diff.py:18-28 up to the assignment: the shape of `array[1:] - array[:l]` along the axis; `st` is the state of indexing of `array` (csdl/lang/variable.py:306-395).  The subtraction
compares the shapes (csdl/operations/linear_combination.py:14-19). -/
def diffRhs (shape : Shape) (st : Csdl.Decomp) (axis : Int) : Except IErr Shape :=
  match pyPos shape.length axis with
  | none => .error .index
  | some k =>
    let all := List.replicate shape.length (KeyElem.slice none none none)
    match getItem shape st (.tuple (setAxis all k (.slice (some 1) none none))) with
    | .error e => .error e
    | .ok (p, st') =>
      match getItem shape st' (.tuple (setAxis all k (.slice none (some (shape.getD k 0 : Nat)) none))) with
      | .error e => .error e
      | .ok (q, _) => if p.shape ≠ q.shape then .error .value else .ok p.shape

end Csdl.StdShapes
