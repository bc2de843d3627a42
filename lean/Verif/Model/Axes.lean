import Verif.Model.Tree
/-
Model of the functions on axes: csdl/std/reshape.py, csdl/std/reorder_axes.py, csdl/utils/reorder_axes_utils.py, csdl/std/transpose.py, csdl/std/expand.py,
csdl/utils/decompose_shape_tuple.py, csdl/std/einsum.py, csdl/std/einsum_new_api.py, csdl/utils/einsum_utils.py.  Each function returns the shape of the output variable.
Strings are lists of characters.  Variables are given by their shapes.
-/
namespace Csdl.Axes
open Csdl

/-- Exceptions: ValueError, IndexError, KeyError. -/
inductive XErr where
  | value | index | key
  deriving DecidableEq, Repr

/-- csdl/std/reshape.py:19-38 `reshape`: `new_shape` is any tuple of ints -/
def reshapeInts (s : Shape) (new : List Int) : Except XErr (List Int) :=
  if ((s.map Int.ofNat).foldr (· * ·) 1) ≠ new.foldr (· * ·) 1 then .error .value else .ok new

/-- csdl/std/transpose.py:18-28: `shape=var.shape[::-1]` -/
def transpose (s : Shape) : Shape := s.reverse

/-- `str.split('->')`; `acc` is the current piece reversed -/
def splitArrowGo : List Char → List Char → List (List Char)
  | acc, [] => [acc.reverse]
  | acc, '-' :: '>' :: r => acc.reverse :: splitArrowGo [] r
  | acc, c :: r => splitArrowGo (c :: acc) r

/-- `str.split('->')` -/
def splitArrow (s : List Char) : List (List Char) := splitArrowGo [] s

/-- `str.index` of a character; ValueError if it does not occur -/
def strIndex (s : List Char) (c : Char) : Except XErr Nat := if c ∈ s then .ok (s.idxOf c) else .error .value

/-- `t[i]` for a tuple; IndexError if there is no such element.  (Negative indices do not occur.) -/
def tupleGet {α : Type} (t : List α) (i : Nat) : Except XErr α := match t[i]? with | some a => .ok a | none => .error .index

/-- csdl/utils/reorder_axes_utils.py:2-11 `compute_new_axes_locations` -/
def newAxesLocations (operation : List Char) : Except XErr (List Nat) :=
  match splitArrow (operation.filter (· ≠ ' ')) with
  | i :: o :: _ => o.mapM (strIndex i)
  | _ => .error .index

/-- csdl/std/reorder_axes.py:26-33 `reorder_axes` -/
def reorderAxes (s : Shape) (operation : List Char) : Except XErr Shape := do
  let l ← newAxesLocations operation
  l.mapM (tupleGet s)

/-- csdl/std/expand.py:20-25: the positions of output labels that are not input labels -/
def expandIndices (ins outs : List Char) : List Nat := (List.range outs.length).filter fun i => outs.getD i ' ' ∉ ins

/-- csdl/utils/decompose_shape_tuple.py:2 -/
def alphabet10 : List Char := ['a', 'b', 'c', 'd', 'e', 'f', 'g', 'h', 'i', 'j']

/-- The result of `decompose_shape_tuple`. -/
structure Decomp where
  einsumSelection : List Char := []
  einsumRemainder : List Char := []
  einsumFull : List Char := []
  shapeSelection : Shape := []
  shapeRemainder : Shape := []
  deriving DecidableEq, Repr

/-- csdl/utils/decompose_shape_tuple.py:9-16: the loop from `index` on -/
def decomposeGo (select : List Nat) : Nat → Shape → Decomp → Except XErr Decomp
  | _, [], d => .ok d
  | index, n :: s, d => do
    let c ← tupleGet alphabet10 index
    decomposeGo select (index + 1) s
      (if index ∉ select then { d with einsumSelection := d.einsumSelection ++ [c], shapeSelection := d.shapeSelection ++ [n], einsumFull := d.einsumFull ++ [c] }
       else { d with einsumRemainder := d.einsumRemainder ++ [c], shapeRemainder := d.shapeRemainder ++ [n], einsumFull := d.einsumFull ++ [c] })

/-- csdl/utils/decompose_shape_tuple.py:1-27 `decompose_shape_tuple` -/
def decomposeShapeTuple (s : Shape) (select : List Nat) : Except XErr Decomp := decomposeGo select 0 s {}

/-- csdl/std/expand.py:39-55: the check for a variable other than a scalar -/
def expandCheck (var shape : Shape) (idx : List Nat) : Except XErr Shape :=
  match decomposeShapeTuple shape idx with
  | .error e => .error e
  | .ok d => if d.shapeSelection ≠ var then .error .value else .ok shape

/-- csdl/std/expand.py:7-57 `expand`.  Simplification: `shape` is a tuple of ints; the type checks are left out. -/
def expand (var shape : Shape) (indices : Option (List Char)) : Except XErr Shape :=
  match indices with
  | none => if var = [1] then .ok shape else .error .value
  | some s =>
    match splitArrow s with
    | [ins, outs] => if var = [1] then .ok shape else expandCheck var shape (expandIndices ins outs)
    | _ => .error .value

/-- csdl/utils/einsum_utils.py:15-19: the inner loop for one output label: nothing if no operand has the label -/
def axisSize (reps : List (List Char)) (shapes : List Shape) (c : Char) : Except XErr (List Nat) :=
  match reps.findIdx? (fun r => c ∈ r) with
  | none => .ok []
  | some i => do
    let s ← tupleGet shapes i
    let n ← tupleGet s ((reps.getD i []).idxOf c)
    pure [n]

/-- csdl/utils/einsum_utils.py:4-23 `compute_einsum_shape` -/
def einsumShape (aslist : List (List Char)) (shapes : List Shape) : Except XErr Shape :=
  if aslist.getLastD [] = [] then .ok [1] else do
    let l ← (aslist.getLastD []).mapM (axisSize aslist.dropLast shapes)
    pure l.flatten

/-- csdl/utils/einsum_utils.py:29-44: the loop of `einsum_subscripts_tolist`.  Simplification: `isalpha` for ASCII letters. -/
def toListGo : List (List Char) → List Char → List Char → List (List Char)
  | acc, rep, [] => acc ++ [rep]
  | acc, rep, c :: r =>
    if c.isAlpha then toListGo acc (rep ++ [c]) r
    else if c = ',' ∨ c = '-' then toListGo (acc ++ [rep]) [] r
    else toListGo acc rep r

/-- csdl/utils/einsum_utils.py:26-44 `einsum_subscripts_tolist`; the empty string gives IndexError at line 37 -/
def subscriptsToList (s : List Char) : Except XErr (List (List Char)) := if s = [] then .error .index else .ok (toListGo [] [] s)

/-- csdl/std/einsum.py:26-40 `einsum`.  The check of `partial_format` is left out. -/
def einsum (shapes : List Shape) (subscripts : List Char) : Except XErr Shape := do
  let l ← subscriptsToList subscripts
  einsumShape l shapes

section
variable {α : Type} [DecidableEq α]

/-- csdl/utils/einsum_utils.py:52 -/
def alphabet26 : List Char :=
  ['a', 'b', 'c', 'd', 'e', 'f', 'g', 'h', 'i', 'j', 'k', 'l', 'm', 'n', 'o', 'p', 'q', 'r', 's', 't', 'u', 'v', 'w', 'x', 'y', 'z']

/-- `axis_map` and `unused_chars` -/
structure NameSt (α : Type) where
  axisMap : Dict α Char := []
  unused : List Char := alphabet26

/-- csdl/utils/einsum_utils.py:67-70: the letter of one axis; IndexError if no letter is left -/
def nameAxis (st : NameSt α) (a : α) : Except XErr (NameSt α × Char) :=
  match st.axisMap.get? a with
  | some c => .ok (st, c)
  | none =>
    match st.unused with
    | [] => .error .index
    | c :: u => .ok (⟨st.axisMap.set a c, u⟩, c)

/-- csdl/utils/einsum_utils.py:66-70: the letters of one tuple -/
def nameAxes : NameSt α → List α → Except XErr (NameSt α × List Char)
  | st, [] => .ok (st, [])
  | st, a :: as => do
    let r ← nameAxis st a
    let q ← nameAxes r.1 as
    pure (q.1, r.2 :: q.2)

/-- csdl/utils/einsum_utils.py:62-74: all operands -/
def nameInputs : NameSt α → List (List α) → Except XErr (NameSt α × List (List Char))
  | st, [] => .ok (st, [])
  | st, t :: ts => do
    let r ← nameAxes st t
    let q ← nameInputs r.1 ts
    pure (q.1, r.2 :: q.2)

/-- csdl/utils/einsum_utils.py:81: `axis_map[axis]`; KeyError -/
def lookupAxis (st : NameSt α) (a : α) : Except XErr Char := match st.axisMap.get? a with | some c => .ok c | none => .error .key

/-- csdl/utils/einsum_utils.py:47-87 `new_einsum_subscripts_to_string_and_list`: the list and the string -/
def newApiSubscripts (subs : List (List α)) (scalarOutput : Bool) : Except XErr (List (List Char) × List Char) :=
  if subs = [] ∧ scalarOutput = false then .error .index else do
    let n := if scalarOutput then subs.length else subs.length - 1
    let r ← nameInputs {} (subs.take n)
    let out ← if subs.length = n + 1 then (subs.getLastD []).mapM (lookupAxis r.1) else pure []
    pure (r.2 ++ [out], ((r.2.map (· ++ [','])).flatten).dropLast ++ ['-', '>'] ++ out)

/-- csdl/std/einsum_new_api.py:26-45 `einsum_new_api` -/
def einsumNewApi (shapes : List Shape) (operation : List (List α)) : Except XErr Shape := do
  let r ← newApiSubscripts operation (decide (shapes.length = operation.length))
  einsumShape r.1 shapes

end
end Csdl.Axes
