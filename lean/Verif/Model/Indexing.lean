import Verif.Model.Tree
/-
Model of indexing: csdl/utils/slice_to_list.py, csdl/lang/variable.py:19-24,306-395 (`x[key]`),
csdl/lang/concatenation.py:58-149 (`x[key] = var`), and of the NumPy functions they call.
-/
namespace Csdl

/-- Exceptions of the indexing functions. -/
inductive IErr where
  | value | type | index | key | attribute
  deriving DecidableEq, Repr

/-- Python `range(a, b, s)` for `s ≠ 0`, as a list. -/
def pyRange (a b s : Int) : List Int :=
  if 0 < s then (List.range ((b - a + s - 1) / s).toNat).map fun i : Nat => a + (i : Int) * s
  else (List.range ((a - b - s - 1) / (-s)).toNat).map fun i : Nat => a + (i : Int) * s

/-- csdl/utils/slice_to_list.py:11-24 and 28: the end of the range; every caller passes `size`. -/
def sliceStop (start stop : Option Int) (size : Nat) : Except IErr Int :=
  match start, stop with
  | none, none => .ok size
  | _, some t =>
    if t < 0 then
      if (size : Int) + t < 0 then .error .value else .ok ((size : Int) + t)
    else .ok t
  | some _, none => .ok size

/-- csdl/utils/slice_to_list.py:25-33: `range` raises ValueError for step 0, `np.min` raises ValueError for an empty list. -/
def rangeList (start stop step : Int) : Except IErr (List Int) :=
  if step = 0 then .error .value
  else if pyRange start stop step = [] then .error .value
  else if (pyRange start stop step).any (fun x => decide (x < 0)) then .error .value
  else .ok (pyRange start stop step)

/-- csdl/utils/slice_to_list.py:5-33 -/
def sliceToList (start stop step : Option Int) (size : Nat) : Except IErr (List Int) :=
  match sliceStop start stop size with
  | .error e => .error e
  | .ok stop => rangeList (start.getD 0) stop (step.getD 1)

/-- An element of a key that is a tuple.  `other`: neither an int nor a slice. -/
inductive KeyElem where
  | int (k : Int)
  | slice (start stop step : Option Int)
  | other
  deriving DecidableEq

/-- A key `x[key]`. -/
inductive Key where
  | int (k : Int)
  | slice (start stop step : Option Int)
  | tuple (l : List KeyElem)
  | other
  deriving DecidableEq

/-- Normalised keys: one triple `(start, stop, step)` per axis. -/
abbrev NKey := List (Int × Int × Option Int)

/-- csdl/lang/variable.py:19-24 `slice_to_tuple` -/
def sliceToTuple (start stop step : Option Int) (size : Nat) : Int × Int × Option Int :=
  (start.getD 0, stop.getD size, step)

/-- csdl/lang/variable.py:331-354: elements of a tuple key; `i` is the position. -/
def normalizeTuple (shape : Shape) : Nat → List KeyElem → Except IErr NKey
  | _, [] => .ok []
  | i, .slice a b s :: rest => do
    let n ← match shape[i]? with
      | some n => pure n
      | none => .error .index
    let r ← normalizeTuple shape (i + 1) rest
    pure (sliceToTuple a b s n :: r)
  | i, .int k :: rest => do
    let k ← if k < 0 then
        match shape[i]? with
        | some n => pure ((n : Int) + k)
        | none => .error .index
      else pure k
    let r ← normalizeTuple shape (i + 1) rest
    pure ((k, k + 1, none) :: r)
  | i, .other :: rest => normalizeTuple shape (i + 1) rest

/-- csdl/lang/variable.py:317-358: the key as stored in `_key_out_pairs` -/
def normalizeKey (shape : Shape) : Key → Except IErr NKey
  | .int k => if k < 0 then .ok [((shape.size : Int) + k, (shape.size : Int) + k + 1, none)] else .ok [(k, k + 1, none)]
  | .slice a b s => .ok [sliceToTuple a b s shape.size]
  | .tuple l => normalizeTuple shape 0 l
  | .other => .error .type

/-- csdl/lang/variable.py:365-368: the index list of each axis; `self.shape[i]` raises IndexError -/
def axisLists : Shape → NKey → Except IErr (List (List Int))
  | _, [] => .ok []
  | [], _ :: _ => .error .index
  | n :: shape, (a, b, s) :: rest => do
    let l ← sliceToList (some a) (some b) s n
    let r ← axisLists shape rest
    pure (l :: r)

/-- The multi-indices of `np.meshgrid(*ls, indexing='ij')`, flattened in row-major order. -/
def meshIJ : List (List Int) → List (List Int)
  | [] => [[]]
  | l :: ls => l.flatMap fun x => (meshIJ ls).map (x :: ·)

/-- Row-major position of a multi-index. -/
def ravel : Shape → List Nat → Nat
  | _ :: shape, i :: idx => i * Shape.size shape + ravel shape idx
  | _, _ => 0

/-- Whether a multi-index has one entry per axis, in range. -/
def inRange : Shape → List Int → Bool
  | [], [] => true
  | n :: shape, i :: idx => decide (0 ≤ i ∧ i < n) && inRange shape idx
  | _, _ => false

/-- `np.ravel_multi_index(idx, shape)` with the default mode 'raise': ValueError if an index is out of range or the number
of indices is not the rank. -/
def ravelMultiIndex (shape : Shape) (idx : List Int) : Except IErr Nat :=
  if inRange shape idx then .ok (ravel shape (idx.map Int.toNat)) else .error .value

/-- csdl/lang/variable.py:365-377: the flat source indices.  The empty key `()` is rejected by `np.ravel_multi_index`.
The check of lines 375-377 comes after the indices have been checked by `np.ravel_multi_index`. -/
def srcIndices (shape : Shape) (key : NKey) : Except IErr (List Nat) := do
  let ls ← axisLists shape key
  if ls = [] then .error .value
  else
    let flat ← (meshIJ ls).mapM (ravelMultiIndex shape)
    if flat.any (fun i => decide (shape.size ≤ i)) then .error .value else pure flat

/-- Python `slice(start, stop, step).indices(n)` for `step ≠ 0`: clipped start and stop. -/
def sliceBounds (n : Nat) (start stop : Option Int) (step : Int) : Int × Int :=
  let lo : Int := if 0 < step then 0 else -1
  let hi : Int := if 0 < step then n else (n : Int) - 1
  let clip (x : Int) : Int := if x < 0 then max (x + n) lo else min x hi
  (match start with | none => if 0 < step then lo else hi | some a => clip a,
   match stop with | none => if 0 < step then hi else lo | some b => clip b)

/-- Positions selected by NumPy basic slicing of an axis of length `n`. -/
def npSlice (n : Nat) (start stop : Option Int) (step : Int) : List Int :=
  let b := sliceBounds n start stop step
  pyRange b.1 b.2 step

/-- Shape of `self.val[tuple([slice(s[0], s[1], s[2]) for s in list(key)])]` (csdl/lang/variable.py:384-385), for a key with
one slice per axis. -/
def npSliceShape : Shape → NKey → Shape
  | n :: shape, (a, b, s) :: rest => (npSlice n (some a) (some b) (s.getD 1)).length :: npSliceShape shape rest
  | shape, _ => shape

/-! ### `Variable.__getitem__` with its cache -/

/-- An `Output` created by indexing: identity, shape and source indices. -/
structure Part where
  id : Nat
  shape : Shape
  src : List Nat
  deriving DecidableEq

/-- State of the `decompose` operation of a variable (csdl/operations/decompose.py:8-18): `_key_out_pairs`, with for each output its
entry of `src_indices`; `next` is the identity of the next object created. -/
structure Decomp where
  pairs : Dict NKey Part := []
  next : Nat := 0

/-- csdl/lang/variable.py:306-395 `x[key]` -/
def getItem (shape : Shape) (st : Decomp) (key : Key) : Except IErr (Part × Decomp) := do
  let k ← normalizeKey shape key
  match st.pairs.get? k with
  | some p => pure (p, st)
  | none =>
    let src ← srcIndices shape k
    let p : Part := ⟨st.next, npSliceShape shape k, src⟩
    pure (p, { pairs := st.pairs.set k p, next := st.next + 1 })

/-- A history of indexing operations on a variable; exceptions are caught by the caller.  Between two operations of this
variable any number of other objects may be created. -/
def runGets (shape : Shape) (st : Decomp) : List (Key × Nat) → Decomp
  | [] => st
  | (k, others) :: rest =>
    let st := { st with next := st.next + others }
    match getItem shape st k with
    | .ok r => runGets shape r.2 rest
    | .error _ => runGets shape st rest

/-! ### `Concatenation.__setitem__` -/

/-- State of an output defined by indexed assignment (csdl/lang/concatenation.py:42-52).  `tgt` is `_tgt_indices` (for each
name, the flat indices), `checked` is `checked_indices`; `deps` is the list of dependencies of the `indexed_passthrough`
operation, `none` while there is none (`self.defined is False`). -/
structure Concat where
  shape : Shape
  tgt : Dict Name (List Int) := []
  checked : List Int := []
  deps : Option (List Nat) := none

/-- A variable used on the right-hand side: identity, current name and shape. -/
structure Rhs where
  id : Nat
  name : Name
  shape : Shape

/-- csdl/lang/concatenation.py:72-80: elements of a tuple key; an element that is neither an int nor a slice has no attribute
`start` -/
def setTuple : Shape → List KeyElem → Except IErr (List (List Int))
  | _, [] => .ok []
  | [], .other :: _ => .error .attribute
  | [], _ :: _ => .error .index
  | n :: shape, e :: rest => do
    let l ← match e with
      | .int k => sliceToList (some k) (some (k + 1)) none n
      | .slice a b s => sliceToList a b s n
      | .other => .error .attribute
    let r ← setTuple shape rest
    pure (l :: r)

/-- csdl/lang/concatenation.py:64-104: target indices and their shape (`np.array(tgt_indices).shape`). -/
def tgtIndices (shape : Shape) : Key → Except IErr (List Int × Shape)
  | .tuple l => do
    let ls ← setTuple shape l
    if ls = [] then .error .value
    else
      let flat ← (meshIJ ls).mapM (ravelMultiIndex shape)
      pure (flat.map Int.ofNat, ls.map List.length)
  | .slice a b s => match shape with
    | [] => .error .index
    | n :: _ => do
      let l ← sliceToList a b s n
      pure (l, [l.length])
  | .int k => .ok ([k], [1])
  | .other => .error .type

/-- csdl/lang/concatenation.py:58-149 `x[key] = var`.  Returns the state the object is left in and the exception, if any. -/
def setItem (c : Concat) (key : Key) (var : Rhs) : Concat × Option IErr :=
  match tgtIndices c.shape key with
  | .error e => (c, some e)
  | .ok (idx, shp) =>
    if shp ≠ var.shape then (c, some .value)
    else if idx.any (fun i => decide ((c.shape.size : Int) ≤ i)) then (c, some .value)
    else if c.tgt.has var.name then (c, some .key)
    else
      let overlapping := c.checked.filter (fun i => i ∈ idx)
      let c := { c with tgt := c.tgt.set var.name idx, checked := c.checked ++ idx }
      if overlapping ≠ [] then (c, some .value)
      else ({ c with deps := match c.deps with | none => some [var.id] | some d => some (d ++ [var.id]) }, none)

/-- A history of assignments; exceptions are caught by the caller. -/
def runSets (c : Concat) (ops : List (Key × Rhs)) : Concat := ops.foldl (fun c kv => (setItem c kv.1 kv.2).1) c

end Csdl
