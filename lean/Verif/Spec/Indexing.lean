import Verif.Model.Indexing
import Mathlib.Data.List.Forall2
/-
Specification of Python/NumPy basic slicing (Python language reference, `slice.indices`) and of row-major order.
-/
namespace Csdl

/-- `x` comes before the end `b` of a slice with step `s`. -/
def Before (s x b : Int) : Prop := if 0 < s then x < b else b < x

/-- `(a, b)` are the bounds of the slice `start:stop:step` of an axis of length `n`: negative bounds count from the end; bounds
are clipped to the axis; missing bounds are the ends of the axis. -/
structure SliceBounds (n : Nat) (start stop : Option Int) (step a b : Int) : Prop where
  start_eq : a = match start with
    | some x =>
      if 0 < step then (if x < 0 then max 0 (x + n) else min x n)
      else (if x < 0 then max (-1) (x + n) else min x (n - 1))
    | none => if 0 < step then 0 else (n : Int) - 1
  stop_eq : b = match stop with
    | some x =>
      if 0 < step then (if x < 0 then max 0 (x + n) else min x n)
      else (if x < 0 then max (-1) (x + n) else min x (n - 1))
    | none => if 0 < step then (n : Int) else -1

/-- `L` is the list of positions selected by the slice `start:stop:step` of an axis of length `n`: `a, a + step, a + 2*step, ...`
as long as the end is not reached. -/
def Selects (n : Nat) (start stop : Option Int) (step : Int) (L : List Int) : Prop :=
  ∃ a b, SliceBounds n start stop step a b ∧
    (∀ (i : Nat) (x : Int), L[i]? = some x → x = a + (i : Int) * step ∧ Before step x b) ∧
    ¬ Before step (a + (L.length : Int) * step) b

/-- `idx` is a valid multi-index of an array of shape `shape`. -/
def ValidIdx (shape : Shape) (idx : List Nat) : Prop := List.Forall₂ (fun i n => i < n) idx shape

/-- `sel` selects, on each axis, the positions of the slice in `key`. -/
def SelectsAll (shape : Shape) (key : NKey) (sel : List (List Int)) : Prop :=
  List.Forall₂ (fun (nk : Nat × (Int × Int × Option Int)) L => Selects nk.1 (some nk.2.1) (some nk.2.2.1) (nk.2.2.2.getD 1) L)
    (shape.zip key) sel ∧ key.length = shape.length

/-- `L` is the list of positions that an element of a key selects on an axis of length `n`: an int selects one position (negative ints
count from the end), a slice selects the positions of the slice. -/
def ElemSelects (n : Nat) (e : KeyElem) (L : List Int) : Prop :=
  match e with
  | .int k => -(n : Int) ≤ k ∧ k < n ∧ L = [if k < 0 then (n : Int) + k else k]
  | .slice a b s => Selects n a b (s.getD 1) L
  | .other => False

/-- The elements of a key: `x[k]` is `x[k,]`. -/
def Key.elems : Key → List KeyElem
  | .int k => [.int k]
  | .slice a b s => [.slice a b s]
  | .tuple l => l
  | .other => [.other]

/-- `sel` lists the positions that `key` selects on each axis of an array of shape `shape`, with one key element per axis. -/
def KeySelects (shape : Shape) (key : Key) (sel : List (List Int)) : Prop :=
  key.elems.length = shape.length ∧
    List.Forall₂ (fun (ne : Nat × KeyElem) L => ElemSelects ne.1 ne.2 L) (shape.zip key.elems) sel

/-- Element `j` of each list of positions, as a multi-index of the array. -/
def pick (sel : List (List Int)) (j : List Nat) : List Nat := List.zipWith (fun L i => (L.getD i 0).toNat) sel j

end Csdl
