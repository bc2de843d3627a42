import Verif.Spec.Indexing
/-
What C22 talks about: the assignments of a history that were accepted.
-/
namespace Csdl

/-- The flat indices an assignment asks for (`[]` if the key is rejected). -/
def wanted (shape : Shape) (key : Key) : List Int :=
  match tgtIndices shape key with
  | .ok r => r.1
  | .error _ => []

/-- `[a]` if there was no exception. -/
def entryOf {α : Type} (e : Option IErr) (a : α) : List α :=
  match e with
  | none => [a]
  | some _ => []

/-- The assignments that did not raise, in order: flat indices and variable.  `c` is the state before the history. -/
def accepted (c : Concat) : List (Key × Rhs) → List (List Int × Rhs)
  | [] => []
  | (k, v) :: rest =>
    entryOf (setItem c k v).2 (wanted c.shape k, v) ++ accepted (setItem c k v).1 rest

/-- A new output of the given shape, no element of which has been assigned. -/
def Concat.fresh (shape : Shape) : Concat := { shape := shape }

/-- The element of an array with `n` elements that a flat index denotes (negative: from the end). -/
def element (n : Nat) (i : Int) : Int := if i < 0 then (n : Int) + i else i

end Csdl
