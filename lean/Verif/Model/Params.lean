import Verif.Model.Dict
import Verif.Model.Names
/-
Model of csdl/utils/parameters.py:31-511 (`Parameters`).
-/
namespace Csdl.Params
open Csdl

/-- What the code uses of Python values (`V`) and types (`T`): `==`, `is None`, `isinstance(v, t)`, `v > w` and `v < w` (`none`: TypeError), `True`, `False`, and whether a type is `bool`. -/
structure Py (V T : Type) where
  eq : V → V → Bool
  isNone : V → Bool
  isInst : V → T → Bool
  gt : V → V → Option Bool
  lt : V → V → Option Bool
  ofBool : Bool → V
  isBool : T → Bool

/-- The argument `types`: a type, a tuple of types, or a list or set of types (for which `isinstance` raises TypeError). -/
inductive Types (T : Type) where
  | one (t : T)
  | tuple (l : List T)
  | list (l : List T)

/-- Exceptions; `check`: whatever the user's `check_valid` raises. -/
inductive PErr where
  | key | runtime | type | value | check
  deriving DecidableEq, Repr

/-- The arguments of `declare` (csdl/utils/parameters.py:303-315), `default = none` is `_UNDEFINED`.  `check` is `check_valid`: true if it does not raise. -/
structure Decl (V T : Type) where
  default : Option V := none
  values : Option (List V) := none
  types : Option (Types T) := none
  upper : Option V := none
  lower : Option V := none
  check : Option (V → Bool) := none
  allowNone : Bool := false
  recordable : Bool := true

/-- An entry of `_dict` (csdl/utils/parameters.py:379-390): `val`, `has_been_set`, and the rest as in the declaration.  `val = none` is `_UNDEFINED`. -/
structure Meta (V T : Type) where
  val : Option V
  set : Bool
  decl : Decl V T

/-- A `Parameters` object (csdl/utils/parameters.py:52-67). -/
structure Params (V T : Type) where
  readOnly : Bool := false
  dict : Dict Name (Meta V T) := []
  allRecordable : Bool := true

variable {V T : Type}

/-- `isinstance(value, types)`; `none`: TypeError -/
def isInstance (py : Py V T) (v : V) : Types T → Option Bool
  | .one t => some (py.isInst v t)
  | .tuple l => some (l.any (py.isInst v ·))
  | .list _ => none

/-- csdl/utils/parameters.py:253-260 and 261-282: the check of `values`, else of `types` -/
def checkKind (py : Py V T) (d : Decl V T) (v : V) : Option PErr :=
  match d.values, d.types with
  | some l, _ => if l.any (py.eq v ·) then none else some .value
  | none, some t =>
    match isInstance py v t with
    | some true => none
    | _ => some .type
  | none, none => none

/-- csdl/utils/parameters.py:284-297: one bound; `cmp` says whether the value is beyond it -/
def checkBound (cmp : V → V → Option Bool) (v : V) : Option V → Option PErr
  | none => none
  | some b =>
    match cmp v b with
    | some false => none
    | some true => some .value
    | none => some .type

/-- csdl/utils/parameters.py:299-301: the user's check -/
def checkUser (v : V) : Option (V → Bool) → Option PErr
  | none => none
  | some c => if c v then none else some .check

/-- csdl/utils/parameters.py:231-301 `_assert_valid`: the exception, if any (`a.or b`: that of `a`, else that of `b`).  Not modelled: at lines 257 and 267 the local name `value` is replaced for the message, just
before raising. -/
def assertValid (py : Py V T) (d : Decl V T) (v : V) : Option PErr :=
  (if py.isNone v && d.allowNone then none else (checkKind py d v).or ((checkBound py.gt v d.upper).or (checkBound py.lt v d.lower))).or (checkUser v d.check)

/-- `types is bool` -/
def typesIsBool (py : Py V T) : Option (Types T) → Bool
  | some (.one t) => py.isBool t
  | _ => false

/-- csdl/utils/parameters.py:367-377: the declaration as stored -/
def storedDecl (py : Py V T) (d : Decl V T) : Decl V T :=
  { d with values := if typesIsBool py d.types then some [py.ofBool true, py.ofBool false] else d.values
           allowNone := d.allowNone || (match d.default with | some v => py.isNone v | none => false) }

/-- csdl/utils/parameters.py:303-394 `declare`.  Not modelled: lines 348-360, where `values` or `types` is neither None nor of a listed type (TypeError, nothing changed). -/
def declare (py : Py V T) (p : Params V T) (name : Name) (d : Decl V T) : Params V T × Option PErr :=
  if d.types.isSome && d.values.isSome then (p, some .runtime)
  else
    let m : Meta V T := ⟨d.default, d.default.isSome, storedDecl py d⟩
    ({ p with dict := p.dict.set name m, allRecordable := p.allRecordable && d.recordable }, d.default.bind fun v => assertValid py m.decl v)

/-- csdl/utils/parameters.py:396-407 `undeclare` -/
def undeclare (p : Params V T) (name : Name) : Params V T := { p with dict := p.dict.pop name }

/-- csdl/utils/parameters.py:448-474 `__setitem__` -/
def setItem (py : Py V T) (p : Params V T) (name : Name) (v : V) : Params V T × Option PErr :=
  match p.dict.get? name with
  | none => (p, some .key)
  | some m =>
    if p.readOnly then (p, some .key)
    else match assertValid py m.decl v with
      | some e => (p, some e)
      | none => ({ p with dict := p.dict.set name ⟨some v, true, m.decl⟩ }, none)

/-- csdl/utils/parameters.py:409-419 `update` -/
def update (py : Py V T) : Params V T → List (Name × V) → Params V T × Option PErr
  | p, [] => (p, none)
  | p, (n, v) :: l =>
    match setItem py p n v with
    | (p, none) => update py p l
    | (p, some e) => (p, some e)

/-- csdl/utils/parameters.py:476-501 `__getitem__`; `some none` is the object `_UNDEFINED` -/
def getItem (p : Params V T) (name : Name) : Except PErr (Option V) :=
  match p.dict.get? name with
  | none => .error .key
  | some m => if m.set then .ok m.val else .error .runtime

/-- csdl/utils/parameters.py:421-430 `__iter__`: the names, in order -/
def iter (p : Params V T) : List Name := p.dict.keys

/-- csdl/utils/parameters.py:432-446 `__contains__` -/
def contains (p : Params V T) (name : Name) : Bool := (p.dict.get? name).isSome

/-- csdl/utils/parameters.py:503-511 `items`; the value `none` is the object `_UNDEFINED`.  Every entry has a key `val` (line 380). -/
def items (p : Params V T) : List (Name × Option V) := p.dict.map fun e => (e.1, e.2.val)

/-- csdl/utils/parameters.py:69-88 `__getstate__`, used by `pickle` and `copy.deepcopy`: the restored object.  Not modelled: copies of the values themselves. -/
def saved (p : Params V T) : Params V T :=
  if p.allRecordable then p else { p with dict := p.dict.filter fun e => e.2.decl.recordable }

/-- A call that changes the options. -/
inductive PCall (V T : Type) where
  | declare (name : Name) (d : Decl V T)
  | undeclare (name : Name)
  | set (name : Name) (v : V)

def step (py : Py V T) (p : Params V T) : PCall V T → Params V T × Option PErr
  | .declare n d => declare py p n d
  | .undeclare n => (undeclare p n, none)
  | .set n v => setItem py p n v

/-- the state after a sequence of calls, whether they raise or not, and which of them succeeded (newest first) -/
def run (py : Py V T) : Params V T → List (PCall V T × Bool) → List (PCall V T) → Params V T × List (PCall V T × Bool)
  | p, h, [] => (p, h)
  | p, h, c :: cs => run py (step py p c).1 ((c, (step py p c).2.isNone) :: h) cs

end Csdl.Params
