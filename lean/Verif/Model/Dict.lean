/-
Python dictionaries as insertion-ordered association lists.
-/
namespace Csdl

/-- A Python `dict`: key/value pairs in insertion order. -/
abbrev Dict (κ ν : Type) := List (κ × ν)

namespace Dict
variable {κ ν : Type} [DecidableEq κ]

/-- `d.get(k)` -/
def get? : Dict κ ν → κ → Option ν
  | [], _ => none
  | (k', v) :: d, k => if k' = k then some v else get? d k

/-- `d[k] = v`: replaces the value in place if the key is present, otherwise appends. -/
def set : Dict κ ν → κ → ν → Dict κ ν
  | [], k, v => [(k, v)]
  | (k', v') :: d, k, v => if k' = k then (k', v) :: d else (k', v') :: set d k v

/-- `d.keys()` -/
def keys (d : Dict κ ν) : List κ := d.map Prod.fst

/-- `k in d` -/
def has (d : Dict κ ν) (k : κ) : Bool := (get? d k).isSome

/-- `d.update(e)` (also `dict(d, **e)`) -/
def update (d e : Dict κ ν) : Dict κ ν := e.foldl (fun d kv => set d kv.1 kv.2) d

/-- `{k: v for ...}`: a dict comprehension, later entries win. -/
def ofPairs (l : List (κ × ν)) : Dict κ ν := update [] l

/-- `d.pop(k)` / `del d[k]` for a key that is present. -/
def pop (d : Dict κ ν) (k : κ) : Dict κ ν := d.filter fun kv => kv.1 ≠ k

end Dict
end Csdl
