/-
Model of the name-handling utilities of csdl.

Strings are modelled as lists of characters (`Name`), so that `'.' in s`,
concatenation and equality are literally those of the Python code.
-/
namespace Csdl

/-- Python `str`, as the list of its characters. -/
abbrev Name := List Char

/-- csdl/utils/gen_hex_name.py:17 `char_set`. -/
def charSet : List Char :=
  "0123456789abcdefghijklmnopqrstuvwxyzABCDEFGHIJKLMNOPQRSTUVWXYZ_".toList

/-- csdl/utils/gen_hex_name.py:18 `base = len(char_set)`. -/
def hexBase : Nat := 63

/-- csdl/utils/gen_hex_name.py:25-32, the `while` loop.  The state is
`num`, `string_rep` and `prefix`; the result is line 34.
Simplification: `int(num / base)` is a float division in Python, exact for
`num < 63 * 2^53`; the model divides natural numbers exactly. -/
def genHexLoop (num : Nat) (stringRep pfx : Name) : Name :=
  let remainder := num % hexBase
  let num' := (num - remainder) / hexBase
  let stringRep' := charSet.getD remainder '0' :: stringRep
  let pfx' := pfx.dropLast
  if num' = 0 then pfx' ++ stringRep' else genHexLoop num' stringRep' pfx'
termination_by num
decreasing_by
  rename_i h0
  simp only [num', remainder, hexBase] at h0 ⊢
  omega

/-- csdl/utils/gen_hex_name.py:2-34 `gen_hex_name`. -/
def genHexName (num : Nat) : Name := genHexLoop num [] "_0000".toList

/-- csdl/utils/prepend_namespace.py:1-2 `prepend_namespace`. -/
def prependNamespace (namespace_ name : Name) : Name :=
  if namespace_ = [] then name else namespace_ ++ '.' :: name

/-- csdl/utils/check_banned_chars.py:3-12: `true` iff the name is accepted (no
ValueError).  Simplification: Python's `isalnum` also accepts non-ASCII letters
and digits; the model has the ASCII ones. -/
def checkBannedChars (s : Name) : Bool :=
  s.all fun c => c.isAlphanum || c == '_'

/-- csdl/rep/resolve_promotions.py:78-82, csdl/rep/collect_connections.py:30-33 and
csdl/rep/construct_flat_graph.py:192,230-237: the namespace of a submodel reached by
the path of submodel names `path` from a model with namespace `ns`. -/
def descend (ns : Name) : List Name → Name
  | [] => ns
  | s :: path => descend (prependNamespace ns s) path

/-- csdl/rep/construct_flat_graph.py:192-197: the unpromoted name of variable `x`
defined in the model at `path` below the main model. -/
def unpromotedName (path : List Name) (x : Name) : Name :=
  prependNamespace (descend [] path) x

end Csdl
