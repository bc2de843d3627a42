import Mathlib.Data.Int.Log
import Mathlib.Data.Rat.Floor
/-
The value column of the report that is written with `analytics=True`: csdl/utils/format_number.py and the lines of csdl/rep/construct_flat_graph.py that use it.

Numbers are rational numbers: the exact values of the floating-point numbers.  Not modelled: nan, infinities, the negative zero, and the rounding errors of `np.average`.
-/
namespace Csdl.FormatNumber

/-- the nearest integer, of two the even one: how Python's format codes `e` and `f` round (library; called from csdl/utils/format_number.py:5, 7, 9) -/
def roundHalfEven (q : ℚ) : ℤ :=
  let f := ⌊q⌋
  if q - f < 1 / 2 then f else if 1 / 2 < q - f then f + 1 else if f % 2 = 0 then f else f + 1

/-- the decimal digits of `n`, with zeros in front up to `w` digits (library; see csdl/utils/format_number.py:5-9) -/
def padded (w n : Nat) : List Char := List.replicate (w - (Nat.toDigits 10 n).length) '0' ++ Nat.toDigits 10 n

/-- csdl/utils/format_number.py:7 `"{:.3f}".format(q)` for `0 ≤ q` -/
def fixed3 (q : ℚ) : List Char :=
  let m := (roundHalfEven (q * 1000)).toNat
  Nat.toDigits 10 (m / 1000) ++ '.' :: padded 3 (m % 1000)

/-- csdl/utils/format_number.py:5, 9 `"{:.2e}".format(q)` for `0 < q`: three digits; the exponent has a sign and at least two digits -/
def scientific2 (q : ℚ) : List Char :=
  let e := Int.log 10 q
  let m := (roundHalfEven (q / 10 ^ (e - 2))).toNat
  let p : Nat × ℤ := if m = 1000 then (100, e + 1) else (m, e)
  Nat.toDigits 10 (p.1 / 100) ++ '.' :: (padded 2 (p.1 % 100) ++ 'e' :: (if p.2 < 0 then '-' else '+') :: padded 2 p.2.natAbs)

/-- the text with its sign -/
def signed (x : ℚ) (text : ℚ → List Char) : List Char := (if x < 0 then ['-'] else []) ++ text |x|

/-- Python's `s.replace(old, new)`; `skip` characters are left out first -/
def replaceFrom (old new : List Char) : Nat → List Char → List Char
  | _, [] => []
  | skip + 1, _ :: s => replaceFrom old new skip s
  | 0, c :: s => if old.isPrefixOf (c :: s) then new ++ replaceFrom old new (old.length - 1) s else c :: replaceFrom old new 0 s

/-- Python's `s.replace(old, new)` -/
def replace (s old new : List Char) : List Char := replaceFrom old new 0 s

/-- csdl/utils/format_number.py:1-14 `format_number` -/
def formatNumber (x : ℚ) : List Char :=
  let s :=
    if x = 0 then "0.0".toList                       -- lines 2-3
    else if |x| < 1 then signed x scientific2        -- lines 4-5
    else if |x| < 10 then signed x fixed3            -- lines 6-7
    else signed x scientific2                        -- lines 8-9
  let s := replace s "e-0".toList "e-".toList        -- line 10
  let s := replace s "e-".toList "e-".toList         -- line 11
  let s := replace s "e+0".toList "e".toList         -- line 12
  replace s "e+".toList "e".toList                   -- line 13

/-- what the report knows about a variable: csdl/rep/construct_flat_graph.py:619-638 -/
inductive Column where
  /-- a declared variable; `none`: its value is the default -/
  | declared (val : Option (List ℚ))
  /-- an input -/
  | input (val : List ℚ)
  /-- any other variable -/
  | other

/-- numpy `np.average(val)` -/
def average (val : List ℚ) : ℚ := val.sum / val.length

/-- csdl/rep/construct_flat_graph.py:623-638: the text of the value column -/
def valueText : Column → List Char
  | .declared (some val) => formatNumber (average val)
  | .declared none => "default".toList
  | .input val => formatNumber (average val)
  | .other => []

end Csdl.FormatNumber
