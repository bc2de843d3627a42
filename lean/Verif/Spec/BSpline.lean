import Mathlib.Algebra.Order.Field.Basic
import Mathlib.Algebra.BigOperators.Group.List.Basic
/-
What a B-spline basis matrix is, independently of how csdl computes it: the Cox-de Boor recursion on the clamped uniform knot vector.
-/
namespace Csdl.BSpline

variable {K : Type} [Field K] [LinearOrder K]

/-- The clamped uniform knot vector on [0, 1] for `n` control points and order `k`: `k` zeros, `n - k` equally spaced interior knots, and ones. -/
def knot (n k : Nat) (i : Nat) : K :=
  if i < k then 0 else if i < n then ((i - (k - 1) : Nat) : K) / ((n - k + 1 : Nat) : K) else 1

/-- The B-spline basis functions (Cox-de Boor), with `0/0 = 0`; the last nonempty interval is closed on the right. -/
def coxDeBoor (κ : Nat → K) (t : K) : Nat → Nat → K
  | 0, i => if (κ i ≤ t ∧ t < κ (i + 1)) ∨ (t = 1 ∧ κ i < κ (i + 1) ∧ κ (i + 1) = 1) then 1 else 0
  | p + 1, i =>
    (t - κ i) / (κ (i + p + 1) - κ i) * coxDeBoor κ t p i
      + (κ (i + p + 2) - t) / (κ (i + p + 2) - κ (i + 1)) * coxDeBoor κ t p (i + 1)

/-- The matrix given by a list of entries (value, row, column); entries at the same position are added. -/
def dense (es : List (K × Nat × Int)) (r c : Nat) : K :=
  ((es.filter fun e => decide (e.2.1 = r ∧ e.2.2 = (c : Int))).map (·.1)).sum

/-- The `r`-th of `m` equally spaced points of [0, 1]. -/
def point (m r : Nat) : K := (r : K) / ((m - 1 : Nat) : K)

end Csdl.BSpline
