import Verif.Model.Implicit
import Mathlib.Logic.Relation
/-
Specification for C34-C36.
-/
namespace Csdl

/-- The variable `v` is computed by an operation that reads `w`. -/
def Reads (h : Heap) (v w : Nat) : Prop := ∃ op ∈ (h v).deps, w ∈ (h op).deps

/-- `v` depends on `w`, through one or more operations. -/
def DependsVar (h : Heap) : Nat → Nat → Prop := Relation.TransGen (Reads h)

/-- `t` is a variable that depends on nothing. -/
def Terminal (h : Heap) (t : Nat) : Prop := (h t).kind = .var ∧ (h t).deps = []

/-- The model has finitely many objects (below `n`). -/
def FiniteVars (h : Heap) (n : Nat) : Prop := ∀ v, v < n → ∀ w, Reads h v w → w < n

/-- The variable `r` does not depend on another variable with its own name. -/
def OwnName (h : Heap) (r : Nat) : Prop := ∀ w, DependsVar h r w → (h w).name = (h r).name → w = r

end Csdl
