import Verif.Spec.Print
/-
Specification for C99: replacing the method of one model by another one that computes the same.
-/
namespace Csdl.Prog
open Csdl Csdl.Arith
variable {K F : Type}

/-- Values of the variables of one method satisfy its statements (those that matter); variables with the same name have the same value. -/
structure MethodSolution [Field K] (P : Power K) (den : F → List (Val K) → Nat → Val K) (c : Body K F) (ρ : Nat → Val K) : Prop where
  expr : ∀ n i, c.Has n (.expr i) → c.Live n → ρ n = i.meaning P ((List.range n).map ρ)
  call : ∀ n f args outs, c.Has n (.call f args outs) → ∀ j < outs.length, c.Live (n + j) → ρ (n + j) = den f (args.map ρ) j
  index : ∀ n x key, c.Has n (.index x key) → c.Live n → ρ n = part (c.shapes.getD x []) key (ρ x)
  output : ∀ y name shape val, c.Has y (.output name shape val) →
    (∀ key x idx shp, c.Assigned y key x → tgtIndices shape key = .ok (idx, shp) → ∀ i j : _, idx[j]? = some (ravel shape i : Int) → ρ y i = ρ x (unravel shp j)) ∧
    ∀ i, (∀ key x idx shp, c.Assigned y key x → tgtIndices shape key = .ok (idx, shp) → (ravel shape i : Int) ∉ idx) → ρ y i = val i
  named : ∀ x y name, c.Live x → c.Named x name → c.Live y → c.Named y name → ρ x = ρ y

/-- The methods have the same inputs, outputs, declared variables, connections and submodels, and variables of the same names matter. -/
structure SameInterface (c c' : Body K F) : Prop where
  locals : c.locals = c'.locals
  subs : c.subs = c'.subs
  matters : ∀ name, (∃ x, c.Live x ∧ c.Named x name) ↔ ∃ y, c'.Live y ∧ c'.Named y name

/-- `c'` computes the same as `c`: whatever values satisfy the statements of `c'`, there are values that satisfy those of `c` and agree with them on the variables that have names. -/
def Refines [Field K] (P : Power K) (den : F → List (Val K) → Nat → Val K) (c c' : Body K F) : Prop :=
  ∀ ρ', MethodSolution P den c' ρ' → ∃ ρ, MethodSolution P den c ρ ∧ ∀ name x y, c.Live x → c.Named x name → c'.Live y → c'.Named y name → ρ x = ρ' y

/-- A statement of the method that matters computes the variable `z` from the variable `x`, or assigns `x` to a part of `z`. -/
def MethodFeeds (c : Body K F) (x z : Nat) : Prop :=
  (∃ n s, c.Has n s ∧ s.Computes ∧ n ≤ z ∧ z < n + s.count ∧ c.Live z ∧ x ∈ s.operands) ∨ ∃ name shape val key, c.Has z (.output name shape val) ∧ c.Assigned z key x

/-- Two variables of a method are the same: by unary plus or as equal parts of one variable, or they have the same name. -/
def MethodSame (c : Body K F) (x y : Nat) : Prop := c.Live x ∧ c.Live y ∧ (Alias (c.stmts 0) x y ∨ ∃ name, c.Named x name ∧ c.Named y name)

/-- `z` is computed from `x` by statements of the method. -/
def MethodUses (c : Body K F) : Nat → Nat → Prop := Relation.TransGen fun a z => ∃ a', Relation.EqvGen (MethodSame c) a a' ∧ MethodFeeds c a' z

/-- In the method, the variable named `m` is computed from the variable named `n`. -/
def NameUses (c : Body K F) (n m : Name) : Prop := ∃ x z y, c.Live x ∧ c.Named x n ∧ MethodUses c x z ∧ Relation.EqvGen (MethodSame c) z y ∧ c.Live y ∧ c.Named y m

/-- In `c'`, nothing is computed from itself, and variables with names are computed from no other variables with names than in `c`. -/
structure NoNewDependencies (c c' : Body K F) : Prop where
  acyclic : ∀ x, ¬ MethodUses c' x x
  names : ∀ n m, NameUses c' n m → NameUses c n m

end Csdl.Prog
