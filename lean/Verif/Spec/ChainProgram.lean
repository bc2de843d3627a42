import Verif.Spec.Program
import Verif.Spec.Chain
/-
Specification for C95: solutions of programs in which the source of a connection may be the target of another one.
-/
namespace Csdl.Prog
open Csdl Csdl.Arith
variable {K F : Type}

/-- A variable of the program has a value of its own, `own`, and a value that the statements which use it get, `read`.  They solve the program if every statement that matters (unary plus creates nothing new) holds as an equation between what
is read and its result; variables that are one and the same (`Alias`) have both values in common; variables with the same promoted name have the same value of their own; what is read of a variable with a name is the value of the
variable to which the connections lead (`ReadsAs`), and what is read of a variable without a name is its value. -/
structure ChainSolution [Field K] (P : Power K) (den : F → List (Val K) → Nat → Val K) (b : Body K F) (own read : List Name → Nat → Val K) : Prop where
  expr : ∀ path b', BAt b path b' → ∀ n i, b'.Has n (.expr i) → b'.Live n → (∀ x, i ≠ .pos x) → own path n = i.meaning P ((List.range n).map (read path))
  call : ∀ path b', BAt b path b' → ∀ n f args outs, b'.Has n (.call f args outs) → ∀ j < outs.length, b'.Live (n + j) → own path (n + j) = den f (args.map (read path)) j
  index : ∀ path b', BAt b path b' → ∀ n x key, b'.Has n (.index x key) → b'.Live n → own path n = part (b'.shapes.getD x []) key (read path x)
  output : ∀ path b', BAt b path b' → ∀ y name shape val, b'.Has y (.output name shape val) →
    (∀ key x idx shp, b'.Assigned y key x → tgtIndices shape key = .ok (idx, shp) → ∀ i j : _, idx[j]? = some (ravel shape i : Int) → own path y i = read path x (unravel shp j)) ∧
    ∀ i, (∀ key x idx shp, b'.Assigned y key x → tgtIndices shape key = .ok (idx, shp) → (ravel shape i : Int) ∉ idx) → own path y i = val i
  same : ∀ path b', BAt b path b' → ∀ x y, b'.Live x → b'.Live y → Alias (b'.stmts 0) x y → own path x = own path y ∧ read path x = read path y
  shared : ∀ path x path' y p, HasName b path x p → HasName b path' y p → own path x = own path' y
  reads : ∀ path x path' y p q, HasName b path x p → ReadsAs b.toModel p q → HasName b path' y q → read path x = own path' y
  unnamed : ∀ path b', BAt b path b' → ∀ x, b'.Live x → (∀ z p, Alias (b'.stmts 0) x z → ¬ HasName b path z p) → read path x = own path x

/-- The two variables have the same value of their own: they have the same promoted name, or are one and the same. -/
inductive SameOwn (b : Body K F) : List Name × Nat → List Name × Nat → Prop
  | name {path path' : List Name} {x y : Nat} (p : Name) : HasName b path x p → HasName b path' y p → SameOwn b (path, x) (path', y)
  | «alias» {path : List Name} {x y : Nat} (b' : Body K F) : BAt b path b' → b'.Live x → b'.Live y → Alias (b'.stmts 0) x y → SameOwn b (path, x) (path, y)

/-- The variable `x` of the model at `path` matters, and no statement that matters computes it (or a variable with the same name): its own value must be given. -/
def GivenOwn (b : Body K F) (path : List Name) (x : Nat) : Prop :=
  (∃ b', BAt b path b' ∧ b'.Live x) ∧ ∀ path' b' n s y, BAt b path' b' → b'.Has n s → s.Computes → n ≤ y → y < n + s.count → b'.Live y → ¬ Relation.EqvGen (SameOwn b) (path, x) (path', y)

end Csdl.Prog
