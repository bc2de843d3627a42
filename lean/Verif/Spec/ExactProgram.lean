import Verif.Spec.Exact
import Verif.Spec.ValidProgram
/-
Specification for C104: exactly which programs are accepted.
-/
namespace Csdl.Prog
open Csdl Csdl.Arith
variable {K F : Type}

/-- The connection from `src` to `tgt` is acceptable: as a valid one, but a declared variable named like the target is compared only if no input has this name. -/
def ConnectionAccepted (b : Body K F) (src tgt : Name) : Prop :=
  ∃ p q, Denotes b.toModel src p ∧ Denotes b.toModel tgt q ∧ (∃ path w, PromotedAs b.toModel path .source w p) ∧ (∃ path x, HasName b path x q) ∧
    (∀ path b' w, BAt b path b' → w ∈ b'.locals.outputs → ¬ PromotedAs b.toModel path .source w q) ∧
    ∀ path w k' path' w', PromotedAs b.toModel path .source w p → PromotedAs b.toModel path' k' w' q → (k' = .source ∨ ∀ path2 w2, ¬ PromotedAs b.toModel path2 .source w2 q) → w.shape.size = w'.shape.size

/-- A program is acceptable.  This differs from a valid program in three points: the numbers of elements of an input or output and a declared variable of the same name are compared only if one belongs to a model
that contains the model of the other; a promoted name only has to be a name of the model that contains the submodel; connections are compared as above. -/
structure AcceptableProgram [Zero K] (b : Body K F) : Prop where
  methods : ∀ path b', BAt b path b' → MethodOk b'
  oneSource : ∀ path b', BAt b path b' → ∀ p path1 v1 path2 v2, PromotedAs b'.toModel path1 .source v1 p → PromotedAs b'.toModel path2 .source v2 p → path1 = path2
  sizes : ∀ path b', BAt b path b' → ∀ p k1 path1 v1 k2 path2 v2, PromotedAs b'.toModel path1 k1 v1 p → PromotedAs b'.toModel path2 k2 v2 p → path1 ≠ path2 → Compared k1 path1 k2 path2 → v1.shape.size = v2.shape.size
  promotes : ∀ path b', BAt b path b' → ∀ n q sub, (n, some q, sub) ∈ b'.subs → ∀ x ∈ q, '.' ∉ x ∧ ∃ path' k v, PromotedAs b'.toModel path' k v x
  connections : ∀ path b' a c, BAt b path b' → (a, c) ∈ b'.locals.connections → ConnectionAccepted b (fullName path a) (fullName path c)
  oneConnection : (issuedPost Local.connections b.toModel).Pairwise fun i j => ∀ q, Denotes b.toModel (fullName i.1 i.2.2) q → ¬ Denotes b.toModel (fullName j.1 j.2.2) q
  acyclic : ¬ CircularProgram b

/-- A variable declared more than once in a method is declared with the same number of elements (csdl keeps the last declaration only). -/
def ConsistentDeclarations (b : Body K F) : Prop :=
  ∀ path b', BAt b path b' → ∀ v ∈ b'.locals.declared, ∀ w ∈ b'.locals.declared, v.name = w.name → v.shape.size = w.shape.size

end Csdl.Prog
