import Verif.Spec.Compile
/-
Specification for C95: what connections mean in general, when the target of a connection may also be the source of another one.
-/
namespace Csdl

/-- Walk through the connections `cs` in their order, starting at the variable with the promoted name `p`: whenever the current variable is the target of the connection, go on with its source.
`q` is the promoted name of the variable at the end. -/
inductive Follows (m : Model) : List (List Name × Name × Name) → Name → Name → Prop
  | stop (p : Name) : Follows m [] p p
  | other {path : List Name} {a b : Name} {cs : List (List Name × Name × Name)} {p q : Name} : ¬ Denotes m (fullName path b) p → Follows m cs p q → Follows m ((path, a, b) :: cs) p q
  | target {path : List Name} {a b : Name} {cs : List (List Name × Name × Name)} {p s q : Name} : Denotes m (fullName path b) p → Denotes m (fullName path a) s → Follows m cs s q →
      Follows m ((path, a, b) :: cs) p q

/-- Operations that use the variable with promoted name `p` get the value of the variable with promoted name `q`: the connections of all models are walked through once, those of submodels first. -/
def ReadsAs (m : Model) (p q : Name) : Prop := Follows m (issuedPost Local.connections m) p q

/-- A variable has a value of its own, `own x`, and a value that the operations which use it get, `read x`.  They solve the hierarchy if: results of operations are computed from what the operations read;
variables with the same promoted name have the same value of their own; what is read of a variable is the value of the variable to which the connections lead; what is read of a variable without name (an
intermediate result) is its value. -/
structure ChainSolution {V : Type} (m : Model) (I : NHeap) (g : Graph) (kids : Kids) (O : Interp V) (own read : Env V) : Prop where
  ops : ∀ path g' ks', HierAt g kids path g' ks' → ∀ n v, g'.Edge n v → (I n).kind = .op → own v = O.fn n ((O.args n).map read) v
  shared : ∀ x y p, HasPromotedName m I g kids x p → HasPromotedName m I g kids y p → own x = own y
  reads : ∀ x y p q, HasPromotedName m I g kids x p → ReadsAs m p q → HasPromotedName m I g kids y q → read x = own y
  unnamed : ∀ x, IsVarOf I g kids x → (∀ p, ¬ HasPromotedName m I g kids x p) → read x = own x

/-- The same for a hierarchy of model objects: `fn` is the meaning of the operations. -/
structure ObjChainSolution {V : Type} (H : Objs) (root : OModel) (fn : Nat → List V → Nat → V) (own read : Nat → V) : Prop where
  ops : ∀ path m, OAt H root path m → ∀ op, m.Needs H op → (H op).kind = .op → ∀ v ∈ (H op).outs, own v = fn op ((H op).deps.map read) v
  shared : ∀ x y p, NamedVar H root x p → NamedVar H root y p → own x = own y
  reads : ∀ x y p q, NamedVar H root x p → ReadsAs (root.toModel H) p q → NamedVar H root y q → read x = own y
  unnamed : ∀ path m, OAt H root path m → ∀ x, (H x).kind = .var → m.Uses H x → (∀ p, ¬ NamedVar H root x p) → read x = own x

end Csdl
