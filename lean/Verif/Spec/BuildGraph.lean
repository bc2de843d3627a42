import Verif.Model.BuildGraph
import Verif.Spec.Graph
/-
Specification for C26-C28: what the outputs of a model depend on.
-/
namespace Csdl

/-- `v` is declared to depend on `u`: `u` is a dependency of `v`, or `v` is an output of the operation `u`. -/
def DependsOn (h : Heap) (v u : Nat) : Prop := u ∈ (h v).deps ∨ ((h u).kind = .op ∧ v ∈ (h u).outs)

/-- Everything the given variables depend on, with all outputs of the operations involved. -/
inductive Needed (h : Heap) (leaves : List Nat) : Nat → Prop
  | leaf (c : Nat) : c ∈ leaves → Needed h leaves c
  | dep (v u : Nat) : Needed h leaves v → u ∈ (h v).deps → Needed h leaves u
  | out (u v : Nat) : Needed h leaves u → (h u).kind = .op → v ∈ (h u).outs → Needed h leaves v

/-- The objects of the model are variables and operations; operations have names of their own; no object has the name of a submodel.
(Several declared variables of a model may have the same name: they are the same variable for the user.) -/
structure NamesOk (h : Heap) (subs inputs leaves : List Nat) : Prop where
  kinds : ∀ c, Needed h leaves c → (h c).kind ≠ .model
  inputVars : ∀ c ∈ inputs, (h c).kind = .var
  ops : ∀ a b, (Needed h leaves a ∨ a ∈ inputs) → (Needed h leaves b ∨ b ∈ inputs) → (h a).name = (h b).name → (h a).kind = .op → a = b
  subNames : ∀ s ∈ subs, ∀ c, (Needed h leaves c ∨ c ∈ inputs) → (h s).name ≠ (h c).name

/-- The model is finite: object identities are below `n`. -/
structure Bounded (h : Heap) (n : Nat) (leaves : List Nat) : Prop where
  leaves : ∀ c ∈ leaves, c < n
  deps : ∀ c, c < n → ∀ u ∈ (h c).deps, u < n
  outs : ∀ c, c < n → ∀ u ∈ (h c).outs, u < n

end Csdl
