import Verif.Spec.Connect
import Verif.Spec.Collect
import Verif.Spec.Graph
import Mathlib.Logic.Relation
/-
Specification for C61: the meaning of a model hierarchy, without reference to the flat graph.
-/
namespace Csdl

/-- `x` is a variable node of the graph of some model of the hierarchy. -/
def IsVarOf (I : NHeap) (g : Graph) (kids : Kids) (x : Nat) : Prop := ∃ path g' ks', HierAt g kids path g' ks' ∧ x ∈ g'.nodes ∧ (I x).kind = .var

/-- The variable node `x` of some model of the hierarchy stands for a variable that has the promoted name `p`. -/
def HasPromotedName (m : Model) (I : NHeap) (g : Graph) (kids : Kids) (x : Nat) (p : Name) : Prop :=
  ∃ path g' ks' k w, HierAt g kids path g' ks' ∧ x ∈ g'.nodes ∧ (I x).kind = .var ∧ PromotedAs m path k w p ∧ w.name = (I x).name

/-- Model nodes are model nodes; what operations compute are outputs. -/
structure NodesOk (I : NHeap) (g : Graph) (kids : Kids) : Prop where
  models : ∀ path g' ks', HierAt g kids path g' ks' → ∀ i ∈ ks'.ids, (I i).kind = .model
  outputs : ∀ path g' ks', HierAt g kids path g' ks' → ∀ n v, g'.Edge n v → (I n).kind = .op → (I v).role = .output

/-- An interpretation of the operations of all models: the arguments of an operation are variables it depends on in the graph of its model. -/
structure Interprets {V : Type} (I : NHeap) (g : Graph) (kids : Kids) (O : Interp V) : Prop where
  isOp : ∀ n, O.isOp n = true ↔ (I n).kind = .op
  args : ∀ path g' ks', HierAt g kids path g' ks' → ∀ n ∈ g'.nodes, (I n).kind = .op → ∀ u ∈ O.args n, g'.Edge u n
  noArgs : ∀ n, (∀ path g' ks', HierAt g kids path g' ks' → n ∉ g'.nodes) → O.args n = []

/-- Values `σ` for the variables of all models of the hierarchy `m` are a solution if they satisfy every operation of every model, variables with the same promoted
name have the same value, and so have the two ends of every connection issued in any model. -/
structure ModelSolution {V : Type} (m : Model) (I : NHeap) (g : Graph) (kids : Kids) (O : Interp V) (σ : Env V) : Prop where
  ops : ∀ path g' ks', HierAt g kids path g' ks' → ∀ n v, g'.Edge n v → (I n).kind = .op → σ v = O.fn n ((O.args n).map σ) v
  shared : ∀ x y p, HasPromotedName m I g kids x p → HasPromotedName m I g kids y p → σ x = σ y
  connected : ∀ path l subs a b p q, At m path (.mk l subs) → (a, b) ∈ l.connections → Denotes m (fullName path a) p → Denotes m (fullName path b) q →
    ∀ x y, HasPromotedName m I g kids x p → HasPromotedName m I g kids y q → σ x = σ y

/-- The variable nodes `x` and `y` stand for variables with the same promoted name, or for the source and the target of a connection. -/
inductive Identified (m : Model) (I : NHeap) (g : Graph) (kids : Kids) (x y : Nat) : Prop
  | name (p : Name) : HasPromotedName m I g kids x p → HasPromotedName m I g kids y p → Identified m I g kids x y
  | connection (path : List Name) (l : Local) (subs : Subs) (a b p q : Name) : At m path (.mk l subs) → (a, b) ∈ l.connections → Denotes m (fullName path a) p → Denotes m (fullName path b) q →
      HasPromotedName m I g kids x p → HasPromotedName m I g kids y q → Identified m I g kids x y

/-- `q` is the promoted name of the target of a connection. -/
def TargetName (m : Model) (q : Name) : Prop := ∃ path l subs a b, At m path (.mk l subs) ∧ (a, b) ∈ l.connections ∧ Denotes m (fullName path b) q

/-- No connection has as its source its own target, or the target of a connection collected earlier (submodels first). -/
def NoChain (m : Model) : Prop :=
  (∀ i ∈ issuedPost Local.connections m, ∀ p, Denotes m (fullName i.1 i.2.1) p → ¬ Denotes m (fullName i.1 i.2.2) p) ∧
  (issuedPost Local.connections m).Pairwise fun i j => ∀ p, Denotes m (fullName j.1 j.2.1) p → ¬ Denotes m (fullName i.1 i.2.2) p

/-- The operations read the nodes that stand for their arguments. -/
def Interp.rename {V : Type} (O : Interp V) (f : Nat → Nat) : Interp V := { O with args := fun n => (O.args n).map f }

end Csdl
