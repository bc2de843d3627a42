import Verif.Model.Tree
/-
Specification of promotion, independent of `resolve`.
-/
namespace Csdl

/-- Is a variable with name `p` in the submodel's namespace promoted by `add(..., promotes)`?
`promotes=None`: every name without a '.'; a list: exactly the listed names. -/
def IsPromoted : Option (List Name) → Name → Prop
  | none, p => '.' ∉ p
  | some l, p => p ∈ l

/-- A variable is a source (created input or registered output) or a target (declared). -/
inductive VarKind where | source | target
  deriving DecidableEq, Repr

/-- The variables a model defines itself. -/
def Local.vars (l : Local) : VarKind → List VarInfo
  | .source => l.sources
  | .target => l.declared

/-- `PromotedAs m path k v p`: the variable `v` of kind `k`, defined in the model reached from `m`
through the submodels named in `path`, has the name `p` in the namespace of `m`. -/
inductive PromotedAs : Model → List Name → VarKind → VarInfo → Name → Prop
  /-- a variable has its own name in its own model -/
  | here {l subs k v} : v ∈ l.vars k → PromotedAs (.mk l subs) [] k v v.name
  /-- promoted by the enclosing `add`: the name is kept -/
  | up {l subs path k v p} {s : Subgraph} : s ∈ subs.toList → PromotedAs s.model path k v p →
      IsPromoted s.promotes p → PromotedAs (.mk l subs) (s.name :: path) k v p
  /-- not promoted: the submodel's name is prefixed -/
  | stay {l subs path k v p} {s : Subgraph} : s ∈ subs.toList → PromotedAs s.model path k v p →
      ¬ IsPromoted s.promotes p → PromotedAs (.mk l subs) (s.name :: path) k v (prependNamespace s.name p)

/-- Full name of a variable: the model names on the path and its own name, dot separated. -/
def fullName (path : List Name) (x : Name) : Name := path.foldr prependNamespace x

/-- `At m path m'`: `m'` is the model reached from `m` through the submodels named in `path`. -/
inductive At : Model → List Name → Model → Prop
  | here (m) : At m [] m
  | down {l subs path m'} {s : Subgraph} : s ∈ subs.toList → At s.model path m' →
      At (.mk l subs) (s.name :: path) m'

/-- Names as `create_input`, `register_output` and `add` with explicit non-empty names enforce
them: everywhere in the hierarchy variable names are dot-free, submodel names are dot-free,
non-empty and pairwise distinct. -/
def DotFree (m : Model) : Prop :=
  ∀ path l subs, At m path (.mk l subs) →
    (∀ k, ∀ v ∈ l.vars k, '.' ∉ v.name) ∧
    (∀ s ∈ subs.toList, s.name ≠ [] ∧ '.' ∉ s.name) ∧
    (subs.toList.map Subgraph.name).Nodup

/-- In every model of the hierarchy the local sources have pairwise distinct names. -/
def DistinctSources (m : Model) : Prop :=
  ∀ path l subs, At m path (.mk l subs) → (l.sources.map VarInfo.name).Nodup

/-- In every model of the hierarchy the declared variables have pairwise distinct names. -/
def DistinctTargets (m : Model) : Prop :=
  ∀ path l subs, At m path (.mk l subs) → (l.declared.map VarInfo.name).Nodup

/-- In every model of the hierarchy the variables declared more than once are declared with the same number of elements. -/
def ConsistentTargets (m : Model) : Prop :=
  ∀ path l subs, At m path (.mk l subs) → ∀ v ∈ l.declared, ∀ w ∈ l.declared, v.name = w.name → v.shape.size = w.shape.size

/-- Both variables are declared, or one belongs to a model that contains the model of the other. -/
def Compared (k1 : VarKind) (path1 : List Name) (k2 : VarKind) (path2 : List Name) : Prop := (k1 = .target ∧ k2 = .target) ∨ path1 <+: path2 ∨ path2 <+: path1

end Csdl
